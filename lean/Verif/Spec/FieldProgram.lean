import Verif.Spec.Field
import Verif.Spec.Bits

/-!
# Straight-line programs over field elements

A small language for what a user of `AllocFp` writes: new elements, constants, the operators, comparisons, and gates on the
results of comparisons. `compile` performs the calls of the library (/repo/src/circuits/finite_field/mod.rs:15-123).
`exec` says what the circuits compute, as words of `n` bits. `meaning` says what a user expects: arithmetic modulo `p`.
Operands are positions of earlier statements, so values can be used more than once.
-/

namespace CC.Spec.FieldProgram
open Arith Fp

/-- one statement; its result gets the next position -/
inductive Cmd where
  | new
  | const (v : Nat)
  | zero
  | one
  | add (i j : Nat)
  | sub (i j : Nat)
  | mul (i j : Nat)
  | neg (i : Nat)
  | eq (i j : Nat)
  | neq (i j : Nat)
  | not (i : Nat)
  | and (i j : Nat)
  | or (i j : Nat)
  | xor (i j : Nat)

/-! ### what the user writes -/

/-- a value of the host program -/
inductive Handle where
  | elem (x : AFp)
  | bit (g : GateId)

/-- read an earlier value; the Rust compiler rejects programs in which the kind is wrong -/
def elem (env : List Handle) (i : Nat) : M AFp := do
  match ← M.idx env i with
  | .elem x => pure x
  | _ => M.throw (.panic .assertFailed)

def bit (env : List Handle) (i : Nat) : M GateId := do
  match ← M.idx env i with
  | .bit x => pure x
  | _ => M.throw (.panic .assertFailed)

/-- the call a statement stands for; `env` are the values made so far -/
def Cmd.build (r : Ref) (cfg : FpConfig) (n : Nat) (env : List Handle) : Cmd → M Handle
  | .new => do return .elem (← AFp.new cfg n)
  | .const v => do return .elem (← AFp.fromBiguintUnchecked cfg n v)
  | .zero => do return .elem (← AFp.zero cfg n)
  | .one => do return .elem (← AFp.one cfg n)
  | .add i j => do let x ← elem env i; let y ← elem env j; return .elem (← x.add y n)
  | .sub i j => do let x ← elem env i; let y ← elem env j; return .elem (← x.sub y n)
  | .mul i j => do let x ← elem env i; let y ← elem env j; return .elem (← x.mul y n)
  | .neg i => do let x ← elem env i; return .elem (← x.neg n)
  | .eq i j => do let x ← elem env i; let y ← elem env j; return .bit (← x.eq y n)
  | .neq i j => do let x ← elem env i; let y ← elem env j; return .bit (← x.neq y n)
  | .not i => do let x ← bit env i; return .bit (← CC.not r x)
  | .and i j => do let x ← bit env i; let y ← bit env j; return .bit (← CC.and r x y)
  | .or i j => do let x ← bit env i; let y ← bit env j; return .bit (← CC.or r x y)
  | .xor i j => do let x ← bit env i; let y ← bit env j; return .bit (← CC.xor r x y)

/-- performing the statements -/
def build (r : Ref) (cfg : FpConfig) (n : Nat) : List Cmd → List Handle → M (List Handle)
  | [], env => pure env
  | c :: p, env => do
    let x ← c.build r cfg n env
    build r cfg n p (env ++ [x])

/-- declaring a value as output -/
def Handle.output (r : Ref) (n : Nat) : Handle → M Unit
  | .elem x => x.output n
  | .bit g => do let _ ← CC.output r g

/-- the whole program; returns the circuit -/
def compile (st : StoreRef) (n p rExp : Nat) (prog : List Cmd) (outs : List Nat) : M Ref := do
  let r ← newCircuit st
  let cfg ← fieldOver r n p rExp
  let env ← build r cfg n prog []
  let _ ← M.mapList (fun i => do let z ← M.idx env i; z.output r n) outs
  pure r

/-! ### what the circuits compute -/

/-- a value: a word or a bit -/
inductive Value (n : Nat) where
  | elem (v : BitVec n)
  | bit (b : Bool)

def getElem {n} (env : List (Value n)) (i : Nat) : Option (BitVec n) :=
  match env[i]? with
  | some (.elem v) => some v
  | _ => none

def getBit {n} (env : List (Value n)) (i : Nat) : Option Bool :=
  match env[i]? with
  | some (.bit v) => some v
  | _ => none

/-- the word of `n` bits, least significant first -/
def word (n : Nat) (bs : List Bool) : BitVec n := BitVec.ofNat n (bitsVal bs)

/-- What becomes of a wrapped sum or difference `s`. It is too large if `s - p` is neither zero nor negative, and too small if
it is negative itself; both are read off sign bits. For words far outside of the range of the field both can hold at once. -/
def correct {n : Nat} (p s : BitVec n) : BitVec n :=
  match !((s - p).msb || s == p), s.msb with
  | false, false => s
  | true, false => s - p
  | false, true => s + p
  | true, true => (s - p) + (s + p)

/-- the value of a statement; `ins` are the input bits that have not been used yet -/
def Cmd.value {n : Nat} (p : BitVec n) (env : List (Value n)) (ins : List Bool) : Cmd → Option (Value n)
  | .new => some (.elem (word n (ins.take n)))
  | .const v => some (.elem (BitVec.ofNat n v))
  | .zero => some (.elem 0)
  | .one => some (.elem 1)
  | .add i j => do let x ← getElem env i; let y ← getElem env j; return .elem (correct p (x + y))
  | .sub i j => do let x ← getElem env i; let y ← getElem env j; return .elem (correct p (x - y))
  | .mul i j => do let _ ← getElem env i; let _ ← getElem env j; return .elem 0
  | .neg i => do let x ← getElem env i; return .elem (correct p (-x))
  | .eq i j => do let x ← getElem env i; let y ← getElem env j; return .bit (x == y)
  | .neq i j => do let x ← getElem env i; let y ← getElem env j; return .bit (x != y)
  | .not i => do let x ← getBit env i; return .bit (!x)
  | .and i j => do let x ← getBit env i; let y ← getBit env j; return .bit (x && y)
  | .or i j => do let x ← getBit env i; let y ← getBit env j; return .bit (x || y)
  | .xor i j => do let x ← getBit env i; let y ← getBit env j; return .bit (x ^^ y)

/-- the number of input bits a statement takes -/
def Cmd.takes (n : Nat) : Cmd → Nat
  | .new => n
  | _ => 0

/-- run a program on input bits; the result is the list of all values -/
def exec {n : Nat} (p : BitVec n) : List Cmd → (ins : List Bool) → (env : List (Value n)) → Option (List (Value n))
  | [], _, env => some env
  | c :: prog, ins, env => do
    let v ← c.value p env ins
    exec p prog (ins.drop (c.takes n)) (env ++ [v])

/-- the bits of a value -/
def Value.out {n : Nat} : Value n → List Bool
  | .elem v => bitsOf n v.toNat
  | .bit b => [b]

/-- the number of input bits -/
def inputs (n : Nat) : List Cmd → Nat
  | [] => 0
  | c :: p => c.takes n + inputs n p

/-! ### what a user expects -/

/-- a number modulo `p` (between 0 and `p - 1`), or a bit -/
inductive FValue where
  | elem (v : Int)
  | bit (b : Bool)
  deriving DecidableEq

def fElem (env : List FValue) (i : Nat) : Option Int :=
  match env[i]? with
  | some (.elem v) => some v
  | _ => none

def fBit (env : List FValue) (i : Nat) : Option Bool :=
  match env[i]? with
  | some (.bit v) => some v
  | _ => none

/-- the meaning of a statement in the integers modulo `p`; `xs` are the arguments that have not been used yet -/
def Cmd.meaning (p : Nat) (env : List FValue) (xs : List Nat) : Cmd → Option FValue
  | .new => do let x ← xs.head?; return .elem (x % p)
  | .const v => some (.elem (v % p))
  | .zero => some (.elem (0 % p))
  | .one => some (.elem (1 % p))
  | .add i j => do let x ← fElem env i; let y ← fElem env j; return .elem ((x + y) % p)
  | .sub i j => do let x ← fElem env i; let y ← fElem env j; return .elem ((x - y) % p)
  | .mul i j => do let x ← fElem env i; let y ← fElem env j; return .elem ((x * y) % p)
  | .neg i => do let x ← fElem env i; return .elem ((-x) % p)
  | .eq i j => do let x ← fElem env i; let y ← fElem env j; return .bit (x == y)
  | .neq i j => do let x ← fElem env i; let y ← fElem env j; return .bit (x != y)
  | .not i => do let x ← fBit env i; return .bit (!x)
  | .and i j => do let x ← fBit env i; let y ← fBit env j; return .bit (x && y)
  | .or i j => do let x ← fBit env i; let y ← fBit env j; return .bit (x || y)
  | .xor i j => do let x ← fBit env i; let y ← fBit env j; return .bit (x ^^ y)

/-- the arguments a statement uses up -/
def Cmd.args : Cmd → Nat
  | .new => 1
  | _ => 0

/-- the meaning of a program: all its values modulo `p` -/
def meaning (p : Nat) : List Cmd → (xs : List Nat) → (env : List FValue) → Option (List FValue)
  | [], _, env => some env
  | c :: prog, xs, env => do
    let v ← c.meaning p env xs
    meaning p prog (xs.drop c.args) (env ++ [v])

/-- the number of arguments -/
def arity : List Cmd → Nat
  | [] => 0
  | c :: p => c.args + arity p

/-- the arguments as input bits -/
def encode (n : Nat) (xs : List Nat) : List Bool := xs.flatMap fun x => bitsOf n x

/-! ### which programs there are -/

inductive Kind where
  | elem
  | bit
  deriving DecidableEq

/-- the kind of the result, if the operands have the right kinds -/
def Cmd.kind (ks : List Kind) : Cmd → Option Kind
  | .new | .const _ | .zero | .one => some .elem
  | .add i j | .sub i j | .mul i j => if ks[i]? = some .elem ∧ ks[j]? = some .elem then some .elem else none
  | .neg i => if ks[i]? = some .elem then some .elem else none
  | .eq i j | .neq i j => if ks[i]? = some .elem ∧ ks[j]? = some .elem then some .bit else none
  | .not i => if ks[i]? = some .bit then some .bit else none
  | .and i j | .or i j | .xor i j => if ks[i]? = some .bit ∧ ks[j]? = some .bit then some .bit else none

/-- the kinds of all values -/
def kinds : List Cmd → List Kind → Option (List Kind)
  | [], ks => some ks
  | c :: p, ks => do
    let k ← c.kind ks
    kinds p (ks ++ [k])

/-- constants are at most `p` -/
def Cmd.Fits (p : Nat) : Cmd → Prop
  | .const v => v ≤ p
  | _ => True

def Cmd.isMul : Cmd → Bool
  | .mul _ _ => true
  | _ => false

/-- values made of inputs and constants only -/
def Cmd.source : Cmd → Bool
  | .new | .const _ | .zero | .one => true
  | _ => false

/-- Outputs are declared in the order in which they were computed; inputs and constants may come earlier than that. -/
def Ordered (prog : List Cmd) (outs : List Nat) : Prop :=
  outs.Pairwise fun a b => prog[a]?.map (·.source) = some true ∨ a ≤ b

end CC.Spec.FieldProgram
