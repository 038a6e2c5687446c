import Verif.Model.Logic
import Verif.Model.Arith
import Verif.Spec.Bits

/-!
# Spec: programs over integers, bit strings and single bits

As `Spec/Program`, with the comparisons of `AllocInt`, the operations of `AllocBits`, the gates of the circuit itself,
selection, and conversions between the three kinds of values. Programs are typed.
-/

namespace CC.Spec.Mixed
open Logic Arith

inductive Kind where
  | int
  | bits
  | bit
deriving DecidableEq

/-- one statement; numbers `i`, `j`, `s` are the positions of earlier statements, whose values are used -/
inductive Cmd where
  -- `AllocInt`
  | newInt
  | const (v : Nat)
  | zero
  | one
  | add (i j : Nat)
  | sub (i j : Nat)
  | mul (i j : Nat)
  | neg (i : Nat)
  | shl (i k : Nat)
  | shr (i k : Nat)
  | eq (i j : Nat)
  | neq (i j : Nat)
  | less (i j : Nat)
  | lessOrEq (i j : Nat)
  | larger (i j : Nat)
  | largerOrEq (i j : Nat)
  /-- a bit as a number -/
  | ofBit (i : Nat)
  /-- a bit string as a number -/
  | toInt (i : Nat)
  -- `AllocBits`
  | newBits
  /-- a number as a bit string -/
  | toBits (i : Nat)
  | notBits (i : Nat)
  | andBits (i j : Nat)
  | orBits (i j : Nat)
  | xorBits (i j : Nat)
  | eqBits (i j : Nat)
  | neqBits (i j : Nat)
  /-- `i` if the bit `s` is 0, otherwise `j` -/
  | mux (s i j : Nat)
  -- gates of the circuit
  | input
  | constant (b : Bool)
  | not (i : Nat)
  | and (i j : Nat)
  | or (i j : Nat)
  | xor (i j : Nat)
  | equivalent (i j : Nat)
  | identity (i : Nat)

/-! ### what the user writes -/

/-- a value of the host program -/
inductive Handle where
  | int (x : AInt)
  | bits (x : Bits)
  | bit (g : GateId)

/-- read an earlier value; the Rust compiler rejects programs in which the kind is wrong -/
def int (env : List Handle) (i : Nat) : M AInt := do
  match ← M.idx env i with
  | .int x => pure x
  | _ => M.throw (.panic .assertFailed)

def bits (env : List Handle) (i : Nat) : M Bits := do
  match ← M.idx env i with
  | .bits x => pure x
  | _ => M.throw (.panic .assertFailed)

def bit (env : List Handle) (i : Nat) : M GateId := do
  match ← M.idx env i with
  | .bit x => pure x
  | _ => M.throw (.panic .assertFailed)

/-- both configurations, for one circuit -/
def configs (n : Nat) (r : Ref) : M (IntConfig × BitsConfig) := do
  let ic ← IntConfig.new r n
  let bc ← BitsConfig.new r n
  pure (ic, bc)

/-- the call a statement stands for; `env` are the values made so far -/
def Cmd.build (r : Ref) (ic : IntConfig) (bc : BitsConfig) (n : Nat) (env : List Handle) : Cmd → M Handle
  | .newInt => do return .int (← AInt.new ic n)
  | .const v => do return .int (← AInt.fromBiguint ic n v)
  | .zero => do return .int (← AInt.zero ic n)
  | .one => do return .int (← AInt.one ic n)
  | .add i j => do let x ← int env i; let y ← int env j; return .int (← x.add y)
  | .sub i j => do let x ← int env i; let y ← int env j; return .int (← x.sub y)
  | .mul i j => do let x ← int env i; let y ← int env j; return .int (← x.mul y)
  | .neg i => do let x ← int env i; return .int (← x.neg n)
  | .shl i k => do let x ← int env i; return .int (← x.shiftLeft n k)
  | .shr i k => do let x ← int env i; return .int (← x.shiftRight n k)
  | .eq i j => do let x ← int env i; let y ← int env j; return .bit (← x.eq y n)
  | .neq i j => do let x ← int env i; let y ← int env j; return .bit (← x.neq y n)
  | .less i j => do let x ← int env i; let y ← int env j; return .bit (← x.less y n)
  | .lessOrEq i j => do let x ← int env i; let y ← int env j; return .bit (← x.lessOrEq y n)
  | .larger i j => do let x ← int env i; let y ← int env j; return .bit (← x.larger y n)
  | .largerOrEq i j => do let x ← int env i; let y ← int env j; return .bit (← x.largerOrEq y n)
  | .ofBit i => do let x ← bit env i; return .int (← AInt.fromGateIds ic n [x])
  | .toInt i => do let x ← bits env i; return .int (← AInt.fromGateIds ic n x.bits)
  | .newBits => do return .bits (← Bits.new bc n)
  | .toBits i => do let x ← int env i; return .bits (← Bits.fromGateIds bc n x.val)
  | .notBits i => do let x ← bits env i; return .bits (← x.not)
  | .andBits i j => do let x ← bits env i; let y ← bits env j; return .bits (← x.and y)
  | .orBits i j => do let x ← bits env i; let y ← bits env j; return .bits (← x.or y)
  | .xorBits i j => do let x ← bits env i; let y ← bits env j; return .bits (← x.xor y)
  | .eqBits i j => do let x ← bits env i; let y ← bits env j; return .bit (← x.eq y)
  | .neqBits i j => do let x ← bits env i; let y ← bits env j; return .bit (← x.neq y)
  | .mux s i j => do let c ← bit env s; let x ← bits env i; let y ← bits env j; return .bits (← x.mux y n c)
  | .input => do return .bit (← CC.input r)
  | .constant b => do return .bit (← CC.constant r b)
  | .not i => do let x ← bit env i; return .bit (← CC.not r x)
  | .and i j => do let x ← bit env i; let y ← bit env j; return .bit (← CC.and r x y)
  | .or i j => do let x ← bit env i; let y ← bit env j; return .bit (← CC.or r x y)
  | .xor i j => do let x ← bit env i; let y ← bit env j; return .bit (← CC.xor r x y)
  | .equivalent i j => do let x ← bit env i; let y ← bit env j; return .bit (← CC.equivalent r x y)
  | .identity i => do let x ← bit env i; return .bit (← CC.identity r x)

/-- performing the statements -/
def build (r : Ref) (ic : IntConfig) (bc : BitsConfig) (n : Nat) : List Cmd → List Handle → M (List Handle)
  | [], env => pure env
  | c :: p, env => do
    let x ← c.build r ic bc n env
    build r ic bc n p (env ++ [x])

/-- declaring a value as output -/
def Handle.output (r : Ref) (n : Nat) : Handle → M Unit
  | .int x => x.output n
  | .bits x => x.output n
  | .bit g => do let _ ← CC.output r g

/-- the whole program; returns the circuit -/
def compile (st : StoreRef) (n : Nat) (p : List Cmd) (outs : List Nat) : M Ref := do
  let r ← newCircuit st
  let (ic, bc) ← configs n r
  let env ← build r ic bc n p []
  let _ ← M.mapList (fun i => do let z ← M.idx env i; z.output r n) outs
  pure r

/-! ### what it means -/

/-- a value -/
inductive Value (n : Nat) where
  | int (v : BitVec n)
  | bits (v : BitVec n)
  | bit (b : Bool)

def getInt {n} (env : List (Value n)) (i : Nat) : Option (BitVec n) :=
  match env[i]? with
  | some (.int v) => some v
  | _ => none

def getBits {n} (env : List (Value n)) (i : Nat) : Option (BitVec n) :=
  match env[i]? with
  | some (.bits v) => some v
  | _ => none

def getBit {n} (env : List (Value n)) (i : Nat) : Option Bool :=
  match env[i]? with
  | some (.bit v) => some v
  | _ => none

/-- the word of `n` bits, least significant first -/
def word (n : Nat) (bs : List Bool) : BitVec n := BitVec.ofNat n (bitsVal bs)

/-- order comparisons look at the sign of the wrapped difference (C29) -/
def below {n} (x y : BitVec n) : Bool := (x - y).msb

/-- the meaning of a statement: its value, and how many input bits it takes from `ins` -/
def Cmd.value {n : Nat} (env : List (Value n)) (ins : List Bool) : Cmd → Option (Value n)
  | .newInt => some (.int (word n (ins.take n)))
  | .const v => some (.int (BitVec.ofNat n v))
  | .zero => some (.int 0)
  | .one => some (.int 1)
  | .add i j => do let x ← getInt env i; let y ← getInt env j; return .int (x + y)
  | .sub i j => do let x ← getInt env i; let y ← getInt env j; return .int (x - y)
  | .mul i j => do let x ← getInt env i; let y ← getInt env j; return .int (x * y)
  | .neg i => do let x ← getInt env i; return .int (-x)
  | .shl i k => do let x ← getInt env i; return .int (x <<< k)
  | .shr i k => do let x ← getInt env i; return .int (x.sshiftRight k)
  | .eq i j => do let x ← getInt env i; let y ← getInt env j; return .bit (x == y)
  | .neq i j => do let x ← getInt env i; let y ← getInt env j; return .bit (x != y)
  | .less i j => do let x ← getInt env i; let y ← getInt env j; return .bit (below x y)
  | .lessOrEq i j => do let x ← getInt env i; let y ← getInt env j; return .bit (below x y || x == y)
  | .larger i j => do let x ← getInt env i; let y ← getInt env j; return .bit (!(below x y || x == y))
  | .largerOrEq i j => do let x ← getInt env i; let y ← getInt env j; return .bit (!below x y)
  | .ofBit i => do let b ← getBit env i; return .int (if b then 1 else 0)
  | .toInt i => do let x ← getBits env i; return .int x
  | .newBits => some (.bits (word n (ins.take n)))
  | .toBits i => do let x ← getInt env i; return .bits x
  | .notBits i => do let x ← getBits env i; return .bits (~~~x)
  | .andBits i j => do let x ← getBits env i; let y ← getBits env j; return .bits (x &&& y)
  | .orBits i j => do let x ← getBits env i; let y ← getBits env j; return .bits (x ||| y)
  | .xorBits i j => do let x ← getBits env i; let y ← getBits env j; return .bits (x ^^^ y)
  | .eqBits i j => do let x ← getBits env i; let y ← getBits env j; return .bit (x == y)
  | .neqBits i j => do let x ← getBits env i; let y ← getBits env j; return .bit (x != y)
  | .mux s i j => do
    let c ← getBit env s; let x ← getBits env i; let y ← getBits env j; return .bits (if c then y else x)
  | .input => some (.bit (ins.head?.getD false))
  | .constant b => some (.bit b)
  | .not i => do let x ← getBit env i; return .bit (!x)
  | .and i j => do let x ← getBit env i; let y ← getBit env j; return .bit (x && y)
  | .or i j => do let x ← getBit env i; let y ← getBit env j; return .bit (x || y)
  | .xor i j => do let x ← getBit env i; let y ← getBit env j; return .bit (x ^^ y)
  | .equivalent i j => do let x ← getBit env i; let y ← getBit env j; return .bit (x == y)
  | .identity i => do let x ← getBit env i; return .bit x

/-- the number of input bits a statement takes -/
def Cmd.takes (n : Nat) : Cmd → Nat
  | .newInt | .newBits => n
  | .input => 1
  | _ => 0

/-- run a program on input bits; the result is the list of all values -/
def exec {n : Nat} : List Cmd → (ins : List Bool) → (env : List (Value n)) → Option (List (Value n))
  | [], _, env => some env
  | c :: p, ins, env => do
    let v ← c.value env ins
    exec p (ins.drop (c.takes n)) (env ++ [v])

/-- the bits of a value -/
def Value.out {n : Nat} : Value n → List Bool
  | .int v => bitsOf n v.toNat
  | .bits v => bitsOf n v.toNat
  | .bit b => [b]

/-- run a program and read the chosen values -/
def runProgram (n : Nat) (p : List Cmd) (outs : List Nat) (ins : List Bool) : Option (List Bool) := do
  let env ← exec (n := n) p ins []
  let vs ← outs.mapM fun i => env[i]?
  return vs.flatMap Value.out

/-- the number of input bits -/
def inputs (n : Nat) : List Cmd → Nat
  | [] => 0
  | c :: p => c.takes n + inputs n p

/-! ### which programs there are -/

/-- the kind of the result, if the operands have the right kinds -/
def Cmd.kind (ks : List Kind) : Cmd → Option Kind
  | .newInt | .const _ | .zero | .one => some .int
  | .add i j | .sub i j | .mul i j => if ks[i]? = some .int ∧ ks[j]? = some .int then some .int else none
  | .neg i | .shl i _ | .shr i _ => if ks[i]? = some .int then some .int else none
  | .eq i j | .neq i j | .less i j | .lessOrEq i j | .larger i j | .largerOrEq i j =>
    if ks[i]? = some .int ∧ ks[j]? = some .int then some .bit else none
  | .ofBit i => if ks[i]? = some .bit then some .int else none
  | .toInt i => if ks[i]? = some .bits then some .int else none
  | .newBits => some .bits
  | .toBits i => if ks[i]? = some .int then some .bits else none
  | .notBits i => if ks[i]? = some .bits then some .bits else none
  | .andBits i j | .orBits i j | .xorBits i j => if ks[i]? = some .bits ∧ ks[j]? = some .bits then some .bits else none
  | .eqBits i j | .neqBits i j => if ks[i]? = some .bits ∧ ks[j]? = some .bits then some .bit else none
  | .mux s i j => if ks[s]? = some .bit ∧ ks[i]? = some .bits ∧ ks[j]? = some .bits then some .bits else none
  | .input | .constant _ => some .bit
  | .not i | .identity i => if ks[i]? = some .bit then some .bit else none
  | .and i j | .or i j | .xor i j | .equivalent i j => if ks[i]? = some .bit ∧ ks[j]? = some .bit then some .bit else none

/-- the kinds of all values -/
def kinds : List Cmd → List Kind → Option (List Kind)
  | [], ks => some ks
  | c :: p, ks => do
    let k ← c.kind ks
    kinds p (ks ++ [k])

/-- constants fit the width, counted in whole bytes, and shifts are not larger than the width -/
def Cmd.Fits (n : Nat) : Cmd → Prop
  | .const v => ∃ k, 1 ≤ k ∧ v < 256 ^ k ∧ 8 * k ≤ n
  | .shl _ k => k ≤ n
  | .shr _ k => k ≤ n
  | _ => True

/-- the operand whose gates the result consists of (apart from constants) -/
def Cmd.reuses : Cmd → Option Nat
  | .shl i _ | .shr i _ | .ofBit i | .toInt i | .toBits i => some i
  | _ => none

/-- the statement that made the gates of each value -/
def origins : List Cmd → List Nat → List Nat
  | [], os => os
  | c :: p, os => origins p (os ++ [match c.reuses with | some i => os[i]?.getD 0 | none => os.length])

/-- values made of inputs and constants only -/
def Cmd.source : Cmd → Bool
  | .newInt | .const _ | .zero | .one | .newBits | .input | .constant _ => true
  | _ => false

/-- Outputs are declared in the order in which their gates were made; values made of inputs and constants may come earlier
than that. -/
def Ordered (p : List Cmd) (outs : List Nat) : Prop :=
  outs.Pairwise fun a b => ∀ i j, (origins p [])[a]? = some i → (origins p [])[b]? = some j →
    (p[i]?.map (·.source) = some true) ∨ i ≤ j

end CC.Spec.Mixed
