import Verif.Model.Arith
import Verif.Spec.Bits

/-!
# Spec: straight-line programs over `AllocInt`

`compile` is the Rust code a user would write: create a circuit, create a configuration of width `n`, perform the
statements one after the other, declare the chosen values as outputs. `exec` runs the same statements on machine words,
using Lean's `BitVec` operations.
-/

namespace CC.Spec
open Arith

/-- one statement; `i` and `j` are the positions of earlier statements, whose values are used -/
inductive Stmt where
  | input
  | const (v : Nat)
  | zero
  | one
  | add (i j : Nat)
  | sub (i j : Nat)
  | mul (i j : Nat)
  | neg (i : Nat)
  | shl (i k : Nat)
  | shr (i k : Nat)
  | eq (i j : Nat)
  | neq (i j : Nat)

/-- the call a statement stands for; `env` are the values made so far -/
def Stmt.build (cfg : IntConfig) (n : Nat) (env : List AInt) : Stmt → M AInt
  | .input => AInt.new cfg n
  | .const v => AInt.fromBiguint cfg n v
  | .zero => AInt.zero cfg n
  | .one => AInt.one cfg n
  | .add i j => do let x ← M.idx env i; let y ← M.idx env j; x.add y
  | .sub i j => do let x ← M.idx env i; let y ← M.idx env j; x.sub y
  | .mul i j => do let x ← M.idx env i; let y ← M.idx env j; x.mul y
  | .neg i => do let x ← M.idx env i; x.neg n
  | .shl i k => do let x ← M.idx env i; x.shiftLeft n k
  | .shr i k => do let x ← M.idx env i; x.shiftRight n k
  | .eq i j => do let x ← M.idx env i; let y ← M.idx env j; let g ← x.eq y n; AInt.fromGateIds cfg n [g]
  | .neq i j => do let x ← M.idx env i; let y ← M.idx env j; let g ← x.neq y n; AInt.fromGateIds cfg n [g]

/-- performing the statements -/
def build (cfg : IntConfig) (n : Nat) : List Stmt → List AInt → M (List AInt)
  | [], env => pure env
  | s :: p, env => do
    let x ← s.build cfg n env
    build cfg n p (env ++ [x])

/-- the whole program; returns the circuit -/
def compile (st : StoreRef) (n : Nat) (p : List Stmt) (outs : List Nat) : M Ref := do
  let r ← newCircuit st
  let cfg ← IntConfig.new r n
  let env ← build cfg n p []
  let _ ← M.mapList (fun i => do let z ← M.idx env i; z.output n) outs
  pure r

/-- the meaning of a statement other than `input` -/
def Stmt.value {n : Nat} (env : List (BitVec n)) : Stmt → Option (BitVec n)
  | .input => none
  | .const v => some (BitVec.ofNat n v)
  | .zero => some 0
  | .one => some 1
  | .add i j => do let x ← env[i]?; let y ← env[j]?; return x + y
  | .sub i j => do let x ← env[i]?; let y ← env[j]?; return x - y
  | .mul i j => do let x ← env[i]?; let y ← env[j]?; return x * y
  | .neg i => do let x ← env[i]?; return -x
  | .shl i k => do let x ← env[i]?; return x <<< k
  | .shr i k => do let x ← env[i]?; return x.sshiftRight k
  | .eq i j => do let x ← env[i]?; let y ← env[j]?; return if x = y then 1 else 0
  | .neq i j => do let x ← env[i]?; let y ← env[j]?; return if x = y then 0 else 1

/-- run a program on input words; the result is the list of all values -/
def exec {n : Nat} : List Stmt → (inputs env : List (BitVec n)) → Option (List (BitVec n))
  | [], _, env => some env
  | .input :: p, x :: xs, env => exec p xs (env ++ [x])
  | .input :: _, [], _ => none
  | s :: p, xs, env => do
    let v ← s.value env
    exec p xs (env ++ [v])

/-- run a program and read the chosen values -/
def runProgram {n : Nat} (p : List Stmt) (outs : List Nat) (xs : List (BitVec n)) : Option (List (BitVec n)) := do
  let env ← exec p xs []
  outs.mapM fun i => env[i]?

/-- the number of input words -/
def inputs : List Stmt → Nat
  | [] => 0
  | .input :: p => inputs p + 1
  | _ :: p => inputs p

/-- the positions a statement uses -/
def Stmt.uses : Stmt → List Nat
  | .input | .const _ | .zero | .one => []
  | .add i j | .sub i j | .mul i j | .eq i j | .neq i j => [i, j]
  | .neg i | .shl i _ | .shr i _ => [i]

/-- statements only use earlier values; `m` values exist before the first one -/
def Scoped : (m : Nat) → List Stmt → Prop
  | _, [] => True
  | m, s :: p => (∀ i ∈ s.uses, i < m) ∧ Scoped (m + 1) p

/-- constants fit the width, counted in whole bytes, and shifts are not larger than the width -/
def Stmt.Fits (n : Nat) : Stmt → Prop
  | .const v => ∃ k, 1 ≤ k ∧ v < 256 ^ k ∧ 8 * k ≤ n
  | .shl _ k => k ≤ n
  | .shr _ k => k ≤ n
  | _ => True

/-- the statement that made (most of) the gates of each value: shifts reuse the gates of their operand -/
def origins : List Stmt → List Nat → List Nat
  | [], os => os
  | .shl i _ :: p, os => origins p (os ++ [os[i]?.getD 0])
  | .shr i _ :: p, os => origins p (os ++ [os[i]?.getD 0])
  | _ :: p, os => origins p (os ++ [os.length])

/-- values made of inputs and constants only -/
def Stmt.source : Stmt → Bool
  | .input | .const _ | .zero | .one => true
  | _ => false

/-- the arithmetic operations, as opposed to comparisons -/
def Stmt.arith : Stmt → Bool
  | .eq _ _ | .neq _ _ => false
  | _ => true

/-- outputs are declared in the order in which their gates were made; values made of inputs and constants may come
earlier than that -/
def Ordered (p : List Stmt) (outs : List Nat) : Prop :=
  outs.Pairwise fun a b => ∀ i j, (origins p [])[a]? = some i → (origins p [])[b]? = some j →
    (p[i]?.map (·.source) = some true) ∨ i ≤ j

end CC.Spec
