import Verif.Model.Circuit

/-!
# Spec: the size of circuits

`Cost` holds the counters of a circuit that its API reports: gates (`num_gate`: `NOT`, `XOR`, `AND`, `OR`, called circuits included),
constants (called circuits included), inputs and outputs.
-/

namespace CC.Spec

@[ext] structure Cost where
  gates : Nat
  consts : Nat
  ins : Nat
  outs : Nat

instance : Add Cost := ⟨fun a b => ⟨a.gates + b.gates, a.consts + b.consts, a.ins + b.ins, a.outs + b.outs⟩⟩

instance : Zero Cost := ⟨⟨0, 0, 0, 0⟩⟩

/-- the counters of a circuit -/
def counts (c : Circuit) : Cost := ⟨c.numGate, c.numConst, c.inputLen, c.outputLen⟩

/-- between heaps `w` and `w'` circuit `r` got these gates, constants, inputs and outputs more; the other circuits are the same, and
so are the module tables -/
def Added (r : Ref) (w w' : World) (k : Cost) : Prop :=
  ∃ c c', w.circs[r]? = some c ∧ w' = w.setC r c' ∧ c'.storage = c.storage ∧ counts c' = counts c + k

/-! ### the sizes of the module circuits, by width -/

def addCost (n : Nat) : Cost := ⟨6 * n - 3, 0, 2 * n, n⟩

def subCost (n : Nat) : Cost := ⟨13 * n - 6, n, 2 * n, n⟩

def mulCost (n : Nat) : Cost := ⟨n * (n + 1) / 2 + n * (6 * n - 3), n + n * (n - 1) / 2, 2 * n, n⟩

def mulExtendCost (n : Nat) : Cost := ⟨n * n + n * (12 * n - 3), 2 * n + n * n, 2 * n, 2 * n⟩

def eqCost (n : Nat) : Cost := ⟨3 * n, 1, 2 * n, 1⟩

def neqCost (n : Nat) : Cost := ⟨3 * n + 1, 1, 2 * n, 1⟩

def lessCost (n : Nat) : Cost := ⟨13 * n - 4, n + 1, 2 * n, 1⟩

def lessOrEqCost (n : Nat) : Cost := ⟨16 * n - 3, n + 2, 2 * n, 1⟩

def largerCost (n : Nat) : Cost := ⟨16 * n - 2, n + 2, 2 * n, 1⟩

def largerOrEqCost (n : Nat) : Cost := ⟨13 * n - 3, n + 1, 2 * n, 1⟩

def fieldAddCost (n : Nat) : Cost := ⟨79 * n - 28 + 3 * (mulCost n).gates, 10 * n + 3 * (mulCost n).consts, 2 * n, n⟩

def fieldSubCost (n : Nat) : Cost := ⟨(fieldAddCost n).gates + (13 * n - 6), (fieldAddCost n).consts + 2 * n, 2 * n, n⟩

def redCost (n rExp : Nat) : Cost := ⟨58 * n - 24 + (n - rExp) + 4 * (mulCost n).gates, 8 * n + 1 + 4 * (mulCost n).consts, n, n⟩

def fieldMulCost (n rExp : Nat) : Cost :=
  ⟨2 * (redCost n rExp).gates + 2 * (mulCost n).gates, n + 2 * (redCost n rExp).consts + 2 * (mulCost n).consts, 2 * n, n⟩

/-- what a call of a circuit adds to the caller -/
def Cost.call (k : Cost) : Cost := ⟨k.gates, k.consts, 0, 0⟩

end CC.Spec
