import Verif.Spec.Semantics

/-!
# Spec: how deeply calls nest

The evaluator and the writer are recursive functions: a gate asks for its operands, and a module call asks for the output
gates of the called circuit. `Within w r g n` says that no chain of such requests starting at gate `g` of circuit `r` is
longer than `n`; it mentions neither of the two functions. `together` adds up the number of gates of some circuits.
-/

namespace CC.Spec

/-- no chain of requests starting at gate `g` of circuit `r` has more than `n` members -/
inductive Within (w : World) : Ref → GateId → Nat → Prop where
  | mk {r c g n} : w.circs[r]? = some c →
      (∀ gate, c.gateMap g = some gate → ∀ x ∈ gate.operands, Within w r x n) →
      (∀ nIn nOut ids oi mid mr mc i o, c.gateMap g = some (.module nIn nOut ids oi mid) → w.module? c mid = some mr →
        w.circs[mr]? = some mc → mc.outputMap i = some o → Within w mr o n) →
      Within w r g (n + 1)

/-- number of gates of circuit `r` -/
def size (w : World) (r : Ref) : Nat :=
  match w.circs[r]? with
  | some c => c.gateIndex
  | none => 0

/-- number of gates of the circuits in `s` together -/
def together (w : World) (s : List Ref) : Nat := (s.map (size w)).sum

/-- number of gates in the whole heap -/
def gates (w : World) : Nat := (w.circs.map (·.gateIndex)).sum

/-- `s` contains the circuits called by its members -/
def Closed (w : World) (s : List Ref) : Prop :=
  ∀ r ∈ s, ∀ c mr, w.circs[r]? = some c → Calls w c mr → mr ∈ s

end CC.Spec
