import Verif.Spec.Semantics

/-!
# Spec: circuits on which the evaluator is bound to lose a value

The evaluator drops the value of a gate after as many reads as the gate has readers, and it cannot compute an input again.
-/

namespace CC.Spec

/-- every reader of `x` is needed for some output and reads it as often as it is counted -/
def Tight (c : Circuit) (x : GateId) : Prop :=
  ∀ g gate, c.gateMap g = some gate → x ∈ gate.operands →
    (∃ i p, c.outputMap i = some p ∧ Reach c p g) ∧
    ∀ nIn nOut ids oi mid, gate = .module nIn nOut ids oi mid → nOut < 2

/-- computing `g` a second time takes a second read of an input that has no read to spare -/
inductive Drained (c : Circuit) : GateId → Prop where
  | input {g k} : c.gateMap g = some (.input k) → Drained c g
  | operand {g gate x} : c.gateMap g = some gate → x ∈ gate.operands → Tight c x → Drained c x → Drained c g

/-- every gate is needed for some output, every output depends on some input, and no module call has several outputs -/
structure Frugal (c : Circuit) : Prop where
  needed : ∀ g gate, c.gateMap g = some gate → ∃ i p, c.outputMap i = some p ∧ Reach c p g
  input : ∀ i o, c.outputMap i = some o → ∃ x k, c.gateMap x = some (.input k) ∧ Reach c o x
  single : ∀ g nIn nOut ids oi mid, c.gateMap g = some (.module nIn nOut ids oi mid) → nOut < 2

/-- the circuit and all circuits it calls are frugal -/
inductive FrugalAll (w : World) : Ref → Prop where
  | mk {r c} : w.circs[r]? = some c → Frugal c → (∀ mr, Calls w c mr → FrugalAll w mr) → FrugalAll w r

end CC.Spec
