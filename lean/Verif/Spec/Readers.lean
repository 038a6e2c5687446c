import Verif.Model.Circuit

/-!
# Spec: which gates read a gate, in which order
-/

namespace CC.Spec

/-- the readers of `x` that came with gate `g`: a logic gate once for each of its operands that is `x`; a module call, at its
first gate, all its gates for each argument that is `x` -/
def readersAt (c : Circuit) (x g : GateId) : List GateId :=
  match c.gateMap g with
  | none => []
  | some (.module _ nOut ids 0 _) => (List.replicate (ids.count x) (List.range' g nOut)).flatten
  | some (.module _ _ _ (_ + 1) _) => []
  | some gate => List.replicate (gate.operands.count x) g

/-- the readers of `x`, in the order in which they were created -/
def readers (c : Circuit) (x : GateId) : List GateId := (List.range c.gateIndex).flatMap (readersAt c x)

end CC.Spec
