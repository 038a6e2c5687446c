import Verif.Spec.Writer

/-!
# Spec: circuits whose gates are numbered in the order of a depth-first traversal
-/

namespace CC.Spec

/-- To list the gates `todo` after the gates `done`: a gate that is listed already is skipped; any other gate comes after its
operands, which are listed in the same way first. -/
inductive Visit (c : Circuit) : (done todo done' : List GateId) → Prop
  | nil (done) : Visit c done [] done
  | seen {done g gs done'} : g ∈ done → Visit c done gs done' → Visit c done (g :: gs) done'
  | new {done g gs gate mid done'} : g ∉ done → c.gateMap g = some gate → Visit c done gate.operands mid →
      Visit c (mid ++ [g]) gs done' → Visit c done (g :: gs) done'

/-- the operands of a gate of the circuit -/
def operandsOf (c : Circuit) (g : GateId) : List GateId :=
  match c.gateMap g with
  | none => []
  | some gate => gate.operands

/-- The circuit consists of its inputs and logic gates. The inputs come first and in order, the outputs come last and in
order, and in between the gates come in the order of a depth-first traversal from the operands of the outputs. -/
structure InOrder (c : Circuit) : Prop where
  plain : ∀ g gate, c.gateMap g = some gate → (∃ k, gate = .input k) ∨ IsLogic c g
  noConst : c.numConst = 0
  wires : c.numWire = c.gateIndex
  inputs : ∀ k, k < c.inputLen → c.inputMap k = some k
  outputs : ∀ k, k < c.outputLen → c.outputMap k = some (c.gateIndex - c.outputLen + k)
  order : ∃ mid, Visit c (List.range c.inputLen)
      ((List.range' (c.gateIndex - c.outputLen) c.outputLen).flatMap (operandsOf c)) mid ∧
    Visit c mid (List.range' (c.gateIndex - c.outputLen) c.outputLen) (List.range c.gateIndex)

end CC.Spec
