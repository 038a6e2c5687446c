import Verif.Model.Circuit

/-!
# Spec: circuits that differ in the numbering of their gates
-/

namespace CC.Spec

/-- the gate with its operands renamed -/
def rename (θ : GateId → GateId) : Gate → Gate
  | .input k => .input k
  | .const v => .const v
  | .not x => .not (θ x)
  | .xor x y => .xor (θ x) (θ y)
  | .and x y => .and (θ x) (θ y)
  | .or x y => .or (θ x) (θ y)
  | .module nIn nOut ids oi mid => .module nIn nOut (ids.map θ) oi mid

/-- `c'` is `c` with the gates renumbered by `θ` -/
structure Renamed (θ : GateId → GateId) (c c' : Circuit) : Prop where
  inj : ∀ g h, c.gateMap g ≠ none → c.gateMap h ≠ none → θ g = θ h → g = h
  onto : ∀ g, c'.gateMap g ≠ none → ∃ h, c.gateMap h ≠ none ∧ θ h = g
  gates : ∀ g gate, c.gateMap g = some gate → c'.gateMap (θ g) = some (rename θ gate)
  inputs : ∀ k, c'.inputMap k = (c.inputMap k).map θ
  outputs : ∀ k, c'.outputMap k = (c.outputMap k).map θ
  consts : c'.constGates = c.constGates.map θ
  inputLen : c'.inputLen = c.inputLen
  outputLen : c'.outputLen = c.outputLen
  numConst : c'.numConst = c.numConst
  numGate : c'.numGate = c.numGate
  numWire : c'.numWire = c.numWire

/-- the circuit calls no modules -/
def NoModules (c : Circuit) : Prop := ∀ g nIn nOut ids oi mid, c.gateMap g ≠ some (.module nIn nOut ids oi mid)

end CC.Spec
