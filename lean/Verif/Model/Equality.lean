import Verif.Model.Evaluator

/-!
# `src/bool_circuit.rs`: `==` of circuits
-/

namespace CC

/-- `PartialEq for NXAOBoolCircuit` — src/bool_circuit.rs:647-660, and through it `==` of `BoolCircuitRef`
(bool_circuit.rs:74, `Rc` and `RefCell` compare the contents). `num_const` and `module_storage` are not compared.
`HashMap`s are equal if they map the same keys to equal values. -/
def Circuit.Same (c d : Circuit) : Prop :=
  c.inputMap = d.inputMap ∧ c.outputMap = d.outputMap ∧ c.gateMap = d.gateMap ∧ c.depMap = d.depMap ∧
    c.constGates = d.constGates ∧ c.inputLen = d.inputLen ∧ c.outputLen = d.outputLen ∧ c.numWire = d.numWire ∧
    c.numGate = d.numGate ∧ c.gateIndex = d.gateIndex

end CC
