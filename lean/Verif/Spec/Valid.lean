import Verif.Spec.History
import Verif.Spec.Semantics

/-!
# Spec: histories of valid calls

A call is valid if the gate ids it is given exist in the circuit, a module is called with as many arguments as it has
inputs, and the circuit it changes has not been called as a module before.
-/

namespace CC.Spec

/-- some circuit contains a call of circuit `r` -/
def Called (w : World) (r : Ref) : Prop := ∃ (q : Ref) (c : Circuit), w.circs[q]? = some c ∧ Calls w c r

/-- gate `g` exists in circuit `r` -/
def HasGate (w : World) (r : Ref) (g : GateId) : Prop := ∃ gate, w.getGate r g = .ok gate

/-- validity of a call -/
def Op.Valid (w : World) : Op → Prop
  | .newStorage => True
  | .newCircuit _ => True
  | .registerModule _ _ => True
  | .storeModule _ _ => True
  | .subCircuit _ => True
  | .clone _ => True
  | .input r => ¬ Called w r
  | .output r _ => ¬ Called w r
  | .constant r _ => ¬ Called w r
  | .not r x => ¬ Called w r ∧ HasGate w r x
  | .identity r x => ¬ Called w r ∧ HasGate w r x
  | .xor r a b => ¬ Called w r ∧ HasGate w r a ∧ HasGate w r b
  | .and r a b => ¬ Called w r ∧ HasGate w r a ∧ HasGate w r b
  | .or r a b => ¬ Called w r ∧ HasGate w r a ∧ HasGate w r b
  | .equivalent r a b => ¬ Called w r ∧ HasGate w r a ∧ HasGate w r b
  | .module r mid ids => ¬ Called w r ∧ (∀ x ∈ ids, HasGate w r x) ∧
      ∀ mc, callee w r mid = some mc → ids.length = mc.inputLen

/-- `w` is reached by valid calls -/
inductive ValidRun : World → Prop where
  | nil : ValidRun World.empty
  | step {w} (op : Op) : ValidRun w → op.Valid w → ValidRun (op.call w).2

end CC.Spec
