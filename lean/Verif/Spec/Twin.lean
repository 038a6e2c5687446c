import Verif.Spec.History

/-!
# The same calls on another circuit
-/

namespace CC.Spec

/-- the same call, made on circuit `n` (calls that are not made on a circuit stay as they are) -/
def Op.onto (n : Ref) : Op → Op
  | .newStorage => .newStorage
  | .newCircuit s => .newCircuit s
  | .storeModule s m => .storeModule s m
  | .clone r => .clone r
  | .input _ => .input n
  | .output _ g => .output n g
  | .constant _ v => .constant n v
  | .not _ x => .not n x
  | .xor _ a b => .xor n a b
  | .and _ a b => .and n a b
  | .or _ a b => .or n a b
  | .equivalent _ a b => .equivalent n a b
  | .identity _ x => .identity n x
  | .registerModule _ m => .registerModule n m
  | .subCircuit _ => .subCircuit n
  | .module _ mid ids => .module n mid ids

/-- the call adds gates or outputs to circuit `r`; if it is a module call, neither `r` nor `n` is the called module -/
def Op.Builds (w : World) (r n : Ref) : Op → Prop
  | .input r' | .output r' _ | .constant r' _ | .not r' _ | .xor r' _ _ | .and r' _ _ | .or r' _ _
  | .equivalent r' _ _ | .identity r' _ => r' = r
  | .module r' mid _ => r' = r ∧ w.getModule r mid ≠ .ok r ∧ w.getModule r mid ≠ .ok n
  | _ => False

end CC.Spec
