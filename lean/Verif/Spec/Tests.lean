import Verif.Model.Evaluator
import Verif.Spec.History

/-!
# Spec: a test with random inputs passes whatever it draws
-/

namespace CC.Spec

/-- From every heap the test builds a circuit, and evaluating it on any `m` bits returns what the test expects. Fuel is
the recursion depth, so the claim is for every sufficient one. -/
def Passes (test : M Ref) (m : Nat) (expected : List Bool → List Bool) : Prop :=
  ∀ w, Reachable w → ∃ r w', test w = (.ok r, w') ∧
    ∃ F, ∀ fuel ≥ F, ∀ ins : List Bool, ins.length = m → evalOutput w' fuel r ins = .ok (expected ins)

/-- the value of a test circuit with two inputs -/
def pairwise (φ : Bool → Bool → Bool) : List Bool → List Bool
  | [a, b] => [φ a b]
  | _ => []

/-- the value of the test circuit with three inputs -/
def andThenOr : List Bool → List Bool
  | [a, b, d] => [a && b || d]
  | _ => []

end CC.Spec
