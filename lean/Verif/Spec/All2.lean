/-!
# Pairwise relations of lists
-/

namespace CC

/-- same length and pointwise related -/
def All2 {α β} (P : α → β → Prop) : List α → List β → Prop
  | [], [] => True
  | a :: as, b :: bs => P a b ∧ All2 P as bs
  | _, _ => False

end CC
