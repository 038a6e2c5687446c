import Verif.Spec.Writer

/-!
# Spec: how much there is to compute

Gate `g` of circuit `r` has the weight `κ r g`. A module call has the weight of its first gate, plus the work in the
called circuit.
-/

namespace CC.Spec

/-- gate `g` is a constant -/
def IsConst (c : Circuit) (g : GateId) : Prop := ∃ v, c.gateMap g = some (.const v)

/-- something to compute: a constant, a logic gate, or the first gate of a module call -/
def IsTask (w : World) (c : Circuit) (g : GateId) : Prop := IsConst c g ∨ IsLogic c g ∨ ∃ mr, IsCall w c g mr

/-- Doing everything that is needed for the outputs of circuit `r`, each task once, has the total weight `n`. `gs` lists the
tasks in some order, each once. `m g` is the weight of the work in the circuit called at `g`. -/
inductive Effort (κ : Ref → GateId → Nat) (w : World) : Ref → Nat → Prop where
  | mk {r c} (gs : List GateId) (m : GateId → Nat) :
      w.circs[r]? = some c → gs.Nodup → (∀ g, g ∈ gs ↔ Needed c g ∧ IsTask w c g) →
      (∀ g, g ∈ gs → (∀ mr, ¬ IsCall w c g mr) → m g = 0) →
      (∀ g mr, g ∈ gs → IsCall w c g mr → Effort κ w mr (m g)) →
      Effort κ w r (gs.map fun g => κ r g + m g).sum

/-- Doing all tasks of circuit `r`, needed or not, once for each output, has the total weight `n`. -/
inductive Limit (κ : Ref → GateId → Nat) (w : World) : Ref → Nat → Prop where
  | mk {r c} (gs : List GateId) (m : GateId → Nat) :
      w.circs[r]? = some c → gs.Nodup → (∀ g, g ∈ gs ↔ IsTask w c g) →
      (∀ g, g ∈ gs → (∀ mr, ¬ IsCall w c g mr) → m g = 0) →
      (∀ g mr, g ∈ gs → IsCall w c g mr → Limit κ w mr (m g)) →
      Limit κ w r (c.outputLen * (gs.map fun g => κ r g + m g).sum)

end CC.Spec
