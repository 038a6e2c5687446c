import Verif.Proofs.Built
import Verif.Proofs.Hist
import Verif.Model.Fp

/-!
# Programs over the circuit API only make API calls
-/

namespace CC
open Spec Logic Arith

theorem Spec.Later.trans {w w' w'' : World} (h : Later w w') (k : Later w' w'') : Later w w'' := by
  induction k with
  | refl => exact h
  | step op _ ih => exact .step op ih

/-- the heap after `x` comes from the heap before by API calls -/
def Plays {α} (x : M α) : Prop := ∀ w, Later w (x w).2

theorem Plays.pure {α} (a : α) : Plays (pure a : M α) := fun w => .refl w

theorem Plays.throw {α} (e : Err) : Plays (M.throw e : M α) := fun w => .refl w

theorem Plays.bind {α β} {x : M α} {f : α → M β} (hx : Plays x) (hf : ∀ a, Plays (f a)) : Plays (x >>= f) := by
  intro w
  rw [M.bind_apply]
  have := hx w
  rcases h : x w with ⟨a | a, w'⟩
  · rw [h] at this; exact this
  · rw [h] at this; exact this.trans (hf a w')

theorem Plays.expect {α} {x : M α} (hx : Plays x) : Plays (M.expect x) := by
  intro w
  have := hx w
  unfold M.expect
  split <;> (rename_i h; rw [h] at this; exact this)

theorem Plays.replicate {α} {x : M α} (hx : Plays x) : ∀ n, Plays (M.replicate x n)
  | 0 => .pure _
  | n + 1 => .bind hx fun _ => .bind (Plays.replicate hx n) fun _ => .pure _

theorem Plays.mapList {α β} {f : α → M β} (hf : ∀ a, Plays (f a)) : ∀ l, Plays (M.mapList f l)
  | [] => .pure _
  | a :: as => .bind (hf a) fun _ => .bind (Plays.mapList hf as) fun _ => .pure _

theorem Plays.foldList {σ α} {f : σ → α → M σ} (hf : ∀ s a, Plays (f s a)) : ∀ s l, Plays (M.foldList f s l)
  | _, [] => .pure _
  | s, a :: as => .bind (hf s a) fun s' => Plays.foldList hf s' as

theorem Plays.idx {α} (l : List α) (i : Nat) : Plays (M.idx l i) := by
  unfold M.idx; split
  · exact .pure _
  · exact .throw _

theorem Plays.op {α} {x : M α} (op : Op) (h : ∀ w, (op.call w).2 = (x w).2) : Plays x := fun w => by
  have := Later.step op (.refl w)
  rw [h] at this; exact this

theorem plays_input (r : Ref) : Plays (input r) := .op (.input r) (map_world _ _)
theorem plays_output (r : Ref) (g : GateId) : Plays (output r g) := .op (.output r g) (map_world _ _)
theorem plays_constant (r : Ref) (v : Bool) : Plays (constant r v) := .op (.constant r v) (map_world _ _)
theorem plays_not (r : Ref) (x : GateId) : Plays (not r x) := .op (.not r x) (map_world _ _)
theorem plays_xor (r : Ref) (x y : GateId) : Plays (xor r x y) := .op (.xor r x y) (map_world _ _)
theorem plays_and (r : Ref) (x y : GateId) : Plays (and r x y) := .op (.and r x y) (map_world _ _)
theorem plays_or (r : Ref) (x y : GateId) : Plays (or r x y) := .op (.or r x y) (map_world _ _)
theorem plays_equivalent (r : Ref) (x y : GateId) : Plays (equivalent r x y) := .op (.equivalent r x y) (map_world _ _)
theorem plays_identity (r : Ref) (x : GateId) : Plays (identity r x) := .op (.identity r x) (map_world _ _)
theorem plays_module (r : Ref) (m : ModuleId) (ids : List GateId) : Plays (module r m ids) :=
  .op (.module r m ids) (map_world _ _)
theorem plays_subCircuit (r : Ref) : Plays (subCircuit r) := .op (.subCircuit r) (map_world _ _)
theorem plays_registerModule (r m : Ref) : Plays (registerModule r m) := .op (.registerModule r m) (map_world _ _)
theorem plays_storeModule (s : StoreRef) (m : Ref) : Plays (storeModule s m) := .op (.storeModule s m) (map_world _ _)
theorem plays_clone (r : Ref) : Plays (cloneCircuit r) := .op (.clone r) (map_world _ _)

/-- follow the structure of a program -/
macro "plays" : tactic => `(tactic| repeat' with_reducible (first
  | exact Plays.pure _ | exact Plays.throw _ | exact plays_input _ | exact plays_output _ _ | exact plays_constant _ _
  | exact plays_not _ _ | exact plays_xor _ _ _ | exact plays_and _ _ _ | exact plays_or _ _ _
  | exact plays_equivalent _ _ _ | exact plays_identity _ _ | exact plays_module _ _ _ | exact plays_subCircuit _
  | exact Plays.idx _ _ | assumption
  | apply Plays.expect | apply Plays.replicate | apply Plays.mapList | apply Plays.foldList | apply Plays.bind
  | intro _ | split))

theorem plays_buildNot (r : Ref) (n : Nat) : Plays (buildNot r n) := by unfold buildNot; plays
theorem plays_buildAnd (r : Ref) (n : Nat) : Plays (buildAnd r n) := by unfold buildAnd; plays
theorem plays_buildOr (r : Ref) (n : Nat) : Plays (buildOr r n) := by unfold buildOr; plays
theorem plays_buildXor (r : Ref) (n : Nat) : Plays (buildXor r n) := by unfold buildXor; plays
theorem plays_buildEq (r : Ref) (n : Nat) : Plays (buildEq r n) := by unfold buildEq; plays
theorem plays_buildNeq (r : Ref) (n : Nat) (m : ModuleId) : Plays (buildNeq r n m) := by unfold buildNeq; plays
theorem plays_buildAdd (r : Ref) (n : Nat) : Plays (buildAdd r n) := by unfold buildAdd; plays
theorem plays_buildSub (r : Ref) (n : Nat) (m : ModuleId) : Plays (buildSub r n m) := by unfold buildSub; plays
theorem plays_buildMul (r : Ref) (n : Nat) (m : ModuleId) : Plays (buildMul r n m) := by unfold buildMul; plays
theorem plays_buildMulExtend (r : Ref) (n : Nat) (m : ModuleId) : Plays (buildMulExtend r n m) := by
  unfold buildMulExtend; plays
theorem plays_buildLess (r : Ref) (n : Nat) (m : ModuleId) : Plays (buildLess r n m) := by unfold buildLess; plays
theorem plays_buildLessOrEq (r : Ref) (n : Nat) (m m' : ModuleId) : Plays (buildLessOrEq r n m m') := by
  unfold buildLessOrEq; plays
theorem plays_buildLarger (r : Ref) (n : Nat) (m : ModuleId) : Plays (buildLarger r n m) := by unfold buildLarger; plays
theorem plays_buildLargerOrEq (r : Ref) (n : Nat) (m : ModuleId) : Plays (buildLargerOrEq r n m) := by
  unfold buildLargerOrEq; plays

theorem plays_bitsConfig (r : Ref) (n : Nat) : Plays (BitsConfig.new r n) :=
  .bind (plays_buildNot r n) fun _ => .bind (plays_buildAnd r n) fun _ => .bind (plays_buildOr r n) fun _ =>
  .bind (plays_buildXor r n) fun _ => .bind (plays_buildEq r n) fun _ => .bind (plays_buildNeq r n _) fun _ => .pure _

theorem plays_intConfig (r : Ref) (n : Nat) : Plays (IntConfig.new r n) :=
  .bind (plays_buildAdd r n) fun _ => .bind (plays_buildSub r n _) fun _ => .bind (plays_buildMul r n _) fun _ =>
  .bind (plays_buildEq r n) fun _ => .bind (plays_buildNeq r n _) fun _ => .bind (plays_buildLess r n _) fun _ =>
  .bind (plays_buildLessOrEq r n _ _) fun _ => .bind (plays_buildLarger r n _) fun _ =>
  .bind (plays_buildLargerOrEq r n _) fun _ => .pure _

theorem later_reachable {w w' : World} (h : Reachable w) (hl : Later w w') : Reachable w' := by
  induction hl with
  | refl => exact h
  | step op _ ih => obtain ⟨evs, h⟩ := ih; exact ⟨_, .step op h⟩

theorem Plays.reachable {α} {x : M α} (h : Plays x) {w w' : World} {a : Except Err α} (hw : Reachable w)
    (he : x w = (a, w')) : Reachable w' := by
  have := h w
  rw [he] at this
  exact later_reachable hw this

end CC
