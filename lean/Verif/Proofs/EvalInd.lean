import Verif.Model.Evaluator

/-!
# Two evaluations of the same circuit go the same way

Which gates are stored, how often each is still to be read, and which error ends the evaluation do not depend on the bits.
-/

namespace CC

/-- the same gates are stored, with the same number of reads left -/
structure EvSt.Like (a b : EvSt) : Prop where
  evaled : ∀ g, (a.evaled g).isSome = (b.evaled g).isSome
  numDep : ∀ g, a.numDep g = b.numDep g

/-- the same error, or results related by `R` -/
inductive LikeE {α β : Type} (R : α → β → Prop) : Except Err α → Except Err β → Prop where
  | ok {a b} : R a b → LikeE R (.ok a) (.ok b)
  | error {e} : LikeE R (.error e) (.error e)

theorem LikeE.bind {α β γ δ : Type} {R : α → β → Prop} {S : γ → δ → Prop} {x : Except Err α} {y : Except Err β}
    {f : α → Except Err γ} {g : β → Except Err δ} (h : LikeE R x y) (hf : ∀ a b, R a b → LikeE S (f a) (g b)) :
    LikeE S (x >>= f) (y >>= g) := by
  cases h with
  | ok h => exact hf _ _ h
  | error => exact .error

namespace EvSt.Like

theorem bit {a b : EvSt} (h : a.Like b) (g : GateId) : LikeE (fun _ _ => True) (a.bit g) (b.bit g) := by
  have := h.evaled g
  unfold EvSt.bit
  cases ha : a.evaled g <;> cases hb : b.evaled g <;> simp only [ha, hb, Option.isSome] at this ⊢
  · exact .error
  · cases this
  · cases this
  · exact .ok trivial

theorem record {a b : EvSt} (h : a.Like b) (c : Circuit) (g : GateId) (x y : Bool) :
    (a.record c g x).Like (b.record c g y) := by
  constructor
  · intro k; simp only [EvSt.record, Map.insert]; split
    · rfl
    · exact h.evaled k
  · intro k; simp only [EvSt.record, Map.insert]; split
    · rfl
    · exact h.numDep k

theorem release {a b : EvSt} (h : a.Like b) (g : GateId) : LikeE EvSt.Like (a.release g) (b.release g) := by
  unfold EvSt.release
  rw [← h.numDep g]
  cases a.numDep g with
  | none => exact .error
  | some n =>
    cases n with
    | zero => exact .error
    | succ n =>
      simp only
      split
      · refine .ok ⟨fun k => ?_, fun k => ?_⟩
        · simp only [Map.remove]; split
          · rfl
          · exact h.evaled k
        · simp only [Map.remove, Map.insert]; split
          · rfl
          · exact h.numDep k
      · refine .ok ⟨h.evaled, fun k => ?_⟩
        simp only [Map.insert]; split
        · rfl
        · exact h.numDep k

theorem releaseAll : ∀ (ids : List GateId) {a b : EvSt}, a.Like b → LikeE EvSt.Like (releaseAll ids a) (releaseAll ids b)
  | [], _, _, h => .ok h
  | id :: ids, _, _, h => by
    unfold CC.releaseAll
    exact (h.release id).bind fun _ _ h => releaseAll ids h

end EvSt.Like

/-- an evaluator step that goes the same way on similar states -/
def Uniform (eg : GateId → EvSt → Except Err EvSt) : Prop :=
  ∀ g a b, a.Like b → LikeE EvSt.Like (eg g a) (eg g b)

theorem Uniform.ensure {eg : GateId → EvSt → Except Err EvSt} (he : Uniform eg) (id : GateId) {a b : EvSt}
    (h : a.Like b) : LikeE EvSt.Like (ensure eg id a) (ensure eg id b) := by
  have := h.evaled id
  unfold CC.ensure
  cases ha : a.evaled id <;> cases hb : b.evaled id <;> simp only [ha, hb, Option.isSome] at this ⊢
  · exact he _ _ _ h
  · cases this
  · cases this
  · exact .ok h

theorem Uniform.collectBits {eg : GateId → EvSt → Except Err EvSt} (he : Uniform eg) : ∀ (ids : List GateId) {a b : EvSt},
    a.Like b → LikeE (fun p q => p.1.length = q.1.length ∧ p.2.Like q.2) (collectBits eg ids a) (collectBits eg ids b)
  | [], _, _, h => .ok ⟨rfl, h⟩
  | id :: ids, a, b, h => by
    unfold CC.collectBits
    refine (he.ensure id h).bind fun a b h => ?_
    refine (h.bit id).bind fun x y _ => ?_
    refine (he.collectBits ids h).bind fun p q h => ?_
    exact .ok ⟨by simp [h.1], h.2⟩

theorem recordOutputs_like (c : Circuit) (first : GateId) {os ps : List Bool} (hl : os.length = ps.length) :
    ∀ (k i : Nat) {a b : EvSt}, a.Like b → LikeE EvSt.Like (recordOutputs c first os i k a) (recordOutputs c first ps i k b)
  | 0, _, _, _, h => .ok h
  | k + 1, i, a, b, h => by
    unfold recordOutputs
    by_cases hi : i < os.length
    · rw [List.getElem?_eq_getElem hi, List.getElem?_eq_getElem (hl ▸ hi)]
      exact recordOutputs_like c first hl k (i + 1) (h.record c _ _ _)
    · rw [List.getElem?_eq_none (by omega), List.getElem?_eq_none (by omega)]
      exact .error

theorem Uniform.evalBinary {eg : GateId → EvSt → Except Err EvSt} (he : Uniform eg) (c : Circuit)
    (op : Bool → Bool → Bool) (g l r : GateId) {a b : EvSt} (h : a.Like b) :
    LikeE EvSt.Like (evalBinary c eg op g l r a) (evalBinary c eg op g l r b) := by
  unfold CC.evalBinary
  refine (he.ensure l h).bind fun a b h => ?_
  refine (he.ensure r h).bind fun a b h => ?_
  refine (h.bit l).bind fun x y _ => ?_
  refine (h.bit r).bind fun x' y' _ => ?_
  refine (h.release l).bind fun a b h => ?_
  refine (h.release r).bind fun a b h => ?_
  exact .ok (h.record c _ _ _)

theorem seedInputs_like (c : Circuit) : ∀ (xs ys : List Bool) (i : WireId) {a b : EvSt}, xs.length = ys.length → a.Like b →
    LikeE EvSt.Like (seedInputs c i xs a) (seedInputs c i ys b)
  | [], [], _, _, _, _, h => .ok h
  | [], _ :: _, _, _, _, hl, _ => by cases hl
  | _ :: _, [], _, _, _, hl, _ => by cases hl
  | x :: xs, y :: ys, i, a, b, hl, h => by
    unfold seedInputs
    cases c.inputMap i with
    | none => exact .error
    | some g => exact seedInputs_like c xs ys (i + 1) (by simpa using hl) (h.record c g x y)

theorem Uniform.evalSingleOutput {eg : GateId → EvSt → Except Err EvSt} (he : Uniform eg) (c : Circuit)
    {xs ys : List Bool} (hl : xs.length = ys.length) (i : WireId) {a b : EvSt} (h : a.Like b) :
    LikeE (fun p q => p.2.Like q.2) (evalSingleOutput c eg xs i a) (evalSingleOutput c eg ys i b) := by
  unfold CC.evalSingleOutput
  rw [hl]
  split
  · exact .error
  split
  · exact .error
  cases c.outputMap i with
  | none => exact .error
  | some g =>
    have := h.evaled g
    simp only
    cases ha : a.evaled g <;> cases hb : b.evaled g <;> simp only [ha, hb, Option.isSome] at this ⊢
    · refine (he g a b h).bind fun a b h => ?_
      refine (h.bit g).bind fun x y _ => ?_
      exact .ok h
    · cases this
    · cases this
    · exact .ok h

theorem Uniform.evalOutputs {eg : GateId → EvSt → Except Err EvSt} (he : Uniform eg) (c : Circuit)
    {xs ys : List Bool} (hl : xs.length = ys.length) : ∀ (k i : Nat) {a b : EvSt}, a.Like b →
    LikeE (fun p q => p.length = q.length) (evalOutputs c eg xs i k a) (evalOutputs c eg ys i k b)
  | 0, _, _, _, _ => .ok rfl
  | k + 1, i, a, b, h => by
    unfold CC.evalOutputs
    refine (he.evalSingleOutput c hl i h).bind fun p q h => ?_
    refine (he.evalOutputs c hl k (i + 1) h).bind fun p q h => ?_
    exact .ok (by simp [h])

theorem Uniform.evalOutputWith {eg : GateId → EvSt → Except Err EvSt} (he : Uniform eg) (c : Circuit)
    {xs ys : List Bool} (hl : xs.length = ys.length) :
    LikeE (fun p q => p.length = q.length) (evalOutputWith c eg xs) (evalOutputWith c eg ys) := by
  unfold CC.evalOutputWith
  rw [hl]
  split
  · exact .error
  · refine (seedInputs_like c xs ys 0 hl ⟨fun _ => rfl, fun _ => rfl⟩).bind fun a b h => ?_
    exact he.evalOutputs c hl _ _ h

theorem evalGate_uniform (w : World) : ∀ (fuel : Nat) (r : Ref), Uniform (evalGate w fuel r)
  | 0, _ => fun _ _ _ _ => .error
  | fuel + 1, r => by
    intro g a b h
    have ih := evalGate_uniform w fuel
    unfold evalGate
    refine LikeE.bind (R := fun c d => c = d) ?_ fun c d hcd => ?_
    · cases w.circuit r with
      | error e => exact .error
      | ok c => exact .ok rfl
    subst hcd
    cases c.gateMap g with
    | none => exact .error
    | some gate =>
      cases gate with
      | input k => exact .ok h
      | const v => exact .ok (h.record c g v v)
      | not x =>
        refine ((ih r).ensure x h).bind fun a b h => ?_
        refine (h.bit x).bind fun u v _ => ?_
        refine (h.release x).bind fun a b h => ?_
        exact .ok (h.record c _ _ _)
      | xor l q => exact (ih r).evalBinary c _ g l q h
      | and l q => exact (ih r).evalBinary c _ g l q h
      | or l q => exact (ih r).evalBinary c _ g l q h
      | module nIn nOut ids oi mid =>
        refine ((ih r).collectBits ids h).bind fun p q hpq => ?_
        simp only
        cases w.module? c mid with
        | none => exact .error
        | some mr =>
          simp only
          refine LikeE.bind (R := fun c d => c = d) ?_ fun mc d hcd => ?_
          · cases w.circuit mr with
            | error e => exact .error
            | ok c => exact .ok rfl
          subst hcd
          refine ((ih mr).evalOutputWith mc hpq.1).bind fun os ps ho => ?_
          refine (hpq.2.releaseAll ids).bind fun a b h => ?_
          split
          · exact .error
          · exact recordOutputs_like c _ ho _ _ h

theorem evalOutput_like (w : World) (fuel : Nat) (r : Ref) {xs ys : List Bool} (hl : xs.length = ys.length) :
    LikeE (fun p q => p.length = q.length) (evalOutput w fuel r xs) (evalOutput w fuel r ys) := by
  unfold evalOutput
  refine LikeE.bind (R := fun c d => c = d) ?_ fun c d hcd => ?_
  · cases w.circuit r with
    | error e => exact .error
    | ok c => exact .ok rfl
  subst hcd
  exact (evalGate_uniform w fuel r).evalOutputWith c hl

end CC
