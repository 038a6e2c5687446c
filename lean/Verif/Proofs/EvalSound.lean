import Verif.Model.Evaluator
import Verif.Proofs.Sem

/-!
# Evaluator: soundness (C10) and independence of the recursion bound (C13)
-/

namespace CC
open Spec

theorem ok_bind {α β} {x : Except Err α} {f : α → Except Err β} {b : β} (h : (x >>= f) = .ok b) :
    ∃ a, x = .ok a ∧ f a = .ok b := by
  cases x with
  | error e => cases h
  | ok a => exact ⟨a, rfl, h⟩

theorem bind_of_ok {α β} {x : Except Err α} {f : α → Except Err β} {a : α} (h : x = .ok a) :
    (x >>= f) = f a := by subst h; rfl

theorem circuit_ok {w : World} {r : Ref} {c : Circuit} (h : w.circuit r = .ok c) : w.circs[r]? = some c := by
  unfold World.circuit at h
  cases e : w.circs[r]? with
  | none => rw [e] at h; cases h
  | some c' => rw [e] at h; cases h; rfl

theorem circuit_of {w : World} {r : Ref} {c : Circuit} (h : w.circs[r]? = some c) : w.circuit r = .ok c := by
  unfold World.circuit; rw [h]

section sound
variable {w : World} {r : Ref} {c : Circuit} {ins : List Bool}

/-- every cached bit is right -/
def CacheOk (w : World) (r : Ref) (ins : List Bool) (st : EvSt) : Prop :=
  ∀ g b, st.evaled g = some b → Val w r ins g b

/-- `eg` keeps the cache right -/
def StepOk (w : World) (r : Ref) (ins : List Bool) (eg : GateId → EvSt → Except Err EvSt) : Prop :=
  ∀ g st st', CacheOk w r ins st → eg g st = .ok st' → CacheOk w r ins st'

theorem CacheOk.empty : CacheOk w r ins EvSt.empty := by
  intro g b h; cases h

theorem CacheOk.record {st : EvSt} (h : CacheOk w r ins st) {g : GateId} {b : Bool} (hv : Val w r ins g b)
    (c : Circuit) : CacheOk w r ins (st.record c g b) := by
  intro g' b' hg
  simp only [EvSt.record, Map.insert_apply] at hg
  split at hg
  · next e => cases hg; subst e; exact hv
  · exact h g' b' hg

theorem CacheOk.bit {st : EvSt} (h : CacheOk w r ins st) {g : GateId} {b : Bool} (hb : st.bit g = .ok b) :
    Val w r ins g b := by
  unfold EvSt.bit at hb
  cases e : st.evaled g with
  | none => rw [e] at hb; cases hb
  | some b' => rw [e] at hb; cases hb; exact h g b e

theorem CacheOk.release {st st' : EvSt} (h : CacheOk w r ins st) {g : GateId} (hr : st.release g = .ok st') :
    CacheOk w r ins st' := by
  unfold EvSt.release at hr
  split at hr
  · cases hr
  · cases hr
  · simp only at hr
    split at hr
    · cases hr
      intro g' b' hg
      simp only [Map.remove_apply] at hg
      split at hg
      · cases hg
      · exact h g' b' hg
    · cases hr; exact h

theorem CacheOk.releaseAll (ids : List GateId) : ∀ {st st' : EvSt}, CacheOk w r ins st →
    releaseAll ids st = .ok st' → CacheOk w r ins st' := by
  induction ids with
  | nil => intro st st' h hr; cases hr; exact h
  | cons x xs ih =>
    intro st st' h hr
    obtain ⟨s1, h1, h2⟩ := ok_bind hr
    exact ih (h.release h1) h2

theorem CacheOk.ensure {eg} (heg : StepOk w r ins eg) {st st' : EvSt} (h : CacheOk w r ins st) {g : GateId}
    (he : ensure eg g st = .ok st') : CacheOk w r ins st' := by
  unfold CC.ensure at he
  split at he
  · exact heg g st st' h he
  · cases he; exact h

theorem collectBits_sound {eg} (heg : StepOk w r ins eg) (ids : List GateId) :
    ∀ {st st' : EvSt} {bits : List Bool}, CacheOk w r ins st → collectBits eg ids st = .ok (bits, st') →
      CacheOk w r ins st' ∧ bits.length = ids.length ∧
      ∀ (i : Nat) x a, ids[i]? = some x → bits[i]? = some a → Val w r ins x a := by
  induction ids with
  | nil => intro st st' bits h he; cases he; exact ⟨h, rfl, by simp⟩
  | cons x xs ih =>
    intro st st' bits h he
    obtain ⟨s1, h1, he⟩ := ok_bind he
    obtain ⟨b, h2, he⟩ := ok_bind he
    obtain ⟨⟨bs, s2⟩, h3, he⟩ := ok_bind he
    cases he
    have hs1 := h.ensure heg h1
    obtain ⟨k1, k2, k3⟩ := ih hs1 h3
    refine ⟨k1, by simp [k2], ?_⟩
    intro i y a hi ha
    cases i with
    | zero => simp at hi ha; subst hi; subst ha; exact hs1.bit h2
    | succ i => simp at hi ha; exact k3 i y a hi ha

theorem recordOutputs_sound (c : Circuit) (first : GateId) (outs : List Bool) (k : Nat) :
    ∀ (i : Nat) {st st' : EvSt}, CacheOk w r ins st →
      (∀ j b, i ≤ j → j < i + k → outs[j]? = some b → Val w r ins (first + j) b) →
      recordOutputs c first outs i k st = .ok st' → CacheOk w r ins st' := by
  induction k with
  | zero => intro i st st' h _ he; cases he; exact h
  | succ k ih =>
    intro i st st' h hv he
    unfold recordOutputs at he
    cases e : outs[i]? with
    | none => rw [e] at he; cases he
    | some b =>
      rw [e] at he
      exact ih (i + 1) (h.record (hv i b (Nat.le_refl _) (by omega) e) c)
        (fun j b h1 h2 => hv j b (by omega) (by omega)) he

theorem evalBinary_sound {eg} (heg : StepOk w r ins eg) {op : Bool → Bool → Bool} {g l r' : GateId}
    (hop : ∀ a b, Val w r ins l a → Val w r ins r' b → Val w r ins g (op a b)) {st st' : EvSt}
    (h : CacheOk w r ins st) (he : evalBinary c eg op g l r' st = .ok st') : CacheOk w r ins st' := by
  unfold evalBinary at he
  obtain ⟨s1, h1, he⟩ := ok_bind he
  obtain ⟨s2, h2, he⟩ := ok_bind he
  obtain ⟨a, h3, he⟩ := ok_bind he
  obtain ⟨b, h4, he⟩ := ok_bind he
  obtain ⟨s3, h5, he⟩ := ok_bind he
  obtain ⟨s4, h6, he⟩ := ok_bind he
  cases he
  have k1 := h.ensure heg h1
  have k2 := k1.ensure heg h2
  exact ((k2.release h5).release h6).record (hop a b (k2.bit h3) (k2.bit h4)) c

theorem seedInputs_sound (hc : w.circs[r]? = some c) (hwf : WFc c) (bs : List Bool) :
    ∀ (i : Nat) {st st' : EvSt}, CacheOk w r ins st → (∀ (k : Nat), ins[i + k]? = bs[k]?) →
      seedInputs c i bs st = .ok st' → CacheOk w r ins st' := by
  induction bs with
  | nil => intro i st st' h _ he; cases he; exact h
  | cons b bs ih =>
    intro i st st' h hb he
    unfold seedInputs at he
    cases e : c.inputMap i with
    | none => rw [e] at he; cases he
    | some g =>
      rw [e] at he
      refine ih (i + 1) (h.record (.input hc ((hwf.input_iff i g).mp e) (hb 0)) c) ?_ he
      intro k
      have := hb (k + 1)
      simp only [List.getElem?_cons_succ] at this
      rw [← this]; congr 1; omega

theorem evalSingleOutput_sound {eg} (heg : StepOk w r ins eg) {inputs : List Bool} {i : Nat} {st st' : EvSt} {b : Bool}
    (h : CacheOk w r ins st) (he : evalSingleOutput c eg inputs i st = .ok (b, st')) :
    CacheOk w r ins st' ∧ ∃ o, c.outputMap i = some o ∧ Val w r ins o b := by
  unfold evalSingleOutput at he
  split at he
  · cases he
  · split at he
    · cases he
    · cases e : c.outputMap i with
      | none => rw [e] at he; cases he
      | some g =>
        rw [e] at he
        simp only at he
        cases e2 : st.evaled g with
        | some b' => rw [e2] at he; cases he; exact ⟨h, g, rfl, h g b e2⟩
        | none =>
          rw [e2] at he
          simp only at he
          obtain ⟨s1, h1, he⟩ := ok_bind he
          obtain ⟨b', h2, he⟩ := ok_bind he
          cases he
          have k := heg g st _ h h1
          exact ⟨k, g, rfl, k.bit h2⟩

theorem evalOutputs_sound {eg} (heg : StepOk w r ins eg) {inputs : List Bool} (k : Nat) :
    ∀ (i : Nat) {st : EvSt} {outs : List Bool}, CacheOk w r ins st →
      evalOutputs c eg inputs i k st = .ok outs →
      outs.length = k ∧ ∀ j b, outs[j]? = some b → ∃ o, c.outputMap (i + j) = some o ∧ Val w r ins o b := by
  induction k with
  | zero => intro i st outs h he; cases he; exact ⟨rfl, by simp⟩
  | succ k ih =>
    intro i st outs h he
    unfold evalOutputs at he
    obtain ⟨⟨b, s1⟩, h1, he⟩ := ok_bind he
    obtain ⟨bs, h2, he⟩ := ok_bind he
    cases he
    obtain ⟨k1, k2⟩ := evalSingleOutput_sound heg h h1
    obtain ⟨l1, l2⟩ := ih (i + 1) k1 h2
    refine ⟨by simp [l1], ?_⟩
    intro j b' hj
    cases j with
    | zero => simp at hj; subst hj; exact k2
    | succ j =>
      simp at hj
      have := l2 j b' hj
      have e : i + 1 + j = i + (j + 1) := by omega
      rw [e] at this; exact this

theorem evalOutputWith_sound (hc : w.circs[r]? = some c) (hwf : WFc c) {eg} {inputs : List Bool}
    (heg : StepOk w r inputs eg) {outs : List Bool} (he : evalOutputWith c eg inputs = .ok outs) :
    Outputs w r inputs outs := by
  unfold evalOutputWith at he
  split at he
  · cases he
  · next hlen =>
    obtain ⟨s0, h0, he⟩ := ok_bind he
    have k0 := seedInputs_sound (ins := inputs) hc hwf inputs 0 CacheOk.empty (by intro k; simp) h0
    obtain ⟨l1, l2⟩ := evalOutputs_sound heg c.outputLen 0 k0 he
    refine ⟨c, hc, by simpa using hlen, l1, ?_⟩
    intro i b hb
    have := l2 i b hb
    simpa using this

theorem evalGate_sound (hw : WFw w) (fuel : Nat) : ∀ (r : Ref) (ins : List Bool),
    StepOk w r ins (evalGate w fuel r) := by
  induction fuel with
  | zero => intro r ins g st st' _ he; cases he
  | succ fuel ih =>
    intro r ins g st st' h he
    unfold evalGate at he
    obtain ⟨c, hc, he⟩ := ok_bind he
    have hc := circuit_ok hc
    have hwf := hw.circ r c hc
    cases hg : c.gateMap g with
    | none => rw [hg] at he; cases he
    | some gate =>
      rw [hg] at he
      cases gate with
      | input k => cases he; exact h
      | const v => cases he; exact h.record (.const hc hg) c
      | not x =>
        obtain ⟨s1, h1, he⟩ := ok_bind he
        obtain ⟨b, h2, he⟩ := ok_bind he
        obtain ⟨s2, h3, he⟩ := ok_bind he
        cases he
        have k1 := h.ensure (ih r ins) h1
        exact (k1.release h3).record (.not hc hg (k1.bit h2)) c
      | xor l r' =>
        refine evalBinary_sound (ih r ins) ?_ h he
        intro a b ha hb
        have := Val.xor hc hg ha hb
        cases a <;> cases b <;> exact this
      | and l r' => exact evalBinary_sound (ih r ins) (fun a b ha hb => Val.and hc hg ha hb) h he
      | or l r' => exact evalBinary_sound (ih r ins) (fun a b ha hb => Val.or hc hg ha hb) h he
      | module nIn nOut ids oi mid =>
        simp only at he
        obtain ⟨⟨bits, s1⟩, h1, he⟩ := ok_bind he
        obtain ⟨k1, k2, k3⟩ := collectBits_sound (ih r ins) ids h h1
        simp only at he
        cases hm : w.module? c mid with
        | none => rw [hm] at he; cases he
        | some mr =>
          rw [hm] at he
          simp only at he
          obtain ⟨mc, hmc, he⟩ := ok_bind he
          have hmc := circuit_ok hmc
          obtain ⟨outs, h2, he⟩ := ok_bind he
          obtain ⟨s2, h3, he⟩ := ok_bind he
          obtain ⟨hlt, hle, hgrp⟩ := hwf.group g nIn nOut ids oi mid hg
          rw [if_neg (by omega)] at he
          obtain ⟨mc', hmc', hl1, hl2, hv⟩ := evalOutputWith_sound hmc (hw.circ mr mc hmc) (ih mr bits) h2
          rw [hmc] at hmc'; cases hmc'
          refine recordOutputs_sound c (g - oi) outs nOut 0 (k1.releaseAll ids h3) ?_ he
          intro j b _ hj hb
          obtain ⟨o, ho, hvo⟩ := hv j b hb
          exact .module hc (hgrp j (by omega)) hm hmc k2 k3 (by omega) ho hvo

theorem evalOutput_sound (hw : WFw w) {fuel : Nat} {r : Ref} {ins outs : List Bool}
    (he : evalOutput w fuel r ins = .ok outs) : Outputs w r ins outs := by
  unfold evalOutput at he
  obtain ⟨c, hc, he⟩ := ok_bind he
  have hc := circuit_ok hc
  exact evalOutputWith_sound hc (hw.circ r c hc) (evalGate_sound hw fuel r ins) he

end sound

/-! ### fuel -/

/-- `y` is what `x` becomes with more fuel -/
def More {α} (x y : Except Err α) : Prop := x = .error .outOfFuel ∨ x = y

theorem More.rfl {α} (x : Except Err α) : More x x := Or.inr (Eq.refl _)

theorem More.bind {α β} {x y : Except Err α} {f g : α → Except Err β} (h : More x y) (hf : ∀ a, More (f a) (g a)) :
    More (x >>= f) (y >>= g) := by
  rcases h with h | h
  · subst h; exact Or.inl (Eq.refl _)
  · subst h
    cases x with
    | error e => exact Or.inr (Eq.refl _)
    | ok a => exact hf a

section fuel
variable {eg eg' : GateId → EvSt → Except Err EvSt} (heg : ∀ g st, More (eg g st) (eg' g st))
include heg

theorem ensure_more (g : GateId) (st : EvSt) : More (ensure eg g st) (ensure eg' g st) := by
  unfold ensure; split
  · exact heg g st
  · exact .rfl _

theorem evalBinary_more (c : Circuit) (op : Bool → Bool → Bool) (g l r : GateId) (st : EvSt) :
    More (evalBinary c eg op g l r st) (evalBinary c eg' op g l r st) := by
  unfold evalBinary
  exact (ensure_more heg l st).bind fun st => (ensure_more heg r st).bind fun _ => .rfl _

theorem collectBits_more (ids : List GateId) : ∀ st, More (collectBits eg ids st) (collectBits eg' ids st) := by
  induction ids with
  | nil => intro st; exact .rfl _
  | cons x xs ih =>
    intro st
    unfold collectBits
    exact (ensure_more heg x st).bind fun st => (More.rfl _).bind fun b => (ih st).bind fun _ => .rfl _

theorem evalSingleOutput_more (c : Circuit) (inputs : List Bool) (i : Nat) (st : EvSt) :
    More (evalSingleOutput c eg inputs i st) (evalSingleOutput c eg' inputs i st) := by
  unfold evalSingleOutput
  split
  · exact .rfl _
  · split
    · exact .rfl _
    · cases c.outputMap i with
      | none => exact .rfl _
      | some g =>
        simp only
        cases st.evaled g with
        | some b => exact .rfl _
        | none => exact (heg g st).bind fun _ => .rfl _

theorem evalOutputs_more (c : Circuit) (inputs : List Bool) (k : Nat) : ∀ i st,
    More (evalOutputs c eg inputs i k st) (evalOutputs c eg' inputs i k st) := by
  induction k with
  | zero => intro i st; exact .rfl _
  | succ k ih =>
    intro i st
    unfold evalOutputs
    exact (evalSingleOutput_more heg c inputs i st).bind fun _ => (ih _ _).bind fun _ => .rfl _

theorem evalOutputWith_more (c : Circuit) (inputs : List Bool) :
    More (evalOutputWith c eg inputs) (evalOutputWith c eg' inputs) := by
  unfold evalOutputWith
  split
  · exact .rfl _
  · exact (More.rfl _).bind fun st => evalOutputs_more heg c inputs _ _ st

end fuel

theorem evalGate_more (w : World) (fuel : Nat) : ∀ r g st,
    More (evalGate w fuel r g st) (evalGate w (fuel + 1) r g st) := by
  induction fuel with
  | zero => intro r g st; exact Or.inl rfl
  | succ fuel ih =>
    intro r g st
    unfold evalGate
    refine (More.rfl _).bind fun c => ?_
    cases c.gateMap g with
    | none => exact .rfl _
    | some gate =>
      cases gate with
      | input k => exact .rfl _
      | const v => exact .rfl _
      | not x => exact (ensure_more (ih r) x st).bind fun _ => .rfl _
      | xor l r' => exact evalBinary_more (ih r) c _ g l r' st
      | and l r' => exact evalBinary_more (ih r) c _ g l r' st
      | or l r' => exact evalBinary_more (ih r) c _ g l r' st
      | module nIn nOut ids oi mid =>
        simp only
        refine (collectBits_more (ih r) ids st).bind fun p => ?_
        cases w.module? c mid with
        | none => exact .rfl _
        | some mr =>
          exact (More.rfl _).bind fun mc => (evalOutputWith_more (ih mr) mc _).bind fun _ => .rfl _

theorem evalOutput_more (w : World) (fuel : Nat) (r : Ref) (ins : List Bool) :
    More (evalOutput w fuel r ins) (evalOutput w (fuel + 1) r ins) := by
  unfold evalOutput
  exact (More.rfl _).bind fun c => evalOutputWith_more (evalGate_more w fuel r) c ins

theorem evalOutput_stable {w : World} {fuel : Nat} {r : Ref} {ins : List Bool}
    (h : evalOutput w fuel r ins ≠ .error .outOfFuel) : ∀ k, evalOutput w (fuel + k) r ins = evalOutput w fuel r ins := by
  intro k
  induction k with
  | zero => rfl
  | succ k ih =>
    rcases evalOutput_more w (fuel + k) r ins with e | e
    · rw [ih] at e; exact absurd e h
    · rw [← ih, e]; rfl

end CC
