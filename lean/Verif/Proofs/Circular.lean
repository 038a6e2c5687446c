import Verif.Spec.Refused
import Verif.Proofs.EvalSound
import Verif.Proofs.Built

/-!
# Circular circuits are never evaluated, and only circular circuits exhaust every stack
-/

namespace CC
open Spec

/-- nothing circular below `p` -/
def Sound (w : World) (p : Ref × GateId) : Prop := Acc (fun q p => NeedsNow w p q) p

theorem Spec.Needs.append {w : World} {p q s : Ref × GateId} (h1 : Needs w p q) (h2 : Needs w q s) : Needs w p s := by
  induction h1 with
  | one h => exact .cons h h2
  | cons h _ ih => exact .cons h (ih h2)

theorem Sound.irrefl {w : World} {p : Ref × GateId} (h : Sound w p) : ¬ Needs w p p := by
  induction h with
  | intro p _ ih =>
    intro hn
    cases hn with
    | one h => exact ih p h (.one h)
    | cons h h2 => exact ih _ h (h2.append (.one h))

theorem Sound.needs {w : World} {p q : Ref × GateId} (h : Sound w p) (hn : Needs w p q) : Sound w q := by
  induction hn with
  | one h1 => exact Acc.inv h h1
  | cons h1 _ ih => exact ih (Acc.inv h h1)

/-- in a finite graph, what is not circular is sound -/
theorem sound_of_acyclic {w : World} : ∀ (n : Nat) (l : List (Ref × GateId)), l.length ≤ n → ∀ p,
    (∀ q, (q = p ∨ Needs w p q) → (∃ s, NeedsNow w q s) → q ∈ l) →
    (∀ q, (q = p ∨ Needs w p q) → ¬ Needs w q q) → Sound w p := by
  intro n
  induction n with
  | zero =>
    intro l hl p hin _
    refine ⟨_, fun q hq => ?_⟩
    have := hin p (.inl rfl) ⟨q, hq⟩
    cases l with
    | nil => simp at this
    | cons => simp at hl
  | succ n ih =>
    intro l hl p hin hac
    refine ⟨_, fun q hq => ?_⟩
    have hp := hin p (.inl rfl) ⟨q, hq⟩
    have up : ∀ s, (s = q ∨ Needs w q s) → Needs w p s := by
      rintro s (h | h)
      · rw [h]; exact .one hq
      · exact .cons hq h
    refine ih (l.erase p) ?_ q ?_ ?_
    · rw [List.length_erase_of_mem hp]; omega
    · intro s hs hx
      have h1 := hin s (.inr (up s hs)) hx
      have hne : s ≠ p := by
        intro e
        rw [e] at hs
        rcases hs with hs | hs
        · rw [← hs] at hq; exact hac p (.inl rfl) (.one hq)
        · exact hac p (.inl rfl) (.cons hq hs)
      exact (List.mem_erase_of_ne hne).mpr h1
    · intro s hs
      exact hac s (.inr (up s hs))

/-- all gates of a heap -/
def allGates (w : World) : List (Ref × GateId) :=
  (List.range w.circs.length).flatMap fun r => (List.range (((w.circs[r]?).map Circuit.gateIndex).getD 0)).map fun g => (r, g)

theorem mem_allGates {w : World} (hw : WFw w) {p q : Ref × GateId} (h : NeedsNow w p q) : p ∈ allGates w := by
  have key : ∀ {r : Ref} {c : Circuit} {g : GateId} {gate : Gate}, w.circs[r]? = some c → c.gateMap g = some gate →
      (r, g) ∈ allGates w := by
    intro r c g gate hc hg
    have h1 := lt_of_getElem? hc
    have h2 := (hw.circ r c hc).lt_of_some hg
    simp only [allGates, List.mem_flatMap, List.mem_range, List.mem_map]
    refine ⟨r, h1, g, ?_, rfl⟩
    rw [hc]
    exact h2
  cases h with
  | operand hc hg _ => exact key hc hg
  | inside hc hg _ _ _ => exact key hc hg

/-! ### a result comes from sound gates only -/

section
variable {w : World} {r : Ref} {c : Circuit}

/-- every stored bit is of a sound gate -/
def Clean (w : World) (r : Ref) (st : EvSt) : Prop := ∀ g b, st.evaled g = some b → Sound w (r, g)

/-- `eg` only succeeds on sound gates -/
def StepClean (w : World) (r : Ref) (eg : GateId → EvSt → Except Err EvSt) : Prop :=
  ∀ g st st', Clean w r st → eg g st = .ok st' → Sound w (r, g) ∧ Clean w r st'

theorem Clean.record {st : EvSt} (h : Clean w r st) {g : GateId} (hs : Sound w (r, g)) (c : Circuit) (b : Bool) :
    Clean w r (st.record c g b) := by
  intro g' b' hg
  simp only [EvSt.record, Map.insert_apply] at hg
  split at hg
  · next e => subst e; exact hs
  · exact h g' b' hg

theorem Clean.release {st st' : EvSt} (h : Clean w r st) {g : GateId} (hr : st.release g = .ok st') : Clean w r st' := by
  unfold EvSt.release at hr
  split at hr
  · cases hr
  · cases hr
  · simp only at hr
    split at hr
    · cases hr
      intro g' b' hg
      simp only [Map.remove_apply] at hg
      split at hg
      · cases hg
      · exact h g' b' hg
    · cases hr; exact h

theorem Clean.releaseAll (ids : List GateId) : ∀ {st st' : EvSt}, Clean w r st → releaseAll ids st = .ok st' → Clean w r st' := by
  induction ids with
  | nil => intro st st' h hr; cases hr; exact h
  | cons x xs ih =>
    intro st st' h hr
    obtain ⟨s1, h1, h2⟩ := ok_bind hr
    exact ih (h.release h1) h2

theorem Clean.ensure {eg} (heg : StepClean w r eg) {st st' : EvSt} (h : Clean w r st) {g : GateId}
    (he : CC.ensure eg g st = .ok st') : Sound w (r, g) ∧ Clean w r st' := by
  unfold CC.ensure at he
  split at he
  · exact heg g st st' h he
  · next b hb => cases he; exact ⟨h g b hb, h⟩

theorem collectBits_clean {eg} (heg : StepClean w r eg) (ids : List GateId) : ∀ {st st' : EvSt} {bits : List Bool},
    Clean w r st → collectBits eg ids st = .ok (bits, st') → Clean w r st' ∧ ∀ x ∈ ids, Sound w (r, x) := by
  induction ids with
  | nil => intro st st' bits h he; cases he; exact ⟨h, by simp⟩
  | cons x xs ih =>
    intro st st' bits h he
    obtain ⟨s1, h1, he⟩ := ok_bind he
    obtain ⟨b, h2, he⟩ := ok_bind he
    obtain ⟨⟨bs, s2⟩, h3, he⟩ := ok_bind he
    cases he
    obtain ⟨a1, a2⟩ := h.ensure heg h1
    obtain ⟨k1, k2⟩ := ih a2 h3
    refine ⟨k1, fun y hy => ?_⟩
    rcases List.mem_cons.mp hy with e | hy
    · rw [e]; exact a1
    · exact k2 y hy

theorem recordOutputs_clean (c : Circuit) (first : GateId) (outs : List Bool) (k : Nat) :
    ∀ (i : Nat) {st st' : EvSt}, Clean w r st → (∀ j, j < i + k → Sound w (r, first + j)) →
      recordOutputs c first outs i k st = .ok st' → Clean w r st' := by
  induction k with
  | zero => intro i st st' h _ he; cases he; exact h
  | succ k ih =>
    intro i st st' h hv he
    unfold recordOutputs at he
    cases e : outs[i]? with
    | none => rw [e] at he; cases he
    | some b =>
      rw [e] at he
      exact ih (i + 1) (h.record (hv i (by omega)) c b) (fun j hj => hv j (by omega)) he

/-- a gate that is no module call is sound if its operands are -/
theorem sound_logic {g : GateId} {gate : Gate} (hc : w.circs[r]? = some c) (hg : c.gateMap g = some gate)
    (hm : ∀ nIn nOut ids oi mid, gate ≠ .module nIn nOut ids oi mid) (h : ∀ x ∈ gate.operands, Sound w (r, x)) :
    Sound w (r, g) := by
  refine ⟨_, fun q hq => ?_⟩
  cases hq with
  | operand h1 h2 h3 => rw [hc] at h1; cases h1; rw [hg] at h2; cases h2; exact h _ h3
  | inside h1 h2 => rw [hc] at h1; cases h1; rw [hg] at h2; cases h2; exact absurd rfl (hm _ _ _ _ _)

/-- a module call is sound if its arguments and the outputs of the called circuit are -/
theorem sound_module {g : GateId} {nIn nOut : Nat} {ids : List GateId} {oi : Nat} {mid : ModuleId} {mr : Ref} {mc : Circuit}
    (hc : w.circs[r]? = some c) (hg : c.gateMap g = some (.module nIn nOut ids oi mid)) (hm : w.module? c mid = some mr)
    (hmc : w.circs[mr]? = some mc) (h : ∀ x ∈ ids, Sound w (r, x)) (ho : ∀ k o, mc.outputMap k = some o → Sound w (mr, o)) :
    Sound w (r, g) := by
  refine ⟨_, fun q hq => ?_⟩
  cases hq with
  | operand h1 h2 h3 => rw [hc] at h1; cases h1; rw [hg] at h2; cases h2; exact h _ h3
  | inside h1 h2 h3 h4 h5 =>
    rw [hc] at h1; cases h1; rw [hg] at h2; cases h2; rw [hm] at h3; cases h3; rw [hmc] at h4; cases h4
    exact ho _ _ h5

theorem evalBinary_clean {eg} (heg : StepClean w r eg) {op : Bool → Bool → Bool} {g l r' : GateId} {gate : Gate}
    (hc : w.circs[r]? = some c) (hg : c.gateMap g = some gate)
    (hm : ∀ nIn nOut ids oi mid, gate ≠ .module nIn nOut ids oi mid) (ho : gate.operands = [l, r']) {st st' : EvSt}
    (h : Clean w r st) (he : evalBinary c eg op g l r' st = .ok st') : Sound w (r, g) ∧ Clean w r st' := by
  unfold evalBinary at he
  obtain ⟨s1, h1, he⟩ := ok_bind he
  obtain ⟨s2, h2, he⟩ := ok_bind he
  obtain ⟨a, h3, he⟩ := ok_bind he
  obtain ⟨b, h4, he⟩ := ok_bind he
  obtain ⟨s3, h5, he⟩ := ok_bind he
  obtain ⟨s4, h6, he⟩ := ok_bind he
  cases he
  obtain ⟨a1, k1⟩ := h.ensure heg h1
  obtain ⟨a2, k2⟩ := k1.ensure heg h2
  have hs : Sound w (r, g) := by
    refine sound_logic hc hg hm ?_
    rw [ho]
    simp [a1, a2]
  exact ⟨hs, ((k2.release h5).release h6).record hs c _⟩

theorem seedInputs_clean (hc : w.circs[r]? = some c) (hwf : WFc c) (bs : List Bool) :
    ∀ (i : Nat) {st st' : EvSt}, Clean w r st → seedInputs c i bs st = .ok st' → Clean w r st' := by
  induction bs with
  | nil => intro i st st' h he; cases he; exact h
  | cons b bs ih =>
    intro i st st' h he
    unfold seedInputs at he
    cases e : c.inputMap i with
    | none => rw [e] at he; cases he
    | some g =>
      rw [e] at he
      refine ih (i + 1) (h.record (sound_logic hc ((hwf.input_iff i g).mp e) ?_ ?_) c b) he
      · intros; simp
      · simp [Gate.operands]

theorem evalOutputs_clean {eg} (heg : StepClean w r eg) {inputs : List Bool} (k : Nat) :
    ∀ (i : Nat) {st : EvSt} {outs : List Bool}, Clean w r st → evalOutputs c eg inputs i k st = .ok outs →
      ∀ j o, i ≤ j → j < i + k → c.outputMap j = some o → Sound w (r, o) := by
  induction k with
  | zero => intro i st outs _ _ j o h1 h2; omega
  | succ k ih =>
    intro i st outs h he j o h1 h2 ho
    unfold evalOutputs at he
    obtain ⟨⟨b, s1⟩, h3, he⟩ := ok_bind he
    obtain ⟨bs, h4, he⟩ := ok_bind he
    have key : Clean w r s1 ∧ ∀ o, c.outputMap i = some o → Sound w (r, o) := by
      unfold evalSingleOutput at h3
      split at h3
      · cases h3
      · split at h3
        · cases h3
        · cases e : c.outputMap i with
          | none => rw [e] at h3; cases h3
          | some g =>
            rw [e] at h3
            simp only at h3
            cases e2 : st.evaled g with
            | some b' => rw [e2] at h3; cases h3; exact ⟨h, fun o ho => by cases ho; exact h _ _ e2⟩
            | none =>
              rw [e2] at h3
              simp only at h3
              obtain ⟨s1, h5, h3⟩ := ok_bind h3
              obtain ⟨b', h6, h3⟩ := ok_bind h3
              cases h3
              obtain ⟨k1, k2⟩ := heg g st _ h h5
              exact ⟨k2, fun o ho => by cases ho; exact k1⟩
    by_cases hj : j = i
    · subst hj; exact key.2 o ho
    · exact ih (i + 1) key.1 h4 j o (by omega) (by omega) ho

theorem evalOutputWith_clean (hc : w.circs[r]? = some c) (hwf : WFc c) {eg} {inputs : List Bool} (heg : StepClean w r eg)
    {outs : List Bool} (he : evalOutputWith c eg inputs = .ok outs) : ∀ k o, c.outputMap k = some o → Sound w (r, o) := by
  unfold evalOutputWith at he
  split at he
  · cases he
  · obtain ⟨s0, h0, he⟩ := ok_bind he
    have k0 : Clean w r s0 := seedInputs_clean hc hwf inputs 0 (fun g b h => by cases h) h0
    intro k o ho
    have hk : k < c.outputLen := (hwf.output_dom k).mp (by simp [ho])
    exact evalOutputs_clean heg c.outputLen 0 k0 he k o (by omega) (by omega) ho

theorem evalGate_clean (hw : WFw w) (fuel : Nat) : ∀ r, StepClean w r (evalGate w fuel r) := by
  induction fuel with
  | zero => intro r g st st' _ he; cases he
  | succ fuel ih =>
    intro r g st st' h he
    unfold evalGate at he
    obtain ⟨c, hc, he⟩ := ok_bind he
    have hc := circuit_ok hc
    have hwf := hw.circ r c hc
    cases hg : c.gateMap g with
    | none => rw [hg] at he; cases he
    | some gate =>
      rw [hg] at he
      cases gate with
      | input k =>
        cases he
        exact ⟨sound_logic hc hg (by intros; simp) (by simp [Gate.operands]), h⟩
      | const v =>
        cases he
        have hs : Sound w (r, g) := sound_logic hc hg (by intros; simp) (by simp [Gate.operands])
        exact ⟨hs, h.record hs c v⟩
      | not x =>
        obtain ⟨s1, h1, he⟩ := ok_bind he
        obtain ⟨b, h2, he⟩ := ok_bind he
        obtain ⟨s2, h3, he⟩ := ok_bind he
        cases he
        obtain ⟨a1, k1⟩ := h.ensure (ih r) h1
        have hs : Sound w (r, g) := sound_logic hc hg (by intros; simp) (by simp [Gate.operands, a1])
        exact ⟨hs, (k1.release h3).record hs c _⟩
      | xor l r' => exact evalBinary_clean (ih r) hc hg (by intros; simp) rfl h he
      | and l r' => exact evalBinary_clean (ih r) hc hg (by intros; simp) rfl h he
      | or l r' => exact evalBinary_clean (ih r) hc hg (by intros; simp) rfl h he
      | module nIn nOut ids oi mid =>
        simp only at he
        obtain ⟨⟨bits, s1⟩, h1, he⟩ := ok_bind he
        obtain ⟨k1, k2⟩ := collectBits_clean (ih r) ids h h1
        simp only at he
        cases hm : w.module? c mid with
        | none => rw [hm] at he; cases he
        | some mr =>
          rw [hm] at he
          simp only at he
          obtain ⟨mc, hmc, he⟩ := ok_bind he
          have hmc := circuit_ok hmc
          obtain ⟨outs, h2, he⟩ := ok_bind he
          obtain ⟨s2, h3, he⟩ := ok_bind he
          obtain ⟨hlt, hle, hgrp⟩ := hwf.group g nIn nOut ids oi mid hg
          rw [if_neg (by omega)] at he
          have ho := evalOutputWith_clean hmc (hw.circ mr mc hmc) (ih mr) h2
          refine ⟨sound_module hc hg hm hmc k2 ho, ?_⟩
          refine recordOutputs_clean c (g - oi) outs nOut 0 (k1.releaseAll ids h3) (fun j hj => ?_) he
          exact sound_module hc (hgrp j (by omega)) hm hmc k2 ho

theorem circular_never (hw : WFw w) (h : Circular w r) {fuel : Nat} {ins outs : List Bool} :
    evalOutput w fuel r ins ≠ .ok outs := by
  intro he
  obtain ⟨c, i, o, p, hc, ho, hp, hl⟩ := h
  unfold evalOutput at he
  rw [bind_of_ok (circuit_of hc)] at he
  have hs := evalOutputWith_clean hc (hw.circ r c hc) (evalGate_clean hw fuel r) he i o ho
  rcases hp with e | hp
  · rw [e] at hl; exact hs.irrefl hl
  · exact (hs.needs hp).irrefl hl

/-! ### sound gates need a bounded stack -/

theorem sound_depth (hw : WFw w) {p : Ref × GateId} (h : Sound w p) :
    ∃ F, ∀ fuel, F ≤ fuel → ∀ st, NF (evalGate w fuel p.1 p.2 st) := by
  induction h with
  | intro p _ ih =>
    obtain ⟨r, g⟩ := p
    cases hc : w.circs[r]? with
    | none =>
      refine ⟨1, fun fuel hf st => ?_⟩
      obtain ⟨fuel, rfl⟩ : ∃ k, fuel = k + 1 := ⟨fuel - 1, by omega⟩
      unfold evalGate
      intro h
      simp [World.circuit, hc, bind, Except.bind] at h
    | some c =>
      cases hg : c.gateMap g with
      | none =>
        refine ⟨1, fun fuel hf st => ?_⟩
        obtain ⟨fuel, rfl⟩ : ∃ k, fuel = k + 1 := ⟨fuel - 1, by omega⟩
        unfold evalGate
        rw [bind_of_ok (circuit_of hc)]
        simp only [hg]
        intro h
        cases h
      | some gate =>
        obtain ⟨F, hF⟩ := exists_bound (n := gate.operands.length)
          (P := fun i F => ∀ x, gate.operands[i]? = some x → ∀ fuel, F ≤ fuel → ∀ st, NF (evalGate w fuel r x st))
          (by
            intro i a b hab h x hx fuel hf
            exact h x hx fuel (by omega))
          (by
            intro i hi
            obtain ⟨F, hF⟩ := ih (r, gate.operands[i]) (.operand hc hg (List.getElem_mem hi))
            refine ⟨F, fun x hx fuel hf st => ?_⟩
            rw [List.getElem?_eq_getElem hi] at hx
            cases hx
            exact hF fuel hf st)
        have hop : ∀ fuel, F ≤ fuel → ∀ x ∈ gate.operands, ∀ st, NF (evalGate w fuel r x st) := by
          intro fuel hf x hx
          obtain ⟨i, hi, e⟩ := List.mem_iff_getElem.mp hx
          exact hF i hi x (by rw [List.getElem?_eq_getElem hi, e]) fuel hf
        have hin : ∃ G, ∀ nIn nOut ids oi mid mr mc, gate = .module nIn nOut ids oi mid → w.module? c mid = some mr →
            w.circs[mr]? = some mc → ∀ fuel, G ≤ fuel → ∀ k o, mc.outputMap k = some o → ∀ st,
              NF (evalGate w fuel mr o st) := by
          by_cases hm : ∃ nIn nOut ids oi mid mr mc, gate = .module nIn nOut ids oi mid ∧ w.module? c mid = some mr ∧
              w.circs[mr]? = some mc
          · obtain ⟨nIn, nOut, ids, oi, mid, mr, mc, e1, e2, e3⟩ := hm
            subst e1
            obtain ⟨G, hG⟩ := exists_bound (n := mc.outputLen)
              (P := fun k G => ∀ o, mc.outputMap k = some o → ∀ fuel, G ≤ fuel → ∀ st, NF (evalGate w fuel mr o st))
              (by
                intro i a b hab h x hx fuel hf
                exact h x hx fuel (by omega))
              (by
                intro k _
                cases ho : mc.outputMap k with
                | none => exact ⟨0, fun o h => by cases h⟩
                | some o =>
                  obtain ⟨G, hG⟩ := ih (mr, o) (.inside hc hg e2 e3 ho)
                  exact ⟨G, fun o' h fuel hf st => by cases h; exact hG fuel hf st⟩)
            refine ⟨G, ?_⟩
            intro nIn' nOut' ids' oi' mid' mr' mc' h1 h2 h3 fuel hf k o ho
            cases h1
            rw [e2] at h2
            cases h2
            rw [e3] at h3
            cases h3
            exact hG k (((hw.circ mr mc e3).output_dom k).mp (by simp [ho])) o ho fuel hf
          · exact ⟨0, fun nIn nOut ids oi mid mr mc h1 h2 h3 => absurd ⟨_, _, _, _, _, _, _, h1, h2, h3⟩ hm⟩
        obtain ⟨G, hG⟩ := hin
        refine ⟨F + G + 1, fun fuel hf st => ?_⟩
        obtain ⟨fuel, rfl⟩ : ∃ k, fuel = k + 1 := ⟨fuel - 1, by omega⟩
        have hop := hop fuel (by omega)
        unfold evalGate
        rw [bind_of_ok (circuit_of hc)]
        simp only [hg]
        cases gate with
        | input k => exact .ok _
        | const v => exact .ok _
        | not x =>
          exact (NF.ensure (hop x (by simp [Gate.operands])) st).bind fun _ _ => (NF.bit _ _).bind fun _ _ =>
            (NF.release _ _).bind fun _ _ => .ok _
        | xor a b => exact NF.evalBinary (hop a (by simp [Gate.operands])) (hop b (by simp [Gate.operands])) st
        | and a b => exact NF.evalBinary (hop a (by simp [Gate.operands])) (hop b (by simp [Gate.operands])) st
        | or a b => exact NF.evalBinary (hop a (by simp [Gate.operands])) (hop b (by simp [Gate.operands])) st
        | module nIn nOut ids oi mid =>
          simp only
          refine (NF.collectBits ids (fun x hx => hop x hx) st).bind fun p _ => ?_
          cases hm : w.module? c mid with
          | none => intro h; cases h
          | some mr =>
            simp only
            cases hmc : w.circs[mr]? with
            | none =>
              intro h
              simp [World.circuit, hmc, bind, Except.bind] at h
            | some mc =>
              rw [bind_of_ok (circuit_of hmc)]
              refine NF.bind ?_ fun _ _ => ?_
              · unfold evalOutputWith
                split
                · intro h; cases h
                · exact (NF.seedInputs _ _ _ _).bind fun st _ =>
                    NF.evalOutputs (hG _ _ _ _ _ mr mc rfl hm hmc fuel (by omega)) _ _ _
              · refine (NF.releaseAll _ _).bind fun _ _ => ?_
                split
                · intro h; cases h
                · exact NF.recordOutputs _ _ _ _ _ _

theorem circular_of_overflow (hw : WFw w) {ins : List Bool} (h : ∀ fuel, evalOutput w fuel r ins = .error .outOfFuel) :
    Circular w r := by
  cases hc : w.circs[r]? with
  | none =>
    have := h 0
    simp [evalOutput, World.circuit, hc, bind, Except.bind] at this
  | some c =>
    refine Classical.byContradiction fun hn => ?_
    have hs : ∀ k o, c.outputMap k = some o → Sound w (r, o) := by
      intro k o ho
      refine sound_of_acyclic _ (allGates w) (Nat.le_refl _) _ (fun q _ hq => ?_) (fun q hq hl => ?_)
      · obtain ⟨s, hs⟩ := hq
        exact mem_allGates hw hs
      · exact hn ⟨c, k, o, q, hc, ho, hq, hl⟩
    obtain ⟨F, hF⟩ := exists_bound (n := c.outputLen)
      (P := fun k F => ∀ o, c.outputMap k = some o → ∀ fuel, F ≤ fuel → ∀ st, NF (evalGate w fuel r o st))
      (by
        intro i a b hab h x hx fuel hf
        exact h x hx fuel (by omega))
      (by
        intro k _
        cases ho : c.outputMap k with
        | none => exact ⟨0, fun o h => by cases h⟩
        | some o =>
          obtain ⟨G, hG⟩ := sound_depth hw (hs k o ho)
          exact ⟨G, fun o' h fuel hf st => by cases h; exact hG fuel hf st⟩)
    have h1 := h F
    unfold evalOutput at h1
    rw [bind_of_ok (circuit_of hc)] at h1
    have h2 : NF (evalOutputWith c (evalGate w F r) ins) := by
      unfold evalOutputWith
      split
      · intro h; cases h
      · refine (NF.seedInputs _ _ _ _).bind fun st _ => NF.evalOutputs (fun k o ho => ?_) _ _ _
        exact hF k (((hw.circ r c hc).output_dom k).mp (by simp [ho])) o ho F (Nat.le_refl _)
    exact h2 h1

end

end CC
