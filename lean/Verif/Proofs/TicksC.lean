import Verif.Proofs.TicksB

/-!
# How long evaluations take: circuits
-/

namespace CC
open Spec Ticks

theorem sumTo_list {n : Nat} {f : Nat → Nat} : ∀ {gs : List Nat}, gs.Nodup → (∀ g ∈ gs, g < n) →
    (∀ g, g < n → g ∉ gs → f g = 0) → sumTo n f = (gs.map f).sum
  | [], _, _, h => by rw [sumTo_zero fun i hi => h i hi (by simp)]; rfl
  | x :: xs, hnd, hlt, h => by
    obtain ⟨h1, h2⟩ := List.nodup_cons.mp hnd
    have ih := sumTo_list (n := n) (f := fun g => if g = x then 0 else f g) h2 (fun g hg => hlt g (List.mem_cons_of_mem _ hg))
      (by
        intro g hg hgx
        by_cases e : g = x
        · simp [e]
        · simp only [if_neg e]
          exact h g hg (by simp [e, hgx]))
    have e : xs.map (fun g => if g = x then 0 else f g) = xs.map f := by
      refine List.map_congr_left fun g hg => ?_
      rw [if_neg]
      rintro rfl
      exact h1 hg
    have := sumTo_add_at (n := n) (f := fun g => if g = x then 0 else f g) (g := f) (k := x) (d := f x) (hlt x (by simp))
      (by simp) (by intro i _ hi; simp [hi])
    rw [e] at ih
    simp only [List.map_cons, List.sum_cons]
    omega

theorem Spec.IsConst.lt {c : Circuit} (hwf : WFc c) {g : GateId} (h : IsConst c g) : g < c.gateIndex := by
  obtain ⟨v, hv⟩ := h; exact hwf.lt_of_some hv

theorem Spec.IsTask.lt {w : World} {c : Circuit} (hwf : WFc c) {g : GateId} (h : IsTask w c g) : g < c.gateIndex := by
  rcases h with h | h | ⟨mr, h⟩
  · exact IsConst.lt hwf h
  · exact IsLogic.lt hwf h
  · exact IsCall.lt hwf h

theorem Spec.IsTask.charge {w : World} {c : Circuit} {g : GateId} (h : IsTask w c g) (v : GateId → Nat) :
    charge c v g = v g := by
  rcases h with ⟨a, h⟩ | ⟨a, b, h | h | h | h⟩ | ⟨mr, _, _, _, _, h, _⟩ <;> simp [CC.charge, h]

theorem Spec.IsTask.not_input {w : World} {c : Circuit} {g : GateId} (h : IsTask w c g) : isInput c g = false := by
  rcases h with ⟨a, h⟩ | ⟨a, b, h | h | h | h⟩ | ⟨mr, _, _, _, _, h, _⟩ <;> simp [isInput, h]

theorem charge_not_task {w : World} {c : Circuit} (hcalls : CallsOk w c) {g : GateId} (h : ¬ IsTask w c g)
    (v : GateId → Nat) : charge c v g = 0 := by
  unfold charge
  cases hg : c.gateMap g with
  | none => rfl
  | some gate =>
    cases gate with
    | input k => rfl
    | const a => exact absurd (Or.inl ⟨a, hg⟩) h
    | not a => exact absurd (Or.inr (Or.inl ⟨a, a, Or.inl hg⟩)) h
    | xor a b => exact absurd (Or.inr (Or.inl ⟨a, b, Or.inr (Or.inl hg)⟩)) h
    | and a b => exact absurd (Or.inr (Or.inl ⟨a, b, Or.inr (Or.inr (Or.inl hg))⟩)) h
    | or a b => exact absurd (Or.inr (Or.inl ⟨a, b, Or.inr (Or.inr (Or.inr hg))⟩)) h
    | module nIn nOut ids oi mid =>
      cases oi with
      | succ k => rfl
      | zero =>
        obtain ⟨mr, _, hm, _⟩ := hcalls g nIn nOut ids 0 mid hg
        exact absurd (Or.inr (Or.inr ⟨mr, nIn, nOut, ids, mid, hg, hm⟩)) h

theorem isCall_lead {w : World} {c : Circuit} (hwf : WFc c) {g nIn nOut ids oi mid mr}
    (hg : c.gateMap g = some (.module nIn nOut ids oi mid)) (hm : w.module? c mid = some mr) : IsCall w c (g - oi) mr := by
  obtain ⟨h1, _, h3⟩ := hwf.group g nIn nOut ids oi mid hg
  have := h3 0 (by omega)
  rw [Nat.add_zero] at this
  exact ⟨nIn, nOut, ids, mid, this, hm⟩

/-! ### any circuit: each output once -/

theorem G.empty (c : Circuit) (st : EvSt) : G c (fun _ => true) (fun _ => false) [] st :=
  ⟨(by intro y z h; cases h), (by intro g gate x h; cases h), (by intro x h; cases h), fun _ _ => Or.inr rfl⟩

theorem charged_none (c : Circuit) (v : GateId → Nat) : charged c v (fun _ => false) = 0 := sumTo_zero fun _ _ => by simp

theorem outputs_any {c : Circuit} {lo hi : GateId → Nat} {good : GateId → Prop} {eg : GateId → EvSt → T EvSt}
    (hwf : WFc c) (heg : EvT c (fun _ => true) lo hi good eg) (hgood : ∀ i o, c.outputMap i = some o → good o)
    (inputs : List Bool) : ∀ (k i : Nat) (st : EvSt) (n : Nat),
    Tri (Ticks.evalOutputs c eg inputs i k st) n (fun m => m ≤ n + k * charged c hi (fun _ => true))
      fun _ m => n ≤ m ∧ m ≤ n + k * charged c hi fun _ => true
  | 0, _, _, n => Tri.pure (by omega)
  | k + 1, i, st, n => by
    have e : (k + 1) * charged c hi (fun _ => true) = charged c hi (fun _ => true) + k * charged c hi (fun _ => true) := by
      rw [Nat.add_mul, Nat.one_mul, Nat.add_comm]
    unfold Ticks.evalOutputs
    have h1 : Tri (Ticks.evalSingleOutput c eg inputs i st) n (fun m => m ≤ n + charged c hi fun _ => true)
        fun _ m => n ≤ m ∧ m ≤ n + charged c hi fun _ => true := by
      unfold Ticks.evalSingleOutput
      split
      · exact Tri.throw (Nat.le_add_right _ _)
      · split
        · exact Tri.throw (Nat.le_add_right _ _)
        · cases ho : c.outputMap i with
          | none => exact Tri.throw (Nat.le_add_right _ _)
          | some o =>
            simp only
            cases st.evaled o with
            | some b => exact Tri.pure ⟨Nat.le_refl _, Nat.le_add_right _ _⟩
            | none =>
              refine Tri.bind ((heg (fun _ => false) st o n (G.empty c st) rfl (hwf.output_gate i o ho)
                (hgood i o ho)).mono ?_ ?_)
              · rintro m ⟨d, _, _, h⟩
                have := charged_mono (c := c) (v := hi) (d := d) (d' := fun _ => true) fun _ _ => rfl
                rw [charged_none] at h
                omega
              · rintro s m ⟨d, h⟩
                have h1 := h.hi
                have h2 := h.lo
                have := charged_mono (c := c) (v := hi) (d := d) (d' := fun _ => true) fun _ _ => rfl
                rw [charged_none] at h1 h2
                exact Tri.bindLift (by omega) fun b _ => Tri.pure (by omega)
    refine Tri.bind (h1.mono (fun m h => by omega) ?_)
    rintro ⟨b, st2⟩ m h
    refine Tri.bind ((outputs_any hwf heg hgood inputs k (i + 1) st2 m).mono (fun m2 h2 => by omega) ?_)
    intro bs m2 h2
    exact Tri.pure (by omega)

theorem Spec.Limit.tri {κ : Ref → GateId → Nat} {w : World} (hw : WFw w) {r : Ref} {N : Nat} (h : Limit κ w r N) :
    Built w r → ∀ c, w.circs[r]? = some c → ∀ fuel bits n,
    Tri (Ticks.evalOutputWith c (Ticks.evalGate κ w fuel r) bits) n (fun m => m ≤ n + N) fun _ m => n ≤ m ∧ m ≤ n + N := by
  induction h with
  | @mk r c gs m hc hnd hgs hm0 _ ih =>
    intro hb c' hc' fuel bits n
    rw [hc] at hc'; cases hc'
    cases hb with
    | mk hc' ht hcalls hbs =>
    rw [hc] at hc'; cases hc'
    have hwf := hw.circ r c hc
    have B : Bnd κ w r c (fun _ => true) (fun _ => 0) (fun g => κ r g + m g) (fun _ => True) := by
      refine ⟨hwf, hc, ht, fun _ _ _ _ _ _ => trivial, fun _ _ _ _ _ => ⟨Nat.zero_le _, Nat.le_add_right _ _⟩,
        fun _ _ _ _ _ _ _ _ => Nat.le_add_right _ _, ?_⟩
      intro g nIn nOut ids oi mid mr mc fuel bits n _ hg hmod hmc
      have hcall := isCall_lead hwf hg hmod
      have := ih _ mr ((hgs _).mpr (Or.inr (Or.inr ⟨mr, hcall⟩))) hcall
        (hbs mr ⟨g, nIn, nOut, ids, oi, mid, hg, hmod⟩) mc hmc fuel bits n
      exact this.mono (fun _ h => by omega) (fun _ _ h => ⟨by omega, by omega⟩)
    have hsum : charged c (fun g => κ r g + m g) (fun _ => true) = (gs.map fun g => κ r g + m g).sum := by
      unfold charged
      rw [sumTo_list hnd fun g hg => IsTask.lt hwf ((hgs g).mp hg)]
      · congr 1
        refine List.map_congr_left fun g hg => ?_
        rw [if_pos rfl, IsTask.charge ((hgs g).mp hg)]
      · intro g _ hg
        rw [if_pos rfl, charge_not_task hcalls fun h => hg ((hgs g).mpr h)]
    unfold Ticks.evalOutputWith
    split
    · exact Tri.throw (Nat.le_add_right _ _)
    · refine Tri.bindLift (Nat.le_add_right _ _) fun st _ => ?_
      rw [← hsum]
      exact outputs_any hwf (evalGate_time B fuel) (fun _ _ _ => trivial) bits _ _ st n

/-! ### readable circuits: each gate once -/

theorem seedInputs_fresh {c : Circuit} (hwf : WFc c) : ∀ (bs : List Bool) (i : Nat) (st st' : EvSt),
    seedInputs c i bs st = .ok st' → (∀ x, (st.evaled x).isSome → isInput c x = true) →
    ∀ x, (st'.evaled x).isSome → isInput c x = true
  | [], _, st, st', h, hst => by cases h; exact hst
  | b :: bs, i, st, st', h, hst => by
    unfold seedInputs at h
    cases hg : c.inputMap i with
    | none => rw [hg] at h; cases h
    | some g =>
      rw [hg] at h
      refine seedInputs_fresh hwf bs (i + 1) _ st' h ?_
      intro x hx
      by_cases e : x = g
      · subst e; exact isInput_iff.mpr ⟨i, (hwf.input_iff i x).mp hg⟩
      · simp only [EvSt.record, Map.insert_apply, if_neg e] at hx
        exact hst x hx

/-- gates computed for the outputs before `i` -/
def Cone (c : Circuit) (i : Nat) (done : GateId → Bool) : Prop :=
  ∀ x, done x = true → ∃ (j : Nat) (p : GateId), j < i ∧ c.outputMap j = some p ∧ Reach c p x

theorem Cone.le {c i j done} (h : Cone c i done) (hij : i ≤ j) : Cone c j done := by
  intro x hx
  obtain ⟨k, p, h1, h2, h3⟩ := h x hx
  exact ⟨k, p, by omega, h2, h3⟩

theorem outputs_once {c : Circuit} {lo hi : GateId → Nat} {eg : GateId → EvSt → T EvSt}
    (hwf : WFc c) (hread : ∀ i o, c.outputMap i = some o → Readable c i o)
    (heg : EvT c (isInput c) lo hi (Needed c) eg) (inputs : List Bool) : ∀ (k i : Nat) (done : GateId → Bool) (st : EvSt)
    (n : Nat), i + k ≤ c.outputLen → G c (isInput c) done [] st → Cone c i done →
    Tri (Ticks.evalOutputs c eg inputs i k st) n
      (fun m => ∃ done', Cone c (i + k) done' ∧ m + charged c hi done ≤ n + charged c hi done')
      fun _ m => ∃ done' st', G c (isInput c) done' [] st' ∧ Cone c (i + k) done' ∧
        (∀ y, done y = true → done' y = true) ∧
        (∀ j p, i ≤ j → j < i + k → c.outputMap j = some p → done' p = true ∨ isInput c p = true) ∧
        m + charged c hi done ≤ n + charged c hi done' ∧ n + charged c lo done' ≤ m + charged c lo done
  | 0, i, done, st, n, _, hj, hcone =>
    Tri.pure ⟨done, st, hj, hcone, fun _ h => h, fun j p h1 h2 => by omega, Nat.le_refl _, Nat.le_refl _⟩
  | k + 1, i, done, st, n, hi', hj, hcone => by
    have hc0 : ∃ done', Cone c (i + (k + 1)) done' ∧ n + charged c hi done ≤ n + charged c hi done' :=
      ⟨done, hcone.le (by omega), Nat.le_refl _⟩
    unfold Ticks.evalOutputs
    have h1 : Tri (Ticks.evalSingleOutput c eg inputs i st) n
        (fun m => ∃ done', Cone c (i + (k + 1)) done' ∧ m + charged c hi done ≤ n + charged c hi done')
        fun p m => ∃ done', G c (isInput c) done' [] p.2 ∧ Cone c (i + 1) done' ∧
          (∀ y, done y = true → done' y = true) ∧
          (∀ p, c.outputMap i = some p → done' p = true ∨ isInput c p = true) ∧
          m + charged c hi done ≤ n + charged c hi done' ∧ n + charged c lo done' ≤ m + charged c lo done := by
      unfold Ticks.evalSingleOutput
      split
      · exact Tri.throw hc0
      · split
        · exact Tri.throw hc0
        · cases ho : c.outputMap i with
          | none => exact Tri.throw hc0
          | some o =>
            simp only
            cases e : st.evaled o with
            | some b =>
              refine Tri.pure ⟨done, hj, hcone.le (by omega), fun _ h => h, ?_, Nat.le_refl _, Nat.le_refl _⟩
              intro p hp
              cases hp
              exact hj.fresh o (by rw [e]; rfl)
            | none =>
              have hd : done o = false := by
                cases ed : done o with
                | false => rfl
                | true =>
                  have hroom : deg c o = 0 ∨ used c done o < deg c o := by
                    rcases hread i o ho with h | ⟨g, gate, h1, h2, h3⟩
                    · left
                      rw [deg_eq hwf]
                      refine sumTo_zero fun g _ => ?_
                      unfold Circuit.occ
                      cases eg : c.gateMap g with
                      | none => rfl
                      | some gate => exact List.count_eq_zero.mpr (h g gate eg)
                    · right
                      rcases h3 with h3 | ⟨nIn, nOut, ids, oi, mid, rfl, h3⟩
                      · have hdg : done g = false := by
                          cases edg : done g with
                          | false => rfl
                          | true =>
                            obtain ⟨j, p, hj, hp, hr⟩ := hcone g edg
                            exact absurd hr (h3 j p hj hp)
                        exact Mid.room hwf h1 hdg h2
                      · exact used_lt_module hwf h1 h3 h2
                  have := (hj.cached o ed (by simpa using hroom)).1
                  rw [e] at this; cases this
              have hcone' : ∀ d : GateId → Bool, (∀ y, d y = true → done y = true ∨ Reach c o y) → Cone c (i + 1) d := by
                intro d hd x hx
                rcases hd x hx with h | h
                · exact (hcone.le (Nat.le_succ i)) x h
                · exact ⟨i, o, by omega, ho, h⟩
              refine Tri.bind ((heg done st o n hj hd (hwf.output_gate i o ho) ⟨i, o, ho, .refl⟩).mono ?_ ?_)
              · rintro m ⟨d, _, h2, h3⟩
                exact ⟨d, (hcone' d h2).le (by omega), h3⟩
              · rintro s m ⟨d, h⟩
                refine Tri.bindLift ⟨d, (hcone' d h.reach).le (by omega), h.hi⟩ fun b hb => Tri.pure ?_
                refine ⟨d, h.inv, hcone' d h.reach, h.mono, ?_, h.hi, h.lo⟩
                intro p hp
                cases hp
                exact fresh_bit h.inv hb
    refine Tri.bind (h1.mono (fun m h => h) ?_)
    rintro ⟨b, st2⟩ m ⟨d, a1, a2, a3, a4, a5, a6⟩
    refine Tri.bind ((outputs_once hwf hread heg inputs k (i + 1) d st2 m (by omega) a1 a2).mono ?_ ?_)
    · rintro m2 ⟨d2, b1, b2⟩
      refine ⟨d2, b1.le (by omega), by omega⟩
    · rintro bs m2 ⟨d2, st3, b1, b2, b3, b4, b5, b6⟩
      refine Tri.pure ⟨d2, st3, b1, b2.le (by omega), fun y hy => b3 y (a3 y hy), ?_, by omega, by omega⟩
      intro j p hj1 hj2 hp
      by_cases e : j = i
      · subst e
        exact (a4 p hp).imp_left (b3 p)
      · exact b4 j p (by omega) (by omega) hp

theorem G.reach {c : Circuit} (hwf : WFc c) {done : GateId → Bool} {st : EvSt} (h : G c (isInput c) done [] st)
    {p x : GateId} (hp : done p = true ∨ isInput c p = true) (hr : Reach c p x) : done x = true ∨ isInput c x = true := by
  induction hr with
  | refl => exact hp
  | @operand y gate x _ hy hx ih =>
    rcases ih with hd | hd
    · exact h.closed y gate x hd hy hx
    · obtain ⟨k, hk⟩ := isInput_iff.mp hd
      rw [hk] at hy; cases hy; simp [Gate.operands] at hx
  | @sibling y nIn nOut ids oi mid k _ hy hk ih =>
    rcases ih with hd | hd
    · refine Or.inl (h.group y _ hd (leadOf_member hwf hy hk).symm ?_)
      exact hwf.lt_of_some ((hwf.group y _ _ _ _ _ hy).2.2 k hk)
    · obtain ⟨k, hk⟩ := isInput_iff.mp hd
      rw [hk] at hy; cases hy

theorem Spec.Needed.operand {c : Circuit} {g : GateId} {gate : Gate} {x : GateId} (h : Needed c g)
    (hg : c.gateMap g = some gate) (hx : x ∈ gate.operands) : Needed c x := by
  obtain ⟨i, o, h1, h2⟩ := h
  exact ⟨i, o, h1, .operand h2 hg hx⟩

theorem Spec.Needed.first {c : Circuit} (hwf : WFc c) {g : GateId} {nIn nOut ids oi mid} (h : Needed c g)
    (hg : c.gateMap g = some (.module nIn nOut ids oi mid)) : Needed c (g - oi) := by
  obtain ⟨i, o, h1, h2⟩ := h
  have := (hwf.group g nIn nOut ids oi mid hg).1
  exact ⟨i, o, h1, .sibling (k := 0) h2 hg (by omega)⟩

theorem Spec.Effort.tri {κ : Ref → GateId → Nat} {w : World} (hw : WFw w) {r : Ref} {N : Nat} (h : Effort κ w r N) :
    Evaluable w r → ∀ c, w.circs[r]? = some c → ∀ fuel bits n,
    Tri (Ticks.evalOutputWith c (Ticks.evalGate κ w fuel r) bits) n (fun m => m ≤ n + N) fun _ m => m = n + N := by
  induction h with
  | @mk r c gs m hc hnd hgs hm0 _ ih =>
    intro hb c' hc' fuel bits n
    rw [hc] at hc'; cases hc'
    cases hb with
    | mk hc' ht hread hcalls hbs =>
    rw [hc] at hc'; cases hc'
    have hwf := hw.circ r c hc
    have hmz : ∀ g gate, Needed c g → c.gateMap g = some gate → (∀ i, gate ≠ .input i) →
        (∀ a b ids o m, gate ≠ .module a b ids o m) → m g = 0 := by
      intro g gate hn hg hni hnm
      have hnc : ∀ mr, ¬ IsCall w c g mr := by
        rintro mr ⟨_, _, _, _, h, _⟩
        rw [hg] at h; cases h
        exact hnm _ _ _ _ _ rfl
      refine hm0 g ((hgs g).mpr ⟨hn, ?_⟩) hnc
      cases gate with
      | input k => exact absurd rfl (hni k)
      | const a => exact Or.inl ⟨a, hg⟩
      | not a => exact Or.inr (Or.inl ⟨a, a, Or.inl hg⟩)
      | xor a b => exact Or.inr (Or.inl ⟨a, b, Or.inr (Or.inl hg)⟩)
      | and a b => exact Or.inr (Or.inl ⟨a, b, Or.inr (Or.inr (Or.inl hg))⟩)
      | or a b => exact Or.inr (Or.inl ⟨a, b, Or.inr (Or.inr (Or.inr hg))⟩)
      | module a b c d e => exact absurd rfl (hnm _ _ _ _ _)
    -- the weight of a gate
    let v : GateId → Nat := fun g => if isInput c g then κ r g else κ r g + m g
    have B : Bnd κ w r c (isInput c) v v (Needed c) := by
      refine ⟨hwf, hc, ht, fun g gate x h hg hx => Needed.operand h hg hx, ?_, ?_, ?_⟩
      · intro g gate hn hg hnm
        by_cases hin : isInput c g = true
        · simp only [v, if_pos hin]; exact ⟨Nat.le_refl _, Nat.le_refl _⟩
        · have := hmz g gate hn hg (by rintro i rfl; exact hin (isInput_iff.mpr ⟨i, hg⟩)) hnm
          simp only [v, if_neg hin, this]
          exact ⟨Nat.le_refl _, Nat.le_refl _⟩
      · intro g nIn nOut ids oi mid _ hg
        simp only [v]
        split <;> omega
      · intro g nIn nOut ids oi mid mr mc fuel bits n hn hg hmod hmc
        have hcall := isCall_lead hwf hg hmod
        have htask : IsTask w c (g - oi) := Or.inr (Or.inr ⟨mr, hcall⟩)
        have := ih _ mr ((hgs _).mpr ⟨Needed.first hwf hn hg, htask⟩) hcall
          (hbs mr ⟨g, nIn, nOut, ids, oi, mid, hg, hmod⟩) mc hmc fuel bits n
        simp only [v, htask.not_input]
        exact this.mono (fun _ h => by simp; omega) (fun _ _ h => by subst h; simp; omega)
    have hsum : ∀ done : GateId → Bool, (∀ x, done x = true → Needed c x) →
        (∀ x, Needed c x → done x = true ∨ isInput c x = true) →
        charged c v done = (gs.map fun g => κ r g + m g).sum := by
      intro done h1 h2
      unfold charged
      rw [sumTo_list hnd fun g hg => IsTask.lt hwf ((hgs g).mp hg).2]
      · congr 1
        refine List.map_congr_left fun g hg => ?_
        obtain ⟨k1, k2⟩ := (hgs g).mp hg
        have k3 := k2.not_input
        have k4 : done g = true := by
          rcases h2 g k1 with h | h
          · exact h
          · rw [k3] at h; cases h
        rw [if_pos k4, k2.charge]
        simp [v, k3]
      · intro g _ hg
        by_cases hd : done g = true
        · rw [if_pos hd, charge_not_task hcalls fun h => hg ((hgs g).mpr ⟨h1 g hd, h⟩)]
        · rw [if_neg hd]
    have hle : ∀ done : GateId → Bool, (∀ x, done x = true → Needed c x) →
        charged c v done ≤ (gs.map fun g => κ r g + m g).sum := by
      intro done h1
      have : ∃ d : GateId → Bool, ∀ x, d x = true ↔ Needed c x :=
        ⟨fun x => @decide (Needed c x) (Classical.propDecidable _), fun x => by simp⟩
      obtain ⟨d, hd⟩ := this
      rw [← hsum d (fun x h => (hd x).mp h) fun x h => Or.inl ((hd x).mpr h)]
      exact charged_mono fun y hy => (hd y).mpr (h1 y hy)
    unfold Ticks.evalOutputWith
    split
    · exact Tri.throw (Nat.le_add_right _ _)
    · refine Tri.bindLift (Nat.le_add_right _ _) fun st hst => ?_
      have hG : G c (isInput c) (fun _ => false) [] st :=
        ⟨(by intro y z h; cases h), (by intro g gate x h; cases h), (by intro x h; cases h),
          fun x hx => Or.inr (seedInputs_fresh hwf bits 0 _ st hst (by intro x h; cases h) x hx)⟩
      refine (outputs_once hwf hread (evalGate_time B fuel) bits c.outputLen 0 _ st n (by omega) hG
        (by intro x h; cases h)).mono ?_ ?_
      · rintro m2 ⟨d, h1, h2⟩
        rw [charged_none] at h2
        have := hle d fun x hx => by
          obtain ⟨j, p, _, hp, hr⟩ := h1 x hx
          exact ⟨j, p, hp, hr⟩
        omega
      · rintro outs m2 ⟨d, st', h1, h2, _, h4, h5, h6⟩
        rw [charged_none] at h5 h6
        have := hsum d (fun x hx => by
          obtain ⟨j, p, _, hp, hr⟩ := h2 x hx
          exact ⟨j, p, hp, hr⟩) (by
          rintro x ⟨j, p, hp, hr⟩
          have hj : j < c.outputLen := (hwf.output_dom j).mp (by rw [hp]; rfl)
          exact G.reach hwf h1 (h4 j p (by omega) (by omega) hp) hr)
        omega

/-! ### evaluation -/

theorem Spec.Limit.time {κ : Ref → GateId → Nat} {w : World} (hw : WFw w) {r : Ref} {N : Nat} (h : Limit κ w r N)
    (hb : Built w r) (fuel : Nat) (ins : List Bool) : time κ w fuel r ins ≤ N := by
  obtain ⟨c, hc⟩ : ∃ c, w.circs[r]? = some c := by cases h with | mk _ _ hc _ _ _ _ => exact ⟨_, hc⟩
  have : Tri (Ticks.evalOutput κ w fuel r ins) 0 (fun m => m ≤ N) fun _ m => m ≤ N := by
    unfold Ticks.evalOutput
    refine Tri.bindLift (Nat.zero_le _) fun c' hc' => ?_
    rw [circuit_of hc] at hc'
    cases hc'
    exact (h.tri hw hb c hc fuel ins 0).mono (fun _ h => by omega) (fun _ _ h => by omega)
  unfold Tri at this
  unfold Ticks.time
  rcases e : Ticks.evalOutput κ w fuel r ins 0 with ⟨a, m⟩
  rw [e] at this
  cases a with
  | error _ => exact this
  | ok _ => exact this

theorem Spec.Effort.time {κ : Ref → GateId → Nat} {w : World} (hw : WFw w) {r : Ref} {N : Nat} (h : Effort κ w r N)
    (hb : Evaluable w r) (fuel : Nat) (ins : List Bool) :
    time κ w fuel r ins ≤ N ∧ ((∃ outs, CC.evalOutput w fuel r ins = .ok outs) → time κ w fuel r ins = N) := by
  obtain ⟨c, hc⟩ : ∃ c, w.circs[r]? = some c := by cases h with | mk _ _ hc _ _ _ _ => exact ⟨_, hc⟩
  have : Tri (Ticks.evalOutput κ w fuel r ins) 0 (fun m => m ≤ N) fun _ m => m = N := by
    unfold Ticks.evalOutput
    refine Tri.bindLift (Nat.zero_le _) fun c' hc' => ?_
    rw [circuit_of hc] at hc'
    cases hc'
    exact (h.tri hw hb c hc fuel ins 0).mono (fun _ h => by omega) (fun _ _ h => by omega)
  have her := Er.evalOutput κ w fuel r ins 0
  unfold Tri at this
  unfold Ticks.time
  rcases e : Ticks.evalOutput κ w fuel r ins 0 with ⟨a, m⟩
  rw [e] at this her
  cases a with
  | error _ =>
    refine ⟨this, ?_⟩
    rintro ⟨outs, ho⟩
    rw [ho] at her; cases her
  | ok _ => exact ⟨Nat.le_of_eq this, fun _ => this⟩

/-! ### existence -/

theorem tasks_exist {w : World} {c : Circuit} (hwf : WFc c) (P : GateId → Prop) :
    ∃ gs : List GateId, gs.Nodup ∧ ∀ g, g ∈ gs ↔ P g ∧ IsTask w c g := by
  classical
  refine ⟨(List.range c.gateIndex).filter fun g => decide (P g ∧ IsTask w c g),
    List.nodup_range.sublist List.filter_sublist, ?_⟩
  intro g
  simp only [List.mem_filter, List.mem_range, decide_eq_true_eq]
  exact ⟨fun h => h.2, fun h => ⟨IsTask.lt hwf h.2, h⟩⟩

theorem isCall_unique {w : World} {c : Circuit} {g : GateId} {mr mr' : Ref} (h : IsCall w c g mr) (h' : IsCall w c g mr') :
    mr = mr' := by
  obtain ⟨_, _, _, _, h1, h2⟩ := h
  obtain ⟨_, _, _, _, h3, h4⟩ := h'
  rw [h1] at h3; cases h3
  rw [h2] at h4; cases h4
  rfl

theorem isCall_calls {w : World} {c : Circuit} {g : GateId} {mr : Ref} (h : IsCall w c g mr) : Calls w c mr := by
  obtain ⟨_, _, _, _, h1, h2⟩ := h
  exact ⟨_, _, _, _, _, _, h1, h2⟩

theorem weights_exist {w : World} {c : Circuit} {P : Ref → Nat → Prop} (h : ∀ mr, Calls w c mr → ∃ n, P mr n) :
    ∃ m : GateId → Nat, (∀ g, (∀ mr, ¬ IsCall w c g mr) → m g = 0) ∧ ∀ g mr, IsCall w c g mr → P mr (m g) := by
  classical
  refine ⟨fun g => if hg : ∃ mr, IsCall w c g mr then (h hg.choose (isCall_calls hg.choose_spec)).choose else 0, ?_, ?_⟩
  · intro g hg
    show dite _ _ _ = 0
    rw [dif_neg]
    rintro ⟨mr, hm⟩
    exact hg mr hm
  · intro g mr hg
    have hex : ∃ mr, IsCall w c g mr := ⟨mr, hg⟩
    show P mr (dite _ _ _)
    rw [dif_pos hex]
    exact Eq.subst (motive := fun x => P x _) (isCall_unique hg hex.choose_spec).symm
      (h hex.choose (isCall_calls hex.choose_spec)).choose_spec

theorem Spec.Built.effort (κ : Ref → GateId → Nat) {w : World} (hw : WFw w) {r : Ref} (h : Built w r) :
    ∃ N, Effort κ w r N := by
  induction h with
  | @mk r c hc ht hcalls _ ih =>
    obtain ⟨gs, h1, h2⟩ := tasks_exist (w := w) (hw.circ r c hc) (Needed c)
    obtain ⟨m, h3, h4⟩ := weights_exist ih
    exact ⟨_, .mk gs m hc h1 h2 (fun g _ hg => h3 g hg) fun g mr _ hg => h4 g mr hg⟩

theorem Spec.Built.limit (κ : Ref → GateId → Nat) {w : World} (hw : WFw w) {r : Ref} (h : Built w r) :
    ∃ N, Limit κ w r N := by
  induction h with
  | @mk r c hc ht hcalls _ ih =>
    obtain ⟨gs, h1, h2⟩ := tasks_exist (w := w) (hw.circ r c hc) (fun _ => True)
    obtain ⟨m, h3, h4⟩ := weights_exist ih
    exact ⟨_, .mk gs m hc h1 (fun g => by simpa using h2 g) (fun g _ hg => h3 g hg) fun g mr _ hg => h4 g mr hg⟩

end CC
