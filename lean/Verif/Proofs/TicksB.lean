import Verif.Proofs.Ticks

/-!
# How often the evaluator computes a gate: gates and circuits
-/

namespace CC
open Spec Ticks

/-- The fixed data of the following lemmas: circuit `c` at `r`; `pre` as in `G`; `lo` and `hi` bounds for the time that a
computation takes; `good` a set of gates closed under operands. -/
structure Bnd (κ : Ref → GateId → Nat) (w : World) (r : Ref) (c : Circuit) (pre : GateId → Bool) (lo hi : GateId → Nat)
    (good : GateId → Prop) : Prop where
  wf : WFc c
  circ : w.circs[r]? = some c
  topo : Topo c
  operand : ∀ g gate x, good g → c.gateMap g = some gate → x ∈ gate.operands → good x
  plain : ∀ g gate, good g → c.gateMap g = some gate → (∀ a b ids o m, gate ≠ .module a b ids o m) →
    lo g ≤ κ r g ∧ κ r g ≤ hi g
  call : ∀ g nIn nOut ids oi mid, good g → c.gateMap g = some (.module nIn nOut ids oi mid) →
    κ r (g - oi) ≤ hi (g - oi)
  callee : ∀ g nIn nOut ids oi mid mr mc fuel bits n, good g → c.gateMap g = some (.module nIn nOut ids oi mid) →
    w.module? c mid = some mr → w.circs[mr]? = some mc →
    Tri (Ticks.evalOutputWith mc (Ticks.evalGate κ w fuel mr) bits) n (fun m => m + κ r (g - oi) ≤ n + hi (g - oi))
      fun _ m => m + κ r (g - oi) ≤ n + hi (g - oi) ∧ n + lo (g - oi) ≤ m + κ r (g - oi)

section
variable {κ : Ref → GateId → Nat} {w : World} {r : Ref} {c : Circuit} {pre : GateId → Bool} {lo hi : GateId → Nat}
  {good : GateId → Prop}

/-- a failure while computing `g`, begun at time `n` -/
def Lost (c : Circuit) (hi : GateId → Nat) (done : GateId → Bool) (g : GateId) (n m : Nat) : Prop :=
  ∃ done', (∀ y, done y = true → done' y = true) ∧ (∀ y, done' y = true → done y = true ∨ Reach c g y) ∧
    m + charged c hi done ≤ n + charged c hi done'

/-- `g` has been computed, begun at time `n` -/
structure Won (c : Circuit) (pre : GateId → Bool) (lo hi : GateId → Nat) (done : GateId → Bool) (g : GateId) (n : Nat)
    (done' : GateId → Bool) (st : EvSt) (m : Nat) : Prop where
  inv : G c pre done' [] st
  mono : ∀ y, done y = true → done' y = true
  reach : ∀ y, done' y = true → done y = true ∨ Reach c g y
  hi : m + charged c hi done ≤ n + charged c hi done'
  lo : n + charged c lo done' ≤ m + charged c lo done

/-- what `eg` does -/
def EvT (c : Circuit) (pre : GateId → Bool) (lo hi : GateId → Nat) (good : GateId → Prop)
    (eg : GateId → EvSt → T EvSt) : Prop :=
  ∀ done st g n, G c pre done [] st → done g = false → g < c.gateIndex → good g →
    Tri (eg g st) n (Lost c hi done g n) fun st' m => ∃ done', Won c pre lo hi done g n done' st' m

/-- while computing `g`, whose computation takes time `k` itself -/
structure Amid (c : Circuit) (pre : GateId → Bool) (lo hi : GateId → Nat) (done : GateId → Bool) (g : GateId) (n k : Nat)
    (done' : GateId → Bool) (st : EvSt) (m : Nat) : Prop where
  inv : G c pre done' [] st
  mono : ∀ y, done y = true → done' y = true
  reach : ∀ y, done' y = true → done y = true ∨ (Reach c g y ∧ leadOf c y < leadOf c g)
  hi : m + charged c hi done ≤ n + k + charged c hi done'
  lo : n + k + charged c lo done' ≤ m + charged c lo done

theorem Amid.start {done st} (h : G c pre done [] st) (g : GateId) (n k : Nat) :
    Amid c pre lo hi done g n k done st (n + k) :=
  ⟨h, fun _ h => h, fun _ h => Or.inl h, Nat.le_refl _, Nat.le_refl _⟩

/-- the group of `g` has not been computed -/
theorem Amid.new {done : GateId → Bool} {g : GateId} {done' : GateId → Bool} (hgroup : ∀ y z, done y = true → leadOf c y = leadOf c z → z < c.gateIndex → done z = true)
    (hg : done g = false) (hlt : g < c.gateIndex)
    (hreach : ∀ y, done' y = true → done y = true ∨ (Reach c g y ∧ leadOf c y < leadOf c g)) :
    ∀ y, leadOf c y = leadOf c g → done' y = false := by
  intro y hy
  cases e : done' y with
  | false => rfl
  | true =>
    rcases hreach y e with h | h
    · rw [hgroup y g h hy hlt] at hg; cases hg
    · omega

/-- a sibling is needed -/
theorem reach_group (hwf : WFc c) {g y : GateId} (hg : g < c.gateIndex) (hy : y < c.gateIndex)
    (h : leadOf c y = leadOf c g) : Reach c g y := by
  obtain ⟨gate, hgate⟩ := hwf.some_of_lt hg
  obtain ⟨gy, hgy⟩ := hwf.some_of_lt hy
  have e1 : leadOf c g = lead g gate := by simp [leadOf, hgate]
  have e2 : leadOf c y = lead y gy := by simp [leadOf, hgy]
  obtain ⟨l1, a1, _, _, _, _⟩ := lead_gate hwf hgate
  obtain ⟨l2, a2, _, _, _, _⟩ := lead_gate hwf hgy
  by_cases hm : ∃ nIn nOut ids oi mid, gate = .module nIn nOut ids oi mid
  · obtain ⟨nIn, nOut, ids, oi, mid, rfl⟩ := hm
    obtain ⟨b1, b2, b3⟩ := hwf.group g nIn nOut ids oi mid hgate
    have b0 := b3 0 (by omega)
    simp only [lead] at e1
    have hL : leadOf c g = g - oi := e1
    by_cases hm' : ∃ nIn nOut ids oi mid, gy = .module nIn nOut ids oi mid
    · obtain ⟨nIn', nOut', ids', oi', mid', rfl⟩ := hm'
      obtain ⟨d1, d2, d3⟩ := hwf.group y nIn' nOut' ids' oi' mid' hgy
      have d0 := d3 0 (by omega)
      have hL' : leadOf c y = y - oi' := e2
      have : y - oi' + 0 = g - oi + 0 := by omega
      rw [this, b0] at d0
      cases d0
      have := Reach.sibling (k := oi') Reach.refl hgate d1
      have e : g - oi + oi' = y := by omega
      rwa [e] at this
    · have hL' : leadOf c y = y := by
        rw [e2]; cases gy <;> first | rfl | exact absurd ⟨_, _, _, _, _, rfl⟩ hm'
      have := Reach.sibling (k := 0) Reach.refl hgate (by omega)
      have e : g - oi + 0 = y := by omega
      rwa [e] at this
  · have hL : leadOf c g = g := by
      rw [e1]; cases gate <;> first | rfl | exact absurd ⟨_, _, _, _, _, rfl⟩ hm
    by_cases hm' : ∃ nIn nOut ids oi mid, gy = .module nIn nOut ids oi mid
    · obtain ⟨nIn', nOut', ids', oi', mid', rfl⟩ := hm'
      obtain ⟨d1, d2, d3⟩ := hwf.group y nIn' nOut' ids' oi' mid' hgy
      have d0 := d3 0 (by omega)
      have hL' : leadOf c y = y - oi' := e2
      have : y - oi' + 0 = g := by omega
      rw [this, hgate] at d0
      cases d0
      exact absurd ⟨_, _, _, _, _, rfl⟩ hm
    · have hL' : leadOf c y = y := by
        rw [e2]; cases gy <;> first | rfl | exact absurd ⟨_, _, _, _, _, rfl⟩ hm'
      have : y = g := by omega
      subst this
      exact .refl

/-- failing while computing `g`: `g` is charged -/
theorem Amid.lost {done g n k done' m gate} (hwf : WFc c) (hgate : c.gateMap g = some gate) (hni : ∀ i, gate ≠ .input i)
    (hgroup : ∀ y z, done y = true → leadOf c y = leadOf c z → z < c.gateIndex → done z = true) (hg : done g = false)
    (hmono : ∀ y, done y = true → done' y = true)
    (hreach : ∀ y, done' y = true → done y = true ∨ (Reach c g y ∧ leadOf c y < leadOf c g))
    (hhi : m + charged c hi done ≤ n + k + charged c hi done') (hk : k ≤ hi (leadOf c g)) : Lost c hi done g n m := by
  have hlt := hwf.lt_of_some hgate
  have hnew := Amid.new hgroup hg hlt hreach
  obtain ⟨gl, l1, l2, l3, l4, l5⟩ := lead_gate hwf hgate
  have hll := hwf.lt_of_some l1
  refine ⟨markL c done' (leadOf c g), fun y hy => markL_iff.mpr (Or.inl (hmono y hy)), ?_, ?_⟩
  · intro y hy
    rcases markL_iff.mp hy with hy | hy
    · exact (hreach y hy).imp_right And.left
    · exact Or.inr (reach_group hwf hlt hy.1 hy.2)
  · have := charged_markL hi hll l3 (hnew _ l3)
    rw [l5 hni] at this
    omega

variable (B : Bnd κ w r c pre lo hi good)
include B

/-- an operand is asked for -/
theorem Amid.ensure {eg done g n k done' st m gate} (heg : EvT c pre lo hi good eg) (hgood : good g)
    (hgate : c.gateMap g = some gate) (hni : ∀ i, gate ≠ .input i)
    (hgroup : ∀ y z, done y = true → leadOf c y = leadOf c z → z < c.gateIndex → done z = true) (hg : done g = false)
    (hk : k ≤ hi (leadOf c g)) (h : Amid c pre lo hi done g n k done' st m) {x : GateId} (hx : x ∈ gate.operands) :
    Tri (Ticks.ensure eg x st) m (Lost c hi done g n) fun st2 m2 => ∃ done2, Amid c pre lo hi done g n k done2 st2 m2 ∧
      ∀ y, done' y = true → done2 y = true := by
  have hwf := B.wf
  have hlt := hwf.lt_of_some hgate
  have hxl := B.topo g gate hgate x hx
  have hgl : leadOf c g = lead g gate := by simp [leadOf, hgate]
  have h1 := leadOf_le (c := c) x
  have h2 := lead_le g gate
  unfold Ticks.ensure
  cases e : st.evaled x with
  | some b => exact Tri.pure ⟨done', h, fun _ h => h⟩
  | none =>
    have hroom : used c done' x < deg c x := by
      obtain ⟨gl, l1, l2, l3, _⟩ := lead_gate hwf hgate
      exact Mid.room hwf l1 (Amid.new hgroup hg hlt h.reach _ l3) (by rw [l2]; exact hx)
    have hd : done' x = false := by
      cases ed : done' x with
      | false => rfl
      | true =>
        have := (h.inv.cached x ed (Or.inr (by simpa using hroom))).1
        rw [e] at this; cases this
    have hreach : ∀ d2 : GateId → Bool, (∀ y, d2 y = true → done' y = true ∨ Reach c x y) →
        ∀ y, d2 y = true → done y = true ∨ (Reach c g y ∧ leadOf c y < leadOf c g) := by
      intro d2 hd2 y hy
      rcases hd2 y hy with hy | hy
      · exact h.reach y hy
      · have := reach_lead hwf B.topo hy
        exact Or.inr ⟨(Reach.operand .refl hgate hx).trans hy, by omega⟩
    refine (heg done' st x m h.inv hd (by omega) (B.operand g gate x hgood hgate hx)).mono ?_ ?_
    · rintro m2 ⟨d2, k1, k2, k3⟩
      have := h.hi
      exact Amid.lost hwf hgate hni hgroup hg (fun y hy => k1 y (h.mono y hy)) (hreach d2 k2) (k := k) (by omega) hk
    · rintro st2 m2 ⟨d2, h2⟩
      refine ⟨d2, ⟨h2.inv, fun y hy => h2.mono y (h.mono y hy), hreach d2 h2.reach, ?_, ?_⟩, h2.mono⟩
      · have := h.hi; have := h2.hi; omega
      · have := h.lo; have := h2.lo; omega

theorem Amid.collect {eg done g n k gate} (heg : EvT c pre lo hi good eg) (hgood : good g)
    (hgate : c.gateMap g = some gate) (hni : ∀ i, gate ≠ .input i)
    (hgroup : ∀ y z, done y = true → leadOf c y = leadOf c z → z < c.gateIndex → done z = true) (hg : done g = false)
    (hk : k ≤ hi (leadOf c g)) : ∀ (ids : List GateId) {done' st m}, Amid c pre lo hi done g n k done' st m →
    (∀ x ∈ ids, x ∈ gate.operands) →
    Tri (Ticks.collectBits eg ids st) m (Lost c hi done g n) fun p m2 => ∃ done2,
      Amid c pre lo hi done g n k done2 p.2 m2 ∧ (∀ y, done' y = true → done2 y = true) ∧
      ∀ x ∈ ids, done2 x = true ∨ pre x = true := by
  have hlost : ∀ {done' st m}, Amid c pre lo hi done g n k done' st m → Lost c hi done g n m := fun h =>
    Amid.lost B.wf hgate hni hgroup hg h.mono h.reach h.hi hk
  intro ids
  induction ids with
  | nil => intro done' st m h _; exact Tri.pure ⟨done', h, fun _ h => h, by simp⟩
  | cons x xs ih =>
    intro done' st m h hsub
    unfold Ticks.collectBits
    refine Tri.bind ((Amid.ensure B heg hgood hgate hni hgroup hg hk h (hsub x (by simp))).mono (fun _ h => h) ?_)
    rintro st2 m2 ⟨d2, h2, e2⟩
    refine Tri.bindLift (hlost h2) fun b hb => ?_
    refine Tri.bind ((ih h2 fun y hy => hsub y (List.mem_cons_of_mem _ hy)).mono (fun _ h => h) ?_)
    rintro ⟨bs, st3⟩ m3 ⟨d3, h3, e3, f3⟩
    refine Tri.pure ⟨d3, h3, fun y hy => e3 y (e2 y hy), ?_⟩
    intro y hy
    rcases List.mem_cons.mp hy with e | hy
    · subst e
      have : (st2.evaled y).isSome := by
        unfold EvSt.bit at hb
        cases e : st2.evaled y with
        | none => rw [e] at hb; cases hb
        | some _ => rfl
      exact (h2.inv.fresh y this).imp_left (e3 y)
    · exact f3 y hy

omit B in
theorem fresh_bit {done st} (h : G c pre done [] st) {x : GateId} {b : Bool} (hb : st.bit x = .ok b) :
    done x = true ∨ pre x = true := by
  refine h.fresh x ?_
  unfold EvSt.bit at hb
  cases e : st.evaled x with
  | none => rw [e] at hb; cases hb
  | some _ => rfl

/-- the computation of `g` ends -/
theorem Amid.finish {done g n k done' st m gate s1 s2 m2} (hgate : c.gateMap g = some gate) (hni : ∀ i, gate ≠ .input i)
    (hgroup : ∀ y z, done y = true → leadOf c y = leadOf c z → z < c.gateIndex → done z = true) (hg : done g = false)
    (h : Amid c pre lo hi done g n k done' st m) (hids : ∀ x ∈ gate.operands, done' x = true ∨ pre x = true)
    (h1 : CC.releaseAll gate.operands st = .ok s1)
    (h2 : ∀ x, if x < c.gateIndex ∧ leadOf c x = leadOf c g then (s2.evaled x).isSome ∧ s2.numDep x = some (deg c x)
      else s2.evaled x = s1.evaled x ∧ s2.numDep x = s1.numDep x)
    (hhi : m2 + k ≤ m + hi (leadOf c g)) (hlo : m + lo (leadOf c g) ≤ m2 + k) :
    ∃ done2, Won c pre lo hi done g n done2 s2 m2 := by
  have hwf := B.wf
  have hlt := hwf.lt_of_some hgate
  have hnew := Amid.new hgroup hg hlt h.reach
  obtain ⟨gl, l1, l2, l3, l4, l5⟩ := lead_gate hwf hgate
  have hll := hwf.lt_of_some l1
  have c1 := charged_markL hi hll l3 (hnew _ l3)
  have c2 := charged_markL lo hll l3 (hnew _ l3)
  rw [l5 hni] at c1 c2
  have b1 := h.hi
  have b2 := h.lo
  refine ⟨markL c done' (leadOf c g), h.inv.finish hwf hgate (fun y _ hy => hnew y hy) hids h1 h2,
    fun y hy => markL_iff.mpr (Or.inl (h.mono y hy)), ?_, by omega, by omega⟩
  intro y hy
  rcases markL_iff.mp hy with hy | hy
  · exact (h.reach y hy).imp_right And.left
  · exact Or.inr (reach_group hwf hlt hy.1 hy.2)

omit B in
theorem record_plain {g : GateId} {gate : Gate} (hwf : WFc c) (hgate : c.gateMap g = some gate)
    (hnm : ∀ a b ids o m, gate ≠ .module a b ids o m) (s : EvSt) (b : Bool) :
    ∀ x, if x < c.gateIndex ∧ leadOf c x = leadOf c g then
        ((s.record c g b).evaled x).isSome ∧ (s.record c g b).numDep x = some (deg c x)
      else (s.record c g b).evaled x = s.evaled x ∧ (s.record c g b).numDep x = s.numDep x := by
  intro x
  have hL : leadOf c g = g := by
    simp only [leadOf, hgate]
    cases gate <;> first | rfl | exact absurd rfl (hnm _ _ _ _ _)
  by_cases e : x = g
  · subst e
    rw [if_pos ⟨hwf.lt_of_some hgate, rfl⟩]
    simp [EvSt.record, deg]
  · rw [if_neg ?_]
    · simp [EvSt.record, Map.insert_apply, e]
    · rintro ⟨hx, hl⟩
      rw [hL] at hl
      have : leadOf c x ≠ x := by omega
      obtain ⟨gx, hgx⟩ := hwf.some_of_lt hx
      cases gx with
      | module nIn nOut ids oi mid =>
        obtain ⟨_, _, h3⟩ := hwf.group x nIn nOut ids oi mid hgx
        have h0 := h3 0 (by omega)
        have e2 : leadOf c x = x - oi := by simp [leadOf, hgx, lead]
        rw [Nat.add_zero, ← e2, hl, hgate] at h0
        cases h0
        exact absurd rfl (hnm _ _ _ _ _)
      | _ => exact absurd (by simp [leadOf, hgx, lead]) this

theorem Amid.binary {eg done g n st gate l r'} (heg : EvT c pre lo hi good eg) (hgood : good g)
    (hgate : c.gateMap g = some gate) (hni : ∀ i, gate ≠ .input i)
    (hnm : ∀ a b ids o m, gate ≠ .module a b ids o m) (hops : gate.operands = [l, r']) (hj : G c pre done [] st)
    (hg : done g = false) (op : Bool → Bool → Bool) :
    Tri (Ticks.evalBinary c eg op g l r' st) (n + κ r g) (Lost c hi done g n)
      fun st' m => ∃ done', Won c pre lo hi done g n done' st' m := by
  have hL : leadOf c g = g := by
    simp only [leadOf, hgate]
    cases gate <;> first | rfl | exact absurd rfl (hnm _ _ _ _ _)
  obtain ⟨p1, p2⟩ := B.plain g gate hgood hgate hnm
  have hk : κ r g ≤ hi (leadOf c g) := by rw [hL]; exact p2
  have hlost : ∀ {done' st m}, Amid c pre lo hi done g n (κ r g) done' st m → Lost c hi done g n m := fun h =>
    Amid.lost B.wf hgate hni hj.group hg h.mono h.reach h.hi hk
  unfold Ticks.evalBinary
  refine Tri.bind ((Amid.ensure B heg hgood hgate hni hj.group hg hk (Amid.start hj g n (κ r g)) (x := l)
    (by simp [hops])).mono (fun _ h => h) ?_)
  rintro st1 m1 ⟨d1, h1, _⟩
  refine Tri.bind ((Amid.ensure B heg hgood hgate hni hj.group hg hk h1 (x := r') (by simp [hops])).mono (fun _ h => h) ?_)
  rintro st2 m2 ⟨d2, h2, _⟩
  refine Tri.bindLift (hlost h2) fun bl hbl => Tri.bindLift (hlost h2) fun br hbr => Tri.bindLift (hlost h2) fun s3 hs3 =>
    Tri.bindLift (hlost h2) fun s4 hs4 => Tri.pure ?_
  refine Amid.finish B hgate hni hj.group hg h2 ?_ (s1 := s4) ?_ (record_plain B.wf hgate hnm s4 _) (by rw [hL]; omega) (by rw [hL]; omega)
  · intro x hx
    rw [hops] at hx
    rcases List.mem_cons.mp hx with e | hx
    · subst e; exact fresh_bit h2.inv hbl
    · obtain rfl : x = r' := by simpa using hx
      exact fresh_bit h2.inv hbr
  · rw [hops]
    unfold CC.releaseAll
    rw [bind_of_ok hs3]
    unfold CC.releaseAll
    rw [bind_of_ok hs4]
    rfl

theorem evalGate_time : ∀ fuel, EvT c pre lo hi good (Ticks.evalGate κ w fuel r) := by
  have hwf := B.wf
  intro fuel
  induction fuel with
  | zero =>
    intro done st g n _ _ _ _
    exact Tri.throw ⟨done, fun _ h => h, fun _ h => Or.inl h, Nat.le_refl _⟩
  | succ fuel heg =>
    intro done st g n hj hg hlt hgood
    obtain ⟨gate, hgate⟩ := hwf.some_of_lt hlt
    have hlost0 : Lost c hi done g n n := ⟨done, fun _ h => h, fun _ h => Or.inl h, Nat.le_refl _⟩
    unfold Ticks.evalGate
    refine Tri.bindLift hlost0 fun c' hc' => ?_
    rw [circuit_of B.circ] at hc'
    cases hc'
    rw [hgate]
    cases gate with
    | input k =>
      exact Tri.pure ⟨done, hj, fun _ h => h, fun _ h => Or.inl h, Nat.le_refl _, Nat.le_refl _⟩
    | const v =>
      refine Tri.tick (Tri.pure ?_)
      obtain ⟨p1, p2⟩ := B.plain g _ hgood hgate (by intros; simp)
      have hL : leadOf c g = g := by simp [leadOf, hgate, lead]
      exact Amid.finish B hgate (by intros; simp) hj.group hg (Amid.start hj g n (κ r g)) (by simp [Gate.operands])
        (s1 := st) rfl (record_plain hwf hgate (by intros; simp) st v) (by rw [hL]; omega) (by rw [hL]; omega)
    | not x =>
      obtain ⟨p1, p2⟩ := B.plain g _ hgood hgate (by intros; simp)
      have hL : leadOf c g = g := by simp [leadOf, hgate, lead]
      have hk : κ r g ≤ hi (leadOf c g) := by rw [hL]; exact p2
      have hlost : ∀ {done' st m}, Amid c pre lo hi done g n (κ r g) done' st m → Lost c hi done g n m := fun h =>
        Amid.lost hwf hgate (by intros; simp) hj.group hg h.mono h.reach h.hi hk
      refine Tri.tick (Tri.bind ((Amid.ensure B heg hgood hgate (by intros; simp) hj.group hg hk
        (Amid.start hj g n (κ r g)) (x := x) (by simp [Gate.operands])).mono (fun _ h => h) ?_))
      rintro st2 m2 ⟨d2, h2, _⟩
      refine Tri.bindLift (hlost h2) fun b hb => Tri.bindLift (hlost h2) fun s3 hs3 => Tri.pure ?_
      refine Amid.finish B hgate (by intros; simp) hj.group hg h2 ?_ (s1 := s3) ?_
        (record_plain hwf hgate (by intros; simp) s3 _) (by rw [hL]; omega) (by rw [hL]; omega)
      · intro y hy
        obtain rfl : y = x := by simpa [Gate.operands] using hy
        exact fresh_bit h2.inv hb
      · show CC.releaseAll [x] st2 = _
        unfold CC.releaseAll
        rw [bind_of_ok hs3]
        rfl
    | xor l r' => exact Tri.tick (Amid.binary B heg hgood hgate (by intros; simp) (by intros; simp) rfl hj hg _)
    | and l r' => exact Tri.tick (Amid.binary B heg hgood hgate (by intros; simp) (by intros; simp) rfl hj hg _)
    | or l r' => exact Tri.tick (Amid.binary B heg hgood hgate (by intros; simp) (by intros; simp) rfl hj hg _)
    | module nIn nOut ids oi mid =>
      have hL : leadOf c g = g - oi := by simp [leadOf, hgate, lead]
      have hk : κ r (g - oi) ≤ hi (leadOf c g) := by rw [hL]; exact B.call g nIn nOut ids oi mid hgood hgate
      have hlost : ∀ {done' st m}, Amid c pre lo hi done g n (κ r (g - oi)) done' st m → Lost c hi done g n m := fun h =>
        Amid.lost hwf hgate (by intros; simp) hj.group hg h.mono h.reach h.hi hk
      refine Tri.tick (Tri.bind ((Amid.collect B heg hgood hgate (by intros; simp) hj.group hg hk ids
        (Amid.start hj g n (κ r (g - oi))) (fun x hx => hx)).mono (fun _ h => h) ?_))
      rintro ⟨bits, st2⟩ m2 ⟨d2, h2, _, f2⟩
      simp only
      cases hm : w.module? c mid with
      | none => exact Tri.throw (hlost h2)
      | some mr =>
        refine Tri.bindLift (hlost h2) fun mc hmc => ?_
        have hmc' := circuit_ok hmc
        refine Tri.bind ((B.callee g nIn nOut ids oi mid mr mc fuel bits m2 hgood hgate hm hmc').mono ?_ ?_)
        · intro m3 h3
          have := h2.hi
          exact Amid.lost hwf hgate (by intros; simp) hj.group hg h2.mono h2.reach (k := hi (g - oi)) (by omega)
            (by rw [hL]; exact Nat.le_refl _)
        · rintro outs m3 ⟨h3, h4⟩
          have hlost3 : Lost c hi done g n m3 := by
            have := h2.hi
            exact Amid.lost hwf hgate (by intros; simp) hj.group hg h2.mono h2.reach (k := hi (g - oi)) (by omega)
              (by rw [hL]; exact Nat.le_refl _)
          refine Tri.bindLift hlost3 fun s3 hs3 => ?_
          split
          · exact Tri.throw hlost3
          · refine Tri.lift hlost3 fun s4 hs4 => ?_
            refine Amid.finish B hgate (by intros; simp) hj.group hg h2 f2 hs3 ?_ (by rw [hL]; exact h3) (by rw [hL]; exact h4)
            intro x
            have := recordOutputs_inv c (g - oi) outs nOut 0 s3 s4 hs4 x
            obtain ⟨g1, g2, g3⟩ := hwf.group g nIn nOut ids oi mid hgate
            have iff : (x < c.gateIndex ∧ leadOf c x = leadOf c g) ↔ (g - oi + 0 ≤ x ∧ x < g - oi + 0 + nOut) := by
              constructor
              · rintro ⟨hx, hxl⟩
                rw [hL] at hxl
                obtain ⟨gx, hgx⟩ := hwf.some_of_lt hx
                have g0 := g3 0 (by omega)
                rw [Nat.add_zero] at g0
                cases gx with
                | module nIn' nOut' ids' oi' mid' =>
                  obtain ⟨e1, e2, e3⟩ := hwf.group x nIn' nOut' ids' oi' mid' hgx
                  have e0 := e3 0 (by omega)
                  have hL' : leadOf c x = x - oi' := by simp [leadOf, hgx, lead]
                  rw [Nat.add_zero, ← hL', hxl, g0] at e0
                  cases e0
                  omega
                | _ =>
                  have hL' : leadOf c x = x := by simp [leadOf, hgx, lead]
                  omega
              · rintro ⟨hx1, hx2⟩
                have := g3 (x - (g - oi)) (by omega)
                have e : g - oi + (x - (g - oi)) = x := by omega
                rw [e] at this
                refine ⟨hwf.lt_of_some this, ?_⟩
                rw [hL]
                simp only [leadOf, this, lead]
                omega
            by_cases hx : x < c.gateIndex ∧ leadOf c x = leadOf c g
            · rw [if_pos hx]; rw [if_pos (iff.mp hx)] at this; exact this
            · rw [if_neg hx]; rw [if_neg fun h => hx (iff.mpr h)] at this; exact this

end

end CC
