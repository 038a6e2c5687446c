import Verif.Proofs.EvalComplete
import Verif.Spec.Drain

/-!
# Evaluator: it fails when an output is lost and cannot be computed again (C11)

`E g` counts how often `g` has been recorded. A gate recorded once can be read as often as it has readers.
-/

namespace CC
open Spec

/-- reads of `x` so far, when gate `g` has been computed `E g` times -/
def reads (c : Circuit) (E : GateId → Nat) (x : GateId) : Nat := sumTo c.gateIndex fun g => E g * wt c g x

/-- `rel`: reads of the gate in progress; `P`: the callees that have been evaluated -/
structure K (c : Circuit) (P : ModuleId → Prop) (E : GateId → Nat) (rel : List GateId) (st : EvSt) : Prop where
  bound : ∀ x, reads c E x + rel.count x + (st.numDep x).getD 0 ≤ E x * deg c x
  counted : ∀ x, (st.evaled x).isSome → deg c x = 0 ∨ ∃ n, st.numDep x = some (n + 1)
  seen : ∀ x, (st.evaled x).isSome → 0 < E x
  input : ∀ g k, c.gateMap g = some (.input k) → E g = 1
  closed : ∀ g gate x, 0 < E g → c.gateMap g = some gate → x ∈ gate.operands → 0 < E x
  group : ∀ g nIn nOut ids oi mid k, c.gateMap g = some (.module nIn nOut ids oi mid) → k < nOut → E (g - oi + k) = E g
  called : ∀ g nIn nOut ids oi mid, 0 < E g → c.gateMap g = some (.module nIn nOut ids oi mid) → P mid

theorem K.bit {c P E rel st} (h : K c P E rel st) {x : GateId} {b : Bool} (hb : st.bit x = .ok b) : 0 < E x := by
  apply h.seen
  unfold EvSt.bit at hb
  cases e : st.evaled x with
  | none => rw [e] at hb; cases hb
  | some v => rfl

theorem K.release {c P E rel st st'} (h : K c P E rel st) {x : GateId} (hr : st.release x = .ok st') :
    K c P E (rel ++ [x]) st' := by
  have hcount : (rel ++ [x]).count x = rel.count x + 1 := by simp
  have hcount' : ∀ y, y ≠ x → (rel ++ [x]).count y = rel.count y := by
    intro y hy; simp [List.count_cons]; exact fun e => hy e.symm
  have hb := h.bound x
  unfold EvSt.release at hr
  cases e : st.numDep x with
  | none => rw [e] at hr; cases hr
  | some m =>
    rw [e] at hr hb
    cases m with
    | zero => cases hr
    | succ n =>
      simp only [Option.getD_some] at hr hb
      split at hr
      · next hz =>
        cases hr
        refine ⟨fun y => ?_, fun y hy => ?_, fun y hy => ?_, h.input, h.closed, h.group, h.called⟩
        · by_cases ey : y = x
          · subst ey
            simp only [Map.remove_apply, if_pos, hcount, Option.getD_none]; omega
          · rw [hcount' y ey]
            simp only [Map.remove_apply, Map.insert_apply, if_neg ey]
            exact h.bound y
        · by_cases ey : y = x
          · subst ey; simp at hy
          · simp only [Map.remove_apply, Map.insert_apply, if_neg ey] at hy ⊢
            exact h.counted y hy
        · by_cases ey : y = x
          · subst ey; simp at hy
          · simp only [Map.remove_apply, if_neg ey] at hy
            exact h.seen y hy
      · next hz =>
        cases hr
        refine ⟨fun y => ?_, fun y hy => ?_, h.seen, h.input, h.closed, h.group, h.called⟩
        · by_cases ey : y = x
          · subst ey
            simp only [Map.insert_apply, if_pos, hcount, Option.getD_some]; omega
          · rw [hcount' y ey]
            simp only [Map.insert_apply, if_neg ey]
            exact h.bound y
        · by_cases ey : y = x
          · subst ey
            right
            exact ⟨n - 1, by simp only [Map.insert_apply, if_pos]; congr 1; omega⟩
          · simp only [Map.insert_apply, if_neg ey]
            exact h.counted y hy

theorem K.releaseAll {c P E} (ids : List GateId) : ∀ {rel st st'}, K c P E rel st → CC.releaseAll ids st = .ok st' →
    K c P E (rel ++ ids) st' := by
  induction ids with
  | nil => intro rel st st' h hr; cases hr; simpa using h
  | cons x xs ih =>
    intro rel st st' h hr
    obtain ⟨s1, h1, h2⟩ := ok_bind hr
    have := ih (h.release h1) h2
    simpa using this

theorem recordOutputs_inv (c : Circuit) (first : GateId) (outs : List Bool) (k : Nat) : ∀ (i : Nat) (st st' : EvSt),
    recordOutputs c first outs i k st = .ok st' →
      ∀ x, if first + i ≤ x ∧ x < first + i + k then (st'.evaled x).isSome ∧ st'.numDep x = some (deg c x)
        else st'.evaled x = st.evaled x ∧ st'.numDep x = st.numDep x := by
  induction k with
  | zero => intro i st st' h x; cases h; rw [if_neg (by omega)]; exact ⟨rfl, rfl⟩
  | succ k ih =>
    intro i st st' h x
    unfold recordOutputs at h
    cases e : outs[i]? with
    | none => rw [e] at h; cases h
    | some b =>
      rw [e] at h
      have := ih (i + 1) _ _ h x
      by_cases hx : first + (i + 1) ≤ x ∧ x < first + (i + 1) + k
      · rw [if_pos hx] at this
        rw [if_pos (by omega)]
        exact this
      · rw [if_neg hx] at this
        by_cases hx' : x = first + i
        · subst hx'
          rw [if_pos (by omega), this.1, this.2]
          simp [EvSt.record, deg]
        · rw [if_neg (by omega), this.1, this.2]
          simp [EvSt.record, Map.insert_apply, hx']

/-- the group `[L, L+k)` recorded once more -/
def again (E : GateId → Nat) (L k : Nat) (g : GateId) : Nat := if L ≤ g ∧ g < L + k then E g + 1 else E g

theorem le_again (E : GateId → Nat) (L k : Nat) (g : GateId) : E g ≤ again E L k g := by
  unfold again; split <;> omega

theorem K.finish {c P E st st'} {L k : Nat} {ids : List GateId} {outs : List Bool} (h : K c P E ids st)
    (hk : 0 < k) (hL : L + k ≤ c.gateIndex) (hids : ∀ x ∈ ids, 0 < E x)
    (hin : ∀ y j, L ≤ y → y < L + k → c.gateMap y ≠ some (.input j))
    (hops : ∀ y gate, L ≤ y → y < L + k → c.gateMap y = some gate → gate.operands = ids)
    (hgrp : ∀ y nIn nOut is oi mid, c.gateMap y = some (.module nIn nOut is oi mid) → ∀ i < nOut,
      (L ≤ y ∧ y < L + k ↔ L ≤ y - oi + i ∧ y - oi + i < L + k))
    (hP : ∀ y nIn nOut is oi mid, L ≤ y → y < L + k → c.gateMap y = some (.module nIn nOut is oi mid) → P mid)
    (hwt : ∀ x, wt c L x = ids.count x) (hwt0 : ∀ y x, L < y → y < L + k → wt c y x = 0)
    (hr : recordOutputs c L outs 0 k st = .ok st') :
    K c P (again E L k) [] st' := by
  have hreads : ∀ x, reads c (again E L k) x = reads c E x + ids.count x := by
    intro x
    unfold reads
    symm
    refine sumTo_add_at (k := L) (by omega) ?_ ?_
    · rw [hwt, again, if_pos (by omega), Nat.add_mul]; omega
    · intro i hi hne
      unfold again
      split
      · rw [hwt0 i x (by omega) (by omega)]; simp
      · rfl
  have hrec := recordOutputs_inv c L outs k 0 st st' hr
  simp only [Nat.add_zero] at hrec
  refine ⟨fun x => ?_, fun x hx => ?_, fun x hx => ?_, ?_, ?_, ?_, ?_⟩
  · have := hrec x
    have hb := h.bound x
    rw [hreads]
    simp only [List.count_nil, Nat.add_zero]
    unfold again
    split at this
    · next hm =>
      rw [if_pos hm, this.2, Nat.add_mul]
      simp only [Option.getD_some]; omega
    · next hm =>
      rw [if_neg hm, this.2]; exact hb
  · have := hrec x
    split at this
    · rw [this.2]
      by_cases hz : deg c x = 0
      · exact Or.inl hz
      · exact Or.inr ⟨deg c x - 1, by congr 1; omega⟩
    · rw [this.1] at hx; rw [this.2]; exact h.counted x hx
  · have := hrec x
    unfold again
    split at this
    · next hm => rw [if_pos hm]; omega
    · next hm => rw [if_neg hm]; rw [this.1] at hx; exact h.seen x hx
  · intro g j hg
    unfold again
    rw [if_neg fun hm => hin g j hm.1 hm.2 hg]
    exact h.input g j hg
  · intro g gate x hg hgate hx
    refine Nat.lt_of_lt_of_le ?_ (le_again E L k x)
    unfold again at hg
    split at hg
    · next hm =>
      rw [hops g gate hm.1 hm.2 hgate] at hx
      exact hids x hx
    · exact h.closed g gate x hg hgate hx
  · intro g nIn nOut is oi mid i hg hi
    have h1 := hgrp g nIn nOut is oi mid hg i hi
    have h2 := h.group g nIn nOut is oi mid i hg hi
    unfold again
    rw [h2]
    by_cases hm : L ≤ g ∧ g < L + k
    · rw [if_pos hm, if_pos (h1.mp hm)]
    · rw [if_neg hm, if_neg fun h => hm (h1.mpr h)]
  · intro g nIn nOut is oi mid hg hgate
    by_cases hm : L ≤ g ∧ g < L + k
    · exact hP g nIn nOut is oi mid hm.1 hm.2 hgate
    · unfold again at hg; rw [if_neg hm] at hg
      exact h.called g nIn nOut is oi mid hg hgate

/-- a successful step keeps the invariant and counts the gate -/
def EvK (c : Circuit) (P : ModuleId → Prop) (eg : GateId → EvSt → Except Err EvSt) : Prop :=
  ∀ E st g st', K c P E [] st → eg g st = .ok st' → ∃ E', K c P E' [] st' ∧ (∀ y, E y ≤ E' y) ∧
    (E g < E' g ∨ st' = st ∧ ∃ k, c.gateMap g = some (.input k))

theorem K.ensure {c P E st st' eg} (heg : EvK c P eg) (h : K c P E [] st) {x : GateId}
    (hx : CC.ensure eg x st = .ok st') : ∃ E', K c P E' [] st' ∧ ∀ y, E y ≤ E' y := by
  unfold CC.ensure at hx
  cases e : st.evaled x with
  | some b => rw [e] at hx; cases hx; exact ⟨E, h, fun _ => Nat.le_refl _⟩
  | none =>
    rw [e] at hx
    obtain ⟨E', h1, h2, _⟩ := heg E st x st' h hx
    exact ⟨E', h1, h2⟩

theorem K.collect {c P eg} (heg : EvK c P eg) (ids : List GateId) : ∀ {E st st' bits}, K c P E [] st →
    collectBits eg ids st = .ok (bits, st') →
    ∃ E', K c P E' [] st' ∧ (∀ y, E y ≤ E' y) ∧ ∀ x ∈ ids, 0 < E' x := by
  induction ids with
  | nil => intro E st st' bits h hc; cases hc; exact ⟨E, h, fun _ => Nat.le_refl _, by simp⟩
  | cons x xs ih =>
    intro E st st' bits h hc
    unfold collectBits at hc
    obtain ⟨s1, h1, hc⟩ := ok_bind hc
    obtain ⟨b, hb, hc⟩ := ok_bind hc
    obtain ⟨⟨bs, s2⟩, h2, hc⟩ := ok_bind hc
    cases hc
    obtain ⟨E1, k1, l1⟩ := h.ensure heg h1
    obtain ⟨E2, k2, l2, l3⟩ := ih k1 h2
    refine ⟨E2, k2, fun y => Nat.le_trans (l1 y) (l2 y), ?_⟩
    intro y hy
    rcases List.mem_cons.mp hy with e | hy
    · subst e; exact Nat.lt_of_lt_of_le (k1.bit hb) (l2 y)
    · exact l3 y hy

/-- a gate that is not a module call -/
theorem K.finish1 {c P E st s1 g gate} (hwf : WFc c) (h : K c P E [] st) (hgate : c.gateMap g = some gate)
    (hnm : ∀ nIn nOut ids oi mid, gate ≠ .module nIn nOut ids oi mid) (hni : ∀ k, gate ≠ .input k)
    (hops : ∀ x ∈ gate.operands, 0 < E x) (hr : CC.releaseAll gate.operands st = .ok s1) (b : Bool) :
    ∃ E', K c P E' [] (s1.record c g b) ∧ (∀ y, E y ≤ E' y) ∧ E g < E' g := by
  have hlt := hwf.lt_of_some hgate
  have h1 := h.releaseAll _ hr
  simp only [List.nil_append] at h1
  refine ⟨again E g 1, h1.finish (L := g) (k := 1) (outs := [b]) (by omega) (by omega) hops ?_ ?_ ?_ ?_ ?_ ?_ rfl,
    le_again E g 1, ?_⟩
  · intro y j h1 h2 h3; obtain rfl : y = g := by omega
    rw [hgate] at h3; cases h3; exact hni _ rfl
  · intro y gt h1 h2 h3; obtain rfl : y = g := by omega
    rw [hgate] at h3; cases h3; rfl
  · intro y nIn nOut is oi mid hy i hi
    obtain ⟨g1, g2, g3⟩ := hwf.group y nIn nOut is oi mid hy
    constructor
    · intro hm; obtain rfl : y = g := by omega
      rw [hgate] at hy; cases hy; exact absurd rfl (hnm _ _ _ _ _)
    · intro hm
      have h3 := g3 i hi
      have e : y - oi + i = g := by omega
      rw [e, hgate] at h3; cases h3; exact absurd rfl (hnm _ _ _ _ _)
  · intro y nIn nOut is oi mid h1 h2 h3; obtain rfl : y = g := by omega
    rw [hgate] at h3; cases h3; exact absurd rfl (hnm _ _ _ _ _)
  · intro x; unfold wt; rw [hgate]
    cases gate <;> first | rfl | exact absurd rfl (hnm _ _ _ _ _)
  · intro y x h1 h2; omega
  · unfold again; rw [if_pos (by omega)]; omega

theorem K.binary {c P E st st' g gate eg l r} (hwf : WFc c) (heg : EvK c P eg) (h : K c P E [] st)
    (hgate : c.gateMap g = some gate) (hops : gate.operands = [l, r])
    (hnm : ∀ nIn nOut ids oi mid, gate ≠ .module nIn nOut ids oi mid) (hni : ∀ k, gate ≠ .input k)
    {op : Bool → Bool → Bool} (he : evalBinary c eg op g l r st = .ok st') :
    ∃ E', K c P E' [] st' ∧ (∀ y, E y ≤ E' y) ∧ E g < E' g := by
  unfold evalBinary at he
  obtain ⟨s1, h1, he⟩ := ok_bind he
  obtain ⟨s2, h2, he⟩ := ok_bind he
  obtain ⟨bl, h3, he⟩ := ok_bind he
  obtain ⟨br, h4, he⟩ := ok_bind he
  obtain ⟨s5, h5, he⟩ := ok_bind he
  obtain ⟨s6, h6, he⟩ := ok_bind he
  cases he
  obtain ⟨E1, k1, l1⟩ := h.ensure heg h1
  obtain ⟨E2, k2, l2⟩ := k1.ensure heg h2
  obtain ⟨E3, k3, l3, l4⟩ := k2.finish1 (s1 := s6) hwf hgate hnm hni (by
    intro x hx
    rw [hops] at hx
    rcases List.mem_cons.mp hx with e | hx
    · subst e; exact k2.bit h3
    · obtain rfl : x = r := by simpa using hx
      exact k2.bit h4) (by
    rw [hops]; unfold CC.releaseAll; rw [bind_of_ok h5]; unfold CC.releaseAll; rw [bind_of_ok h6]; rfl) (op bl br)
  exact ⟨E3, k3, fun y => Nat.le_trans (l1 y) (Nat.le_trans (l2 y) (l3 y)),
    Nat.lt_of_le_of_lt (Nat.le_trans (l1 g) (l2 g)) l4⟩

/-- the circuit registered as `mid` has been evaluated on some input -/
def Ran (w : World) (c : Circuit) (mid : ModuleId) : Prop :=
  ∃ mr fuel bits outs, w.module? c mid = some mr ∧ evalOutput w fuel mr bits = .ok outs

theorem evalGate_K {w : World} {r : Ref} {c : Circuit} (hwf : WFc c) (hc : w.circs[r]? = some c) :
    ∀ fuel, EvK c (Ran w c) (evalGate w fuel r) := by
  intro fuel
  induction fuel with
  | zero => intro E st g st' _ he; cases he
  | succ fuel heg =>
    intro E st g st' h he
    unfold evalGate at he
    rw [bind_of_ok (circuit_of hc)] at he
    cases hgate : c.gateMap g with
    | none => rw [hgate] at he; cases he
    | some gate =>
      rw [hgate] at he
      have wrap : (∃ E', K c (Ran w c) E' [] st' ∧ (∀ y, E y ≤ E' y) ∧ E g < E' g) →
          ∃ E', K c (Ran w c) E' [] st' ∧ (∀ y, E y ≤ E' y) ∧
            (E g < E' g ∨ st' = st ∧ ∃ k, some gate = some (.input k)) :=
        fun ⟨E', h1, h2, h3⟩ => ⟨E', h1, h2, Or.inl h3⟩
      cases gate with
      | input k => cases he; exact ⟨E, h, fun _ => Nat.le_refl _, Or.inr ⟨rfl, k, rfl⟩⟩
      | const v =>
        cases he
        exact wrap (h.finish1 hwf hgate (by intros; simp) (by intros; simp) (by simp [Gate.operands]) rfl v)
      | not x =>
        simp only at he
        obtain ⟨s1, h1, he⟩ := ok_bind he
        obtain ⟨b, h2, he⟩ := ok_bind he
        obtain ⟨s2, h3, he⟩ := ok_bind he
        cases he
        obtain ⟨E1, k1, l1⟩ := h.ensure heg h1
        obtain ⟨E2, k2, l2, l3⟩ := k1.finish1 (s1 := s2) hwf hgate (by intros; simp) (by intros; simp)
          (by intro y hy; obtain rfl : y = x := by simpa [Gate.operands] using hy
              exact k1.bit h2)
          (by simp only [Gate.operands]; unfold CC.releaseAll; rw [bind_of_ok h3]; rfl) (!b)
        exact wrap ⟨E2, k2, fun y => Nat.le_trans (l1 y) (l2 y), Nat.lt_of_le_of_lt (l1 g) l3⟩
      | xor l r' => exact wrap (K.binary hwf heg h hgate rfl (by intros; simp) (by intros; simp) he)
      | and l r' => exact wrap (K.binary hwf heg h hgate rfl (by intros; simp) (by intros; simp) he)
      | or l r' => exact wrap (K.binary hwf heg h hgate rfl (by intros; simp) (by intros; simp) he)
      | module nIn nOut ids oi mid =>
        simp only at he
        obtain ⟨⟨bits, s1⟩, h1, he⟩ := ok_bind he
        cases hm : w.module? c mid with
        | none => simp only [hm] at he; cases he
        | some mr =>
          simp only [hm] at he
          obtain ⟨mc, h2, he⟩ := ok_bind he
          obtain ⟨outs, h3, he⟩ := ok_bind he
          obtain ⟨s2, h4, he⟩ := ok_bind he
          split at he
          · cases he
          obtain ⟨E1, k1, l1, l2⟩ := h.collect heg ids h1
          have k2 := k1.releaseAll ids h4
          simp only [List.nil_append] at k2
          obtain ⟨g1, g2, g3⟩ := hwf.group g nIn nOut ids oi mid hgate
          have hmem : ∀ y, g - oi ≤ y → y < g - oi + nOut →
              c.gateMap y = some (.module nIn nOut ids (y - (g - oi)) mid) := by
            intro y hy1 hy2
            have := g3 (y - (g - oi)) (by omega)
            have e : g - oi + (y - (g - oi)) = y := by omega
            rw [e] at this; exact this
          have hlast := hwf.lt_of_some (hmem (g - oi + nOut - 1) (by omega) (by omega))
          have hran : Ran w c mid := ⟨mr, fuel, bits, outs, hm, by unfold evalOutput; rw [bind_of_ok h2]; exact h3⟩
          refine wrap ⟨again E1 (g - oi) nOut, k2.finish (L := g - oi) (k := nOut) (by omega) (by omega) l2
            ?_ ?_ ?_ ?_ ?_ ?_ he, fun y => Nat.le_trans (l1 y) (le_again _ _ _ y), ?_⟩
          · intro y j hy1 hy2 hy; rw [hmem y hy1 hy2] at hy; cases hy
          · intro y gt hy1 hy2 hy; rw [hmem y hy1 hy2] at hy; cases hy; rfl
          · intro y nIn' nOut' is oi' mid' hy i hi
            obtain ⟨f1, f2, f3⟩ := hwf.group y nIn' nOut' is oi' mid' hy
            constructor
            · intro hb
              have := hmem y hb.1 hb.2
              rw [hy] at this; cases this; omega
            · intro hb
              have := hmem (y - oi' + i) hb.1 hb.2
              rw [f3 i hi] at this
              have e1 := congrArg (fun o => match o with | some (Gate.module _ n _ j _) => (n, j) | _ => (0, 0)) this
              simp only [Prod.mk.injEq] at e1
              omega
          · intro y nIn' nOut' is oi' mid' hy1 hy2 hy
            rw [hmem y hy1 hy2] at hy; cases hy; exact hran
          · intro x; have := hmem (g - oi) (by omega) (by omega); simp at this; simp [wt, this, Gate.operands]
          · intro y x hy1 hy2
            have := hmem y (by omega) hy2
            obtain ⟨k, hk⟩ : ∃ k, y - (g - oi) = k + 1 := ⟨y - (g - oi) - 1, by omega⟩
            rw [hk] at this
            simp [wt, this]
          · unfold again; rw [if_pos (by omega)]
            have := l1 g; omega

/-! ### whole circuits -/

theorem K.reach {c P E st p x} (h : K c P E [] st) (hp : 0 < E p) (hr : Reach c p x) : 0 < E x := by
  induction hr with
  | refl => exact hp
  | operand _ hy hx ih => exact h.closed _ _ _ ih hy hx
  | sibling _ hy hk ih => rw [h.group _ _ _ _ _ _ _ hy hk]; exact ih

/-- every reader is counted in full -/
theorem wt_eq_occ {c : Circuit} (hwf : WFc c) {g x : GateId}
    (hs : ∀ nIn nOut ids oi mid, c.gateMap g = some (.module nIn nOut ids oi mid) → x ∈ ids → nOut < 2) :
    wt c g x = c.occ g x := by
  unfold wt Circuit.occ
  cases e : c.gateMap g with
  | none => rfl
  | some gate =>
    cases gate with
    | module nIn nOut ids oi mid =>
      cases oi with
      | zero => rfl
      | succ oi =>
        obtain ⟨g1, g2, g3⟩ := hwf.group g _ _ _ _ _ e
        simp only [Gate.operands]
        refine (List.count_eq_zero.mpr fun hx => ?_).symm
        have := hs nIn nOut ids (oi + 1) mid e hx
        omega
    | _ => rfl

theorem reads_ge {c : Circuit} (hwf : WFc c) {E : GateId → Nat} {x : GateId}
    (hall : ∀ g gate, c.gateMap g = some gate → x ∈ gate.operands → 0 < E g ∧
      ∀ nIn nOut ids oi mid, gate = .module nIn nOut ids oi mid → nOut < 2) : deg c x ≤ reads c E x := by
  rw [deg_eq hwf]
  refine sumTo_le fun g _ => ?_
  have hw : wt c g x = c.occ g x := wt_eq_occ hwf fun nIn nOut ids oi mid hg hx =>
    (hall g _ hg hx).2 _ _ _ _ _ rfl
  rw [hw]
  cases e : c.occ g x with
  | zero => omega
  | succ n =>
    have hpos : 0 < E g := by
      unfold Circuit.occ at e
      cases eg : c.gateMap g with
      | none => rw [eg] at e; cases e
      | some gate =>
        rw [eg] at e
        exact (hall g gate eg (List.count_pos_iff.mp (by simp only at e; omega))).1
    exact Nat.le_mul_of_pos_left _ hpos

/-- an unreadable gate is not stored, or has been computed twice -/
theorem K.lost {c P E st} (hwf : WFc c) (h : K c P E [] st) {i : Nat} {o : GateId} (hn : ¬ Readable c i o)
    (hprev : ∀ j p, j < i → c.outputMap j = some p → 0 < E p) : 2 ≤ E o ∨ st.evaled o = none := by
  unfold Readable at hn
  rw [not_or] at hn
  have hall : ∀ g gate, c.gateMap g = some gate → o ∈ gate.operands → 0 < E g ∧
      ∀ nIn nOut ids oi mid, gate = .module nIn nOut ids oi mid → nOut < 2 := by
    intro g gate hg hx
    have h2 := not_or.mp fun hh => hn.2 ⟨g, gate, hg, hx, hh⟩
    refine ⟨?_, ?_⟩
    · apply Classical.byContradiction
      intro hz
      refine h2.1 fun j p hj hp hr => hz (h.reach (hprev j p hj hp) hr)
    · intro nIn nOut ids oi mid e
      apply Classical.byContradiction
      intro hge
      exact h2.2 ⟨nIn, nOut, ids, oi, mid, e, by omega⟩
  have hge := reads_ge hwf hall
  have hb := h.bound o
  cases e : st.evaled o with
  | none => exact Or.inr rfl
  | some b =>
    left
    have hpos := h.seen o (by simp [e])
    rcases h.counted o (by simp [e]) with hd | ⟨n, hd⟩
    · refine absurd ?_ hn.1
      intro g gate hg hx
      have : 0 < c.occ g o := by simp only [Circuit.occ, hg]; exact List.count_pos_iff.mpr hx
      have := used_add_le hwf (c := c) (done := fun _ => false) (x := o) (hwf.lt_of_some hg) rfl
      omega
    · rw [hd] at hb
      simp only [Option.getD_some, List.count_nil] at hb
      apply Classical.byContradiction
      intro h2
      have : E o = 1 := by omega
      rw [this] at hb; omega

theorem K.seeded {c : Circuit} (hwf : WFc c) {inputs : List Bool} (hlen : inputs.length = c.inputLen) {P} {st : EvSt}
    (hs : seedInputs c 0 inputs EvSt.empty = .ok st) : K c P (fun g => if isInput c g then 1 else 0) [] st := by
  obtain ⟨st', h1, h2, h3⟩ := seedInputs_ok hwf inputs 0 EvSt.empty (by omega)
  rw [h1] at hs; cases hs
  have hreads : ∀ x, reads c (fun g => if isInput c g then 1 else 0) x = 0 := fun x => sumTo_zero fun g _ => by
    by_cases hg : isInput c g = true
    · obtain ⟨k', hk'⟩ := isInput_iff.mp hg
      simp [wt, hk', Gate.operands]
    · simp [hg]
  have hin : ∀ x, isInput c x = true → (st.evaled x).isSome ∧ st.numDep x = some (deg c x) := by
    intro x hx
    obtain ⟨k, hk⟩ := isInput_iff.mp hx
    have hkl := (hwf.input_dom k).mp (by simp [(hwf.input_iff k x).mpr hk])
    exact h2 x k hk (by omega) (by omega)
  have hout : ∀ x, isInput c x = false → st.evaled x = none ∧ st.numDep x = none := by
    intro x hx
    refine h3 x ?_
    intro k hk
    have : isInput c x = true := isInput_iff.mpr ⟨k, hk⟩
    rw [hx] at this; cases this
  refine ⟨fun x => ?_, fun x hx => ?_, fun x hx => ?_, ?_, ?_, ?_, ?_⟩
  · rw [hreads]
    cases e : isInput c x with
    | true => rw [(hin x e).2]; simp
    | false => rw [(hout x e).2]; simp
  · cases e : isInput c x with
    | true =>
      rw [(hin x e).2]
      by_cases hz : deg c x = 0
      · exact Or.inl hz
      · exact Or.inr ⟨deg c x - 1, by congr 1; omega⟩
    | false => rw [(hout x e).1] at hx; cases hx
  · cases e : isInput c x with
    | true => simp
    | false => rw [(hout x e).1] at hx; cases hx
  · intro g k hg; simp [isInput_iff.mpr ⟨k, hg⟩]
  · intro g gate x hg hgate hx
    cases e : isInput c g with
    | true =>
      obtain ⟨k, hk⟩ := isInput_iff.mp e
      rw [hk] at hgate; cases hgate; simp [Gate.operands] at hx
    | false => simp [e] at hg
  · intro g nIn nOut ids oi mid k hg hk
    have h1 : isInput c g = false := by simp [isInput, hg]
    have h2 : isInput c (g - oi + k) = false := by
      have := (hwf.group g _ _ _ _ _ hg).2.2 k hk
      simp [isInput, this]
    simp [h1, h2]
  · intro g nIn nOut ids oi mid hg hgate
    have h1 : isInput c g = false := by simp [isInput, hgate]
    simp [h1] at hg

theorem evalOutputs_K {c : Circuit} {P eg} (hwf : WFc c) (heg : EvK c P eg) {inputs : List Bool} (k : Nat) :
    ∀ (i : Nat) (E : GateId → Nat) (st : EvSt) (outs : List Bool), K c P E [] st →
      (∀ j p, j < i → c.outputMap j = some p → 0 < E p) → evalOutputs c eg inputs i k st = .ok outs →
      ∃ E' st', K c P E' [] st' ∧ (∀ y, E y ≤ E' y) ∧ (∀ j p, j < i + k → c.outputMap j = some p → 0 < E' p) ∧
        ∀ j o, i ≤ j → j < i + k → c.outputMap j = some o → ¬ Readable c j o → 2 ≤ E' o := by
  induction k with
  | zero =>
    intro i E st outs h hprev _
    exact ⟨E, st, h, fun _ => Nat.le_refl _, hprev, by intros; omega⟩
  | succ k ih =>
    intro i E st outs h hprev he
    unfold evalOutputs at he
    obtain ⟨⟨b, s1⟩, h1, he⟩ := ok_bind he
    obtain ⟨bs, h2, he⟩ := ok_bind he
    have step : ∃ E1, K c P E1 [] s1 ∧ (∀ y, E y ≤ E1 y) ∧ (∀ p, c.outputMap i = some p → 0 < E1 p) ∧
        ∀ o, c.outputMap i = some o → ¬ Readable c i o → 2 ≤ E1 o := by
      unfold evalSingleOutput at h1
      split at h1
      · cases h1
      split at h1
      · cases h1
      cases ho : c.outputMap i with
      | none => rw [ho] at h1; cases h1
      | some o =>
        rw [ho] at h1
        simp only at h1
        cases e : st.evaled o with
        | some v =>
          rw [e] at h1; cases h1
          refine ⟨E, h, fun _ => Nat.le_refl _, ?_, ?_⟩
          · intro p hp; cases hp; exact h.seen _ (by simp [e])
          · intro p hp hn; cases hp
            rcases h.lost hwf hn hprev with h2 | h2
            · exact h2
            · rw [e] at h2; cases h2
        | none =>
          rw [e] at h1
          obtain ⟨s2, h3, h1⟩ := ok_bind h1
          obtain ⟨v, h4, h1⟩ := ok_bind h1
          cases h1
          obtain ⟨E1, k1, l1, l2⟩ := heg E st o s1 h h3
          refine ⟨E1, k1, l1, ?_, ?_⟩
          · intro p hp; cases hp; exact k1.bit h4
          · intro p hp hn; cases hp
            have hlt : E o < E1 o := by
              rcases l2 with l2 | ⟨l2, _⟩
              · exact l2
              · subst l2; simp [EvSt.bit, e] at h4
            -- computed before: some reader has been computed
            have hpos : 0 < E o := by
              unfold Readable at hn
              rw [not_or] at hn
              have hex : ∃ g gate, c.gateMap g = some gate ∧ o ∈ gate.operands := by
                apply Classical.byContradiction
                intro hno
                exact hn.1 fun g gate hg hx => hno ⟨g, gate, hg, hx⟩
              obtain ⟨g, gate, hg, hx⟩ := hex
              have h2 := not_or.mp fun hh => hn.2 ⟨g, gate, hg, hx, hh⟩
              refine h.closed g gate o ?_ hg hx
              apply Classical.byContradiction
              intro hz
              exact h2.1 fun j p hj hp hr => hz (h.reach (hprev j p hj hp) hr)
            omega
    obtain ⟨E1, k1, l1, l2, l3⟩ := step
    obtain ⟨E2, s2, k2, m1, m2, m3⟩ := ih (i + 1) E1 s1 bs k1 (by
      intro j p hj hp
      by_cases e : j = i
      · subst e; exact l2 p hp
      · exact Nat.lt_of_lt_of_le (hprev j p (by omega) hp) (l1 p)) h2
    refine ⟨E2, s2, k2, fun y => Nat.le_trans (l1 y) (m1 y), fun j p hj hp => m2 j p (by omega) hp, ?_⟩
    intro j o hj1 hj2 ho hn
    by_cases e : j = i
    · subst e; exact Nat.le_trans (l3 o ho hn) (m1 o)
    · exact m3 j o (by omega) (by omega) ho hn

/-- what a successful evaluation says about the number of computations of each gate -/
theorem evalOutput_K {w : World} (hw : WFw w) {r : Ref} {c : Circuit} (hc : w.circs[r]? = some c) {fuel : Nat}
    {ins outs : List Bool} (he : evalOutput w fuel r ins = .ok outs) :
    ∃ E st, K c (Ran w c) E [] st ∧ (∀ j p, c.outputMap j = some p → 0 < E p) ∧
      ∀ j o, c.outputMap j = some o → ¬ Readable c j o → 2 ≤ E o := by
  have hwf := hw.circ r c hc
  unfold evalOutput at he
  rw [bind_of_ok (circuit_of hc)] at he
  unfold evalOutputWith at he
  split at he
  · cases he
  next hl =>
  obtain ⟨st, h1, h2⟩ := ok_bind he
  obtain ⟨E, s, k1, _, k3, k4⟩ := evalOutputs_K hwf (evalGate_K hwf hc fuel) c.outputLen 0 _ st outs
    (K.seeded hwf (Decidable.not_not.mp hl) h1) (by intros; omega) h2
  have hlt : ∀ j o, c.outputMap j = some o → j < 0 + c.outputLen := fun j o h => by
    have := (hwf.output_dom j).mp (by simp [h]); omega
  exact ⟨E, s, k1, fun j p hp => k3 j p (hlt j p hp) hp, fun j o ho hn => k4 j o (by omega) (hlt j o ho) ho hn⟩

theorem K.drained {c P E st} (hwf : WFc c) (h : K c P E [] st) (hout : ∀ j p, c.outputMap j = some p → 0 < E p)
    {g : GateId} (hd : Drained c g) : ¬ 2 ≤ E g := by
  induction hd with
  | input hg => rw [h.input _ _ hg]; omega
  | @operand g gate x hg hx ht _ ih =>
    intro h2
    apply ih
    have hb := h.bound x
    have hall : ∀ y gt, c.gateMap y = some gt → x ∈ gt.operands → 0 < E y ∧
        ∀ nIn nOut ids oi mid, gt = .module nIn nOut ids oi mid → nOut < 2 := by
      intro y gt hy hxy
      obtain ⟨⟨i, p, hp, hr⟩, hs⟩ := ht y gt hy hxy
      exact ⟨h.reach (hout i p hp) hr, hs⟩
    have hwt : ∀ y, wt c y x = c.occ y x := fun y => wt_eq_occ hwf fun nIn nOut ids oi mid hy hxy =>
      (hall y _ hy hxy).2 _ _ _ _ _ rfl
    have hocc : 0 < c.occ g x := by simp only [Circuit.occ, hg]; exact List.count_pos_iff.mpr hx
    have hge : deg c x + 1 ≤ reads c E x := by
      rw [deg_eq hwf]
      refine sumTo_le_add (k := g) (fun y _ => ?_) (hwf.lt_of_some hg) ?_
      · rw [hwt y]
        cases e : c.occ y x with
        | zero => omega
        | succ n =>
          have hpos : 0 < E y := by
            unfold Circuit.occ at e
            cases ey : c.gateMap y with
            | none => rw [ey] at e; cases e
            | some gt =>
              rw [ey] at e
              exact (hall y gt ey (List.count_pos_iff.mp (by simp only at e; omega))).1
          exact Nat.le_mul_of_pos_left _ hpos
      · rw [hwt g]
        have := Nat.mul_le_mul_right (c.occ g x) h2
        omega
    apply Classical.byContradiction
    intro hlt
    have h1 : E x ≤ 1 := by omega
    have := Nat.mul_le_mul_right (deg c x) h1
    omega

/-- evaluation never succeeds if a drained output is unreadable -/
theorem evalOutput_fails {w : World} (hw : WFw w) {r : Ref} {c : Circuit} (hc : w.circs[r]? = some c) {i : WireId}
    {o : GateId} (ho : c.outputMap i = some o) (hn : ¬ Readable c i o) (hd : Drained c o) (fuel : Nat)
    (ins outs : List Bool) : evalOutput w fuel r ins ≠ .ok outs := by
  intro he
  obtain ⟨E, st, h1, h2, h3⟩ := evalOutput_K hw hc he
  exact h1.drained (hw.circ r c hc) h2 hd (h3 i o ho hn)

theorem Spec.Frugal.drained {c : Circuit} (hwf : WFc c) (h : Frugal c) {o x : GateId} (hr : Reach c o x)
    (hx : Drained c x) : Drained c o := by
  induction hr with
  | refl => exact hx
  | @operand y gate x _ hy hm ih =>
    refine ih (.operand hy hm ?_ hx)
    intro g gt hg hxg
    refine ⟨h.needed g gt hg, ?_⟩
    rintro nIn nOut ids oi mid rfl
    exact h.single g _ _ _ _ _ hg
  | @sibling y nIn nOut ids oi mid k _ hy hk ih =>
    have h1 := h.single y _ _ _ _ _ hy
    obtain ⟨g1, g2, _⟩ := hwf.group y _ _ _ _ _ hy
    have e : y - oi + k = y := by omega
    rw [e] at hx
    exact ih hx

theorem frugal_iff {w : World} (hw : WFw w) {r : Ref} (hb : Built w r) (hf : FrugalAll w r)
    {fuel : Nat} {ins outs : List Bool} (he : evalOutput w fuel r ins = .ok outs) : Evaluable w r := by
  induction hb generalizing fuel ins outs with
  | @mk r c hc ht hcalls _ ih =>
    cases hf with
    | mk hc' hfr hall =>
      rw [hc] at hc'; cases hc'
      have hwf := hw.circ r c hc
      obtain ⟨E, st, h1, h2, h3⟩ := evalOutput_K hw hc he
      refine .mk hc ht ?_ hcalls ?_
      · intro i o ho
        apply Classical.byContradiction
        intro hn
        obtain ⟨x, k, hx, hr⟩ := hfr.input i o ho
        exact h1.drained hwf h2 (hfr.drained hwf hr (.input hx)) (h3 i o ho hn)
      · intro mr hm
        obtain ⟨g, nIn, nOut, ids, oi, mid, hg, hmr⟩ := hm
        obtain ⟨i, p, hp, hr⟩ := hfr.needed g _ hg
        obtain ⟨mr', fuel', bits, outs', e1, e2⟩ := h1.called g _ _ _ _ _ (h1.reach (h2 i p hp) hr) hg
        rw [hmr] at e1; cases e1
        have hcall : Calls w c mr := ⟨g, nIn, nOut, ids, oi, mid, hg, hmr⟩
        exact ih mr hcall (hall mr hcall) e2

end CC
