import Verif.Proofs.BrRound

/-!
# Written files whose last wires are the outputs
-/

namespace CC.Bristol
open CC CC.Spec CC.Spec.Bristol

/-! ### the text determines the lines -/

theorem num_inj {a b : Nat} (h : num a = num b) : a = b := by
  have h1 := (dec_spec a).2.2
  have h2 := (dec_spec b).2.2
  unfold num at h
  unfold dec at h1 h2
  rw [h] at h1
  omega

theorem name_inj {a b : GOp} (h : a.name = b.name) : a = b := by
  revert h; cases a <;> cases b <;> decide

theorem map_num_inj : ∀ {l l' : List Nat}, l.map num = l'.map num → l = l'
  | [], [], _ => rfl
  | _ :: _, _ :: _, h => by
    simp only [List.map_cons, List.cons.injEq] at h
    rw [num_inj h.1, map_num_inj h.2]
  | [], _ :: _, h => by cases h
  | _ :: _, [], h => by cases h

theorem toks_inj {l l' : GLine} (h : GLine.toks l = GLine.toks l') : l = l' := by
  unfold GLine.toks at h
  simp only [List.cons.injEq, true_and] at h
  have hlen : (l.args.map num).length = (l'.args.map num).length := by
    have := congrArg List.length h
    simp at this ⊢; exact this
  obtain ⟨h1, h2⟩ := List.append_inj h hlen
  simp only [List.cons.injEq, and_true] at h2
  obtain ⟨op, args, out⟩ := l
  obtain ⟨op', args', out'⟩ := l'
  simp only at h1 h2 ⊢
  rw [map_num_inj h1, num_inj h2.1, name_inj h2.2]

theorem gatesText_lines (ls : List GLine) : Lines (ls.map fun l => num l.args.length ++ sep (GLine.toks l)) (gatesText ls) := by
  induction ls with
  | nil => exact .nil
  | cons l ls ih =>
    rw [List.map_cons]
    have e : gatesText (l :: ls) = (num l.args.length ++ sep (GLine.toks l)) ++ ['\n'] ++ gatesText ls := by
      rw [← text_toks]; simp [gatesText]
    rw [e]
    exact (plain_words (word_num _) (words_toks l)).lf ih

theorem gatesText_inj {ls ls' : List GLine} (h : gatesText ls = gatesText ls') : ls = ls' := by
  have h1 := lines_iff.mp (gatesText_lines ls)
  have h2 := lines_iff.mp (gatesText_lines ls')
  rw [h, h2] at h1
  clear h h2
  induction ls generalizing ls' with
  | nil => cases ls' with
    | nil => rfl
    | cons _ _ => simp at h1
  | cons l ls ih => cases ls' with
    | nil => simp at h1
    | cons l' ls' =>
      simp only [List.map_cons, List.cons.injEq] at h1
      rw [ih h1.2]
      have e1 := layout_iff.mp (layout_words (word_num l.args.length) (words_toks l))
      have e2 := layout_iff.mp (layout_words (word_num l'.args.length) (words_toks l'))
      rw [← h1.1, e2] at e1
      rw [toks_inj (List.cons.inj e1).2]

theorem constVals_length {m : Map Nat Bool} : ∀ {xs : List Nat} {bs : List Bool}, constVals m xs = .ok bs → xs.length = bs.length
  | [], bs, h => by cases h; rfl
  | x :: xs, bs, h => by
    unfold constVals at h
    cases e : m x with
    | none => rw [e] at h; cases h
    | some b =>
      rw [e] at h; simp only at h
      cases e' : constVals m xs with
      | error err => rw [e'] at h; cases h
      | ok cs => rw [e'] at h; cases h; simp [constVals_length e']

/-! ### logic gates whose operands have wires -/

section
variable {w : World} {r : Ref} {c : Circuit}

theorem ensureWires_bound {wg : WriteGate} : ∀ {ids : List GateId} {s : WS}, (∀ x ∈ ids, s.2 x ≠ none) →
    ensureWires c wg ids s = .ok s
  | [], _, _ => rfl
  | x :: ids, s, h => by
    obtain ⟨y, hy⟩ := Option.ne_none_iff_exists'.mp (h x (by simp))
    unfold ensureWires
    have : ensureWire c wg x s = .ok s := by unfold ensureWire; rw [hy]
    rw [bind_of_ok this]
    exact ensureWires_bound fun z hz => h z (by simp [hz])

/-- the line of a logic gate whose operands have wires -/
theorem writeGate_line (hc : w.circs[r]? = some c) {fuel : Nat} {g : GateId} {gate : Gate} (hg : c.gateMap g = some gate)
    (hl : IsLogic c g) {s : WS} (hops : ∀ x ∈ gate.operands, s.2 x ≠ none) (hs : s.2 g = none) :
    ∃ l s', writeGate w (fuel + 1) r g gate s = .ok s' ∧ Emits w r s s' [l] [] ∧ s'.2 = s.2.insert g s.1.numWire ∧
      ∀ x ∈ l.args, ∃ y ∈ gate.operands, s.2 y = some x := by
  have h1 := ensureWires_bound (c := c) (wg := writeGate w fuel r) hops
  obtain ⟨ws, h2, h3⟩ := wiresOf_ok hops
  have hargs : ∀ x ∈ ws, ∃ y ∈ gate.operands, s.2 y = some x := by
    intro x hx
    obtain ⟨i, hi, rfl⟩ := List.mem_iff_getElem.mp hx
    have hlen := h3.length
    exact ⟨gate.operands[i]'(by omega), List.getElem_mem _,
      (all2_iff.mp h3).2 i _ ws[i] (List.getElem?_eq_getElem (by omega)) (List.getElem?_eq_getElem hi)⟩
  obtain ⟨a, b, h | h | h | h⟩ := hl <;> rw [h] at hg <;> cases hg
  · refine ⟨⟨.inv, ws, s.1.numWire⟩, updateWire g (some ws) GOp.inv.name s, ?_, updateWire_emits h3 hs rfl (by decide) fun ins b hv => val_not hc h hv, rfl, hargs⟩
    rw [writeGate, bind_of_ok (circuit_of hc)]
    simp only
    rw [bind_of_ok h1, bind_of_ok h2]
    rfl
  · refine ⟨⟨.xor, ws, s.1.numWire⟩, updateWire g (some ws) GOp.xor.name s, ?_, updateWire_emits h3 hs rfl (by decide) fun ins b hv => val_xor hc h hv, rfl, hargs⟩
    rw [writeGate, bind_of_ok (circuit_of hc)]
    simp only
    rw [bind_of_ok h1, bind_of_ok h2]
    rfl
  · refine ⟨⟨.and, ws, s.1.numWire⟩, updateWire g (some ws) GOp.and.name s, ?_, updateWire_emits h3 hs rfl (by decide) fun ins b hv => val_and hc h hv, rfl, hargs⟩
    rw [writeGate, bind_of_ok (circuit_of hc)]
    simp only
    rw [bind_of_ok h1, bind_of_ok h2]
    rfl
  · refine ⟨⟨.or, ws, s.1.numWire⟩, updateWire g (some ws) GOp.or.name s, ?_, updateWire_emits h3 hs rfl (by decide) fun ins b hv => val_or hc h hv, rfl, hargs⟩
    rw [writeGate, bind_of_ok (circuit_of hc)]
    simp only
    rw [bind_of_ok h1, bind_of_ok h2]
    rfl

/-- the second output loop, when no output has a wire yet and all their operands have one -/
theorem writePass2_line (hc : w.circs[r]? = some c) {fuel : Nat} : ∀ {outs : List (GateId × Gate)} {s : WS},
    (∀ p ∈ outs, c.gateMap p.1 = some p.2 ∧ IsLogic c p.1 ∧ s.2 p.1 = none ∧ ∀ x ∈ p.2.operands, s.2 x ≠ none ∧ x ∉ outs.map (·.1)) →
    (outs.map (·.1)).Nodup →
    ∃ ls s', writePass2 (writeGate w (fuel + 1) r) outs s = .ok s' ∧ Emits w r s s' ls [] ∧ ls.length = outs.length ∧
      (∀ (j : Nat) p, outs[j]? = some p → s'.2 p.1 = some (s.1.numWire + j)) ∧
      (∀ g, g ∉ outs.map (·.1) → s'.2 g = s.2 g) ∧
      ∀ l ∈ ls, ∀ x ∈ l.args, ∃ p ∈ outs, ∃ y ∈ p.2.operands, s.2 y = some x
  | [], s, _, _ => ⟨[], s, rfl, .refl _ _ _, rfl, by simp, fun _ _ => rfl, by simp⟩
  | (g, gate) :: outs, s, h, hn => by
    obtain ⟨h1, h2, h3, h4⟩ := h (g, gate) (by simp)
    simp only [List.map_cons, List.nodup_cons] at hn
    obtain ⟨l, s1, k1, k2, k3, k4⟩ := writeGate_line hc (fuel := fuel) h1 h2 (fun x hx => (h4 x hx).1) h3
    have hne : ∀ p ∈ outs, p.1 ≠ g := fun p hp e => hn.1 (e ▸ List.mem_map.mpr ⟨p, hp, rfl⟩)
    obtain ⟨ls, s2, m1, m2, m3, m4, m5, m6⟩ := writePass2_line hc (fuel := fuel) (outs := outs) (s := s1) (by
      intro p hp
      obtain ⟨j1, j2, j3, j4⟩ := h p (by simp [hp])
      refine ⟨j1, j2, by rw [k3, Map.insert_ne _ _ (hne p hp)]; exact j3, ?_⟩
      intro x hx
      have := j4 x hx
      simp only [List.map_cons, List.mem_cons, not_or] at this
      exact ⟨by rw [k3, Map.insert_ne _ _ this.2.1]; exact this.1, this.2.2⟩) hn.2
    refine ⟨l :: ls, s2, ?_, k2.trans m2, by simp [m3], ?_, ?_, ?_⟩
    · unfold writePass2
      rw [h3]; simp only
      rw [bind_of_ok k1]; exact m1
    · intro j p hp
      cases j with
      | zero =>
        simp only [List.getElem?_cons_zero, Option.some.injEq] at hp
        subst hp
        rw [m5 g hn.1, k3]; simp
      | succ j =>
        rw [m4 j p (by simpa using hp), k2.numWire]
        simp only [List.length_singleton, Option.some.injEq]; omega
    · intro y hy
      simp only [List.map_cons, List.mem_cons, not_or] at hy
      rw [m5 y hy.2, k3, Map.insert_ne _ _ hy.1]
    · intro l' hl' x hx
      rcases List.mem_cons.mp hl' with rfl | hl'
      · obtain ⟨y, hy, hy'⟩ := k4 x hx; exact ⟨(g, gate), by simp, y, hy, hy'⟩
      · -- an operand of a later output is not the gate just written
        obtain ⟨p, hp, y, hy, hy'⟩ := m6 l' hl' x hx
        refine ⟨p, by simp [hp], y, hy, ?_⟩
        have := ((h p (by simp [hp])).2.2.2 y hy).2
        simp only [List.map_cons, List.mem_cons, not_or] at this
        rw [k3, Map.insert_ne _ _ this.1] at hy'
        exact hy'

/-- all gates of a circuit with tidy outputs, once its inputs have wires -/
theorem writeAll_tidy (hwf : WFc c) (hc : w.circs[r]? = some c) (ht : Topo c) (htidy : TidyOutputs c) {fuel : Nat}
    (hwg : WritesAll w r c (writeGate w (fuel + 1) r)) {s : WS} (hs : InputsOnly c s.2)
    (hlow : ∀ g x, s.2 g = some x → x < s.1.numWire) :
    ∃ s' ls cs, writeAll c (writeGate w (fuel + 1) r) s = .ok s' ∧ Emits w r s s' ls cs ∧
      (s'.1.lastConstWire ≤ s.1.numWire → c.outputLen ≤ ls.length ∧
        (∀ i o, c.outputMap i = some o → s'.2 o = some (s'.1.numWire - c.outputLen + i)) ∧
        ∀ l ∈ ls, ∀ x ∈ l.args, x < s'.1.numWire - c.outputLen) := by
  obtain ⟨own, ho, ha⟩ := ownConsts hwf
  have hnd : c.constGates.Nodup := hwf.const_sorted.imp (by intro a b h; omega)
  obtain ⟨s1, k1, k2, k3⟩ := writeConsts_ok hc c.constGates own ha hnd (s := s) (by
    intro g hg
    obtain ⟨v, hv⟩ := (hwf.const_iff g).mp hg
    refine Classical.byContradiction fun h => ?_
    obtain ⟨k, hk⟩ := (hs g).mp h
    rw [hv] at hk; cases hk)
  have d1 : ∀ g, s1.2 g ≠ none ↔ (∃ k, c.gateMap g = some (.input k)) ∨ ∃ v, c.gateMap g = some (.const v) := by
    intro g; rw [k3, hs, hwf.const_iff]
  have hready : Ready c s1.2 := by
    refine ⟨?_, fun g k hg => (d1 g).mpr (.inl ⟨k, hg⟩), fun g v hg => (d1 g).mpr (.inr ⟨v, hg⟩)⟩
    intro g y hg hy
    have hyg : y = g := by
      rcases (d1 g).mp hg with ⟨k, h⟩ | ⟨v, h⟩ <;>
      · rcases (reach_plain h (by simp) y).mp hy with h' | ⟨x, hx, _⟩
        · exact h'
        · cases hx
    rw [hyg]; exact hg
  obtain ⟨outs, s2, k4, k5, k6, k7⟩ := writePass1_ok hwf (wg := writeGate w (fuel + 1) r) (w := w) (r := r) (by
    intro i o gate ho hg x hx
    have h1 := ht o gate hg x hx
    have h2 := lead_le o gate
    have h3 := hwf.lt_of_some hg
    exact ⟨hwg x (by omega), hwf.some_of_lt (by omega)⟩) c.outputLen 0 (by omega) hready
  have hpair : ∀ (j : Nat) p, outs[j]? = some p → c.gateMap p.1 = some p.2 ∧ c.outputMap j = some p.1 := by
    intro j p hp
    obtain ⟨o, gate, h1, h2, h3⟩ := k6 j (by rw [← k5]; exact (List.getElem?_eq_some_iff.mp hp).1)
    rw [hp] at h3
    rw [Option.some.inj h3]
    rw [Nat.zero_add] at h1
    exact ⟨h2, h1⟩
  have hmem : ∀ p ∈ outs, ∃ j, outs[j]? = some p := fun p hp => by
    obtain ⟨j, hj, rfl⟩ := List.mem_iff_getElem.mp hp
    exact ⟨j, List.getElem?_eq_getElem hj⟩
  obtain ⟨ls1, cs, gs, bl, a, _, d2⟩ := k7
  have hfree : ∀ i o, c.outputMap i = some o → s2.2 o = none := by
    intro i o ho
    have := mt (d2 o).mp (by
      rintro (h | ⟨x, hx, hr⟩)
      · obtain ⟨a, b, hl⟩ := htidy.logic i o ho
        rcases (d1 o).mp h with ⟨k, h⟩ | ⟨v, h⟩ <;> rw [h] at hl <;> simp at hl
      · obtain ⟨p, hp, hx⟩ := List.mem_flatMap.mp hx
        obtain ⟨j, hj⟩ := hmem p hp
        obtain ⟨h1, h2⟩ := hpair j p hj
        exact htidy.last i j o p.1 p.2 x ho h2 h1 hx hr)
    exact Classical.not_not.mp this
  have hnod : (outs.map (·.1)).Nodup := by
    unfold List.Nodup
    rw [List.pairwise_iff_getElem]
    intro i j hi hj hij e
    rw [List.length_map] at hi hj
    rw [List.getElem_map, List.getElem_map] at e
    have h1 := (hpair i outs[i] (List.getElem?_eq_getElem (by omega))).2
    have h2 := (hpair j outs[j] (List.getElem?_eq_getElem hj)).2
    rw [e] at h1
    have := htidy.inj i j _ h1 h2
    omega
  obtain ⟨ls2, s3, m1, m2, m3, m4, m5, m6⟩ := writePass2_line hc (fuel := fuel) (outs := outs) (s := s2) (by
    intro p hp
    obtain ⟨j, hj⟩ := hmem p hp
    obtain ⟨h1, h2⟩ := hpair j p hj
    refine ⟨h1, htidy.logic j _ h2, hfree j _ h2, ?_⟩
    intro x hx
    have hb : s2.2 x ≠ none := (d2 x).mpr (.inr ⟨x, List.mem_flatMap.mpr ⟨p, hp, hx⟩, .refl⟩)
    refine ⟨hb, ?_⟩
    intro hm
    obtain ⟨q, hq, e⟩ := List.mem_map.mp hm
    obtain ⟨i, hi⟩ := hmem q hq
    have := hfree i _ (hpair i q hi).2
    rw [e] at this
    exact hb this) hnod
  refine ⟨s3, [] ++ (ls1 ++ ls2), own ++ (cs ++ []), ?_, k2.trans (a.trans m2), ?_⟩
  · unfold writeAll
    rw [bind_of_ok k1, bind_of_ok k4]
    exact m1
  · intro hfit
    have e1 := k2.numWire
    have e2 := a.numWire
    have e3 := m2.numWire
    have l1 := k2.last
    have l2 := a.last
    have l3 := m2.last
    simp only [List.length_nil, List.length_append, List.nil_append] at e1 e2 e3 l1 l2 l3 ⊢
    have hlow1 := k2.low (by omega) hlow
    have hlow2 := a.low (by omega) hlow1
    refine ⟨by omega, ?_, ?_⟩
    · intro i o ho
      have hi := (hwf.output_dom i).mp (by rw [ho]; rfl)
      obtain ⟨o', gate, h1, h2, h3⟩ := k6 i hi
      rw [Nat.zero_add, ho] at h1; cases h1
      rw [m4 i _ h3]
      congr 1; omega
    · intro l hl x hx
      rcases List.mem_append.mp hl with hl | hl
      · have h1 := (a.wired 0 (Nat.zero_le _) fun g y hg => .inr ⟨Nat.zero_le _, hlow1 g y hg⟩).2 l hl x hx
        obtain ⟨i, hi, rfl⟩ := List.mem_iff_getElem.mp hl
        have h2 := a.outs i _ (List.getElem?_eq_getElem hi)
        omega
      · obtain ⟨p, _, y, _, hy⟩ := m6 l hl x hx
        have := hlow2 y x hy
        omega

end

/-! ### checks -/

/-- the gate is a logic gate -/
def logicB : Gate → Bool
  | .not _ | .xor _ _ | .and _ _ | .or _ _ => true
  | _ => false

/-- the outputs are different logic gates that no gate reads -/
def tidyB (c : Circuit) : Bool :=
  let os := (List.range c.outputLen).map c.outputMap
  decide os.Nodup && os.all fun o =>
    match o with
    | none => false
    | some o => ((c.gateMap o).map logicB).getD false && (List.range c.gateIndex).all fun g =>
      match c.gateMap g with
      | none => true
      | some gate => !gate.operands.contains o

theorem tidy_of_check {c : Circuit} (hwf : WFc c) (h : tidyB c = true) : TidyOutputs c := by
  unfold tidyB at h
  simp only [Bool.and_eq_true, decide_eq_true_eq] at h
  obtain ⟨hn, ha⟩ := h
  have hlt : ∀ {i o}, c.outputMap i = some o → i < c.outputLen := fun ho => (hwf.output_dom _).mp (by rw [ho]; rfl)
  have hmem : ∀ {i o}, c.outputMap i = some o → some o ∈ (List.range c.outputLen).map c.outputMap := fun {i o} ho =>
    List.mem_map.mpr ⟨i, List.mem_range.mpr (hlt ho), ho⟩
  have hall : ∀ {i o}, c.outputMap i = some o → IsLogic c o ∧ ∀ g gate, c.gateMap g = some gate → o ∉ gate.operands := by
    intro i o ho
    have := List.all_eq_true.mp ha _ (hmem ho)
    simp only [Bool.and_eq_true] at this
    obtain ⟨h1, h2⟩ := this
    constructor
    · obtain ⟨gate, hg⟩ := hwf.some_of_lt (hwf.output_gate i o ho)
      rw [hg] at h1
      simp only [Option.map_some, Option.getD_some] at h1
      cases gate <;> simp only [logicB] at h1 <;> first | cases h1 | skip
      · exact ⟨_, 0, .inl hg⟩
      · exact ⟨_, _, .inr (.inr (.inl hg))⟩
      · exact ⟨_, _, .inr (.inl hg)⟩
      · exact ⟨_, _, .inr (.inr (.inr hg))⟩
    · intro g gate hg hm
      have := List.all_eq_true.mp h2 g (List.mem_range.mpr (hwf.lt_of_some hg))
      rw [hg] at this
      simp at this
      exact this hm
  refine ⟨fun i o ho => (hall ho).1, ?_, ?_⟩
  · intro i j o hi hj
    refine Classical.byContradiction fun hne => ?_
    unfold List.Nodup at hn
    rw [List.pairwise_iff_getElem] at hn
    rcases Nat.lt_or_gt_of_ne hne with h | h
    · have := hn i j (by simpa using hlt hi) (by simpa using hlt hj) h
      simp [hi, hj] at this
    · have := hn j i (by simpa using hlt hj) (by simpa using hlt hi) h
      simp [hi, hj] at this
  · intro i j o p gate x ho hp hg hx hr
    obtain ⟨⟨a, b, hl⟩, hu⟩ := hall ho
    cases hr with
    | refl => exact hu p gate hg hx
    | operand _ hy hz => exact hu _ _ hy hz
    | @sibling y nIn nOut ids oi mid k _ hy hk =>
      have := (hwf.group _ _ _ _ _ _ hy).2.2 k hk
      rw [this] at hl
      simp at hl

end CC.Bristol
