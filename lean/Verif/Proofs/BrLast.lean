import Verif.Proofs.BrTidy
import Verif.Spec.LastOutputs

/-!
# Written files whose last wires are the outputs, for circuits whose outputs are those of a module call
-/

namespace CC.Bristol
open CC CC.Spec CC.Spec.Bristol

/-- the outputs have the last wires and no line reads them -/
def AtEnd (c : Circuit) (s' : WS) (ls : List GLine) : Prop :=
  c.outputLen ≤ ls.length ∧ (∀ i o, c.outputMap i = some o → s'.2 o = some (s'.1.numWire - c.outputLen + i)) ∧
    ∀ l ∈ ls, ∀ x ∈ l.args, x < s'.1.numWire - c.outputLen

theorem writePass2_skip {wg : WriteGate} : ∀ {outs : List (GateId × Gate)} {s : WS}, (∀ p ∈ outs, s.2 p.1 ≠ none) →
    writePass2 wg outs s = .ok s
  | [], _, _ => rfl
  | (g, gate) :: outs, s, h => by
    obtain ⟨y, hy⟩ := Option.ne_none_iff_exists'.mp (h (g, gate) (by simp))
    unfold writePass2
    rw [hy]
    exact writePass2_skip fun p hp => h p (by simp [hp])

/-- all gates of a circuit with its outputs at the end, once its inputs have wires -/
theorem writeAll_last {w : World} (hw : WFw w) {r : Ref} (hl : LastOutputs w r) : Built w r →
    ∃ F, ∀ c, w.circs[r]? = some c → ∀ fuel, F ≤ fuel → ∀ s : WS, InputsOnly c s.2 →
      (∀ g x, s.2 g = some x → x < s.1.numWire) → ∃ s' ls cs, writeAll c (writeGate w fuel r) s = .ok s' ∧
        Emits w r s s' ls cs ∧ (s'.1.lastConstWire ≤ s.1.numWire → AtEnd c s' ls) := by
  induction hl with
  | @gates r c hc htidy =>
    intro hb
    obtain ⟨F, hF⟩ := writeGate_all hw hb
    refine ⟨F + 1, fun c' hc' fuel hf s hs hlow => ?_⟩
    rw [hc] at hc'; cases hc'
    obtain ⟨fuel, rfl⟩ : ∃ k, fuel = k + 1 := ⟨fuel - 1, by omega⟩
    exact writeAll_tidy (hw.circ r c hc) hc (hb.topo hc) htidy (hF c hc _ (by omega)) hs hlow
  | @call r c g nIn nOut ids mid mr hc hg hm hlen hout _ ih =>
    intro hb
    have hwf := hw.circ r c hc
    have ht := hb.topo hc
    obtain ⟨mc, hmc, hin, hon, hbm⟩ : ∃ mc, w.circs[mr]? = some mc ∧ ids.length = mc.inputLen ∧ nOut = mc.outputLen ∧
        Built w mr := by
      cases hb with
      | mk hc' _ hcalls hbm =>
        rw [hc] at hc'; cases hc'
        obtain ⟨mr', mc, h1, h2, h3, h4, h5⟩ := hcalls g _ _ _ _ _ hg
        rw [hm] at h1; cases h1
        exact ⟨mc, h2, by omega, h5, hbm mr ⟨g, nIn, nOut, ids, 0, mid, hg, hm⟩⟩
    have hmwf := hw.circ mr mc hmc
    have hgr := hwf.group g _ _ _ _ _ hg
    obtain ⟨F1, hF1⟩ := writeGate_all hw hb
    obtain ⟨F2, hF2⟩ := writeGate_all hw hbm
    obtain ⟨F3, hF3⟩ := ih hbm
    refine ⟨F1 + F2 + F3 + 1, fun c' hc' fuel hf s hs hlow => ?_⟩
    rw [hc] at hc'; cases hc'
    obtain ⟨fuel, rfl⟩ : ∃ k, fuel = k + 1 := ⟨fuel - 1, by omega⟩
    have hwg := hF1 c hc (fuel + 1) (by omega)
    -- the whole
    obtain ⟨sw, lw, cw, w1, w2, _, _⟩ := writeAll_ok hwf hc ht hwg hs
    refine ⟨sw, lw, cw, w1, w2, fun hfit => ?_⟩
    -- its parts
    obtain ⟨own, ho, ha⟩ := ownConsts hwf
    have hnd : c.constGates.Nodup := hwf.const_sorted.imp (by intro a b h; omega)
    obtain ⟨s1, k1, k2, k3⟩ := writeConsts_ok hc c.constGates own ha hnd (s := s) (by
      intro g hg
      obtain ⟨v, hv⟩ := (hwf.const_iff g).mp hg
      refine Classical.byContradiction fun h => ?_
      obtain ⟨k, hk⟩ := (hs g).mp h
      rw [hv] at hk; cases hk)
    have d1 : ∀ g, s1.2 g ≠ none ↔ (∃ k, c.gateMap g = some (.input k)) ∨ ∃ v, c.gateMap g = some (.const v) := by
      intro g; rw [k3, hs, hwf.const_iff]
    have hready : Ready c s1.2 := by
      refine ⟨?_, fun g k hg => (d1 g).mpr (.inl ⟨k, hg⟩), fun g v hg => (d1 g).mpr (.inr ⟨v, hg⟩)⟩
      intro g y hg hy
      have hyg : y = g := by
        rcases (d1 g).mp hg with ⟨k, h⟩ | ⟨v, h⟩ <;>
        · rcases (reach_plain h (by simp) y).mp hy with h' | ⟨x, hx, _⟩
          · exact h'
          · cases hx
      rw [hyg]; exact hg
    obtain ⟨outs, s2, k4, k5, k6, k7⟩ := writePass1_ok hwf (wg := writeGate w (fuel + 1) r) (w := w) (r := r) (by
      intro i o gate ho hg x hx
      have h1 := ht o gate hg x hx
      have h2 := lead_le o gate
      have h3 := hwf.lt_of_some hg
      exact ⟨hwg x (by omega), hwf.some_of_lt (by omega)⟩) c.outputLen 0 (by omega) hready
    have houts : ∀ j, j < nOut → outs[j]? = some (g + j, .module nIn nOut ids j mid) := by
      intro j hj
      obtain ⟨o, gate, h1, h2, h3⟩ := k6 j (by omega)
      rw [Nat.zero_add, hout j hj] at h1; cases h1
      have := hgr.2.2 j hj
      rw [Nat.sub_zero] at this
      rw [this] at h2; cases h2
      exact h3
    have hpos : 0 < nOut := by have := hgr.1; omega
    have hmem : ∀ p ∈ outs, ∃ j, j < nOut ∧ p = (g + j, .module nIn nOut ids j mid) := by
      intro p hp
      obtain ⟨j, hj, rfl⟩ := List.mem_iff_getElem.mp hp
      have := houts j (by omega)
      rw [List.getElem?_eq_getElem hj] at this
      exact ⟨j, by omega, Option.some.inj this⟩
    have hargs : ∀ x ∈ ids, s2.2 x ≠ none := by
      intro x hx
      exact k7.bound (List.mem_flatMap.mpr ⟨_, List.mem_of_getElem? (houts 0 hpos), hx⟩)
    obtain ⟨ls1, cs1, gs, bl, a, _, d2⟩ := k7
    have hfree : s2.2 g = none := by
      have := mt (d2 g).mp (by
        rintro (h | ⟨x, hx, hr⟩)
        · rcases (d1 g).mp h with ⟨k, h⟩ | ⟨v, h⟩ <;> rw [h] at hg <;> cases hg
        · obtain ⟨p, hp, hx⟩ := List.mem_flatMap.mp hx
          obtain ⟨j, hj, rfl⟩ := hmem p hp
          exact not_from hwf ht hg rfl ⟨x, hx, hr⟩)
      exact Classical.not_not.mp this
    -- the call
    obtain ⟨new, b1, b2⟩ := bindArgs_ok hmwf ids 0 Map.empty hargs (by omega)
    have b2 : ∀ g y, new g = some y ↔ ∃ j id, ids[j]? = some id ∧ mc.gateMap g = some (.input j) ∧ s2.2 id = some y := by
      intro g y; rw [b2]; simp
    have hio : InputsOnly mc new := by
      intro y
      constructor
      · intro h
        obtain ⟨x, hx⟩ := Option.ne_none_iff_exists'.mp h
        obtain ⟨j, id, _, h2, _⟩ := (b2 y x).mp hx
        exact ⟨j, h2⟩
      · rintro ⟨k, hk⟩
        have hk' := (hmwf.input_dom k).mp (by rw [(hmwf.input_iff k y).mpr hk]; rfl)
        have hid := List.getElem?_eq_getElem (l := ids) (i := k) (by omega)
        obtain ⟨x, hx⟩ := Option.ne_none_iff_exists'.mp (hargs ids[k] (List.getElem_mem _))
        rw [(b2 y x).mpr ⟨k, _, hid, hk, hx⟩]
        simp
    obtain ⟨s3, ls3, cs3, c1, c2, _, c3⟩ := writeAll_ok hmwf hmc (hbm.topo hmc) (hF2 mc hmc fuel (by omega)) (s := (s2.1, new)) hio
    have hbound : ∀ i o, mc.outputMap i = some o → s3.2 o ≠ none := fun i o ho => (c3 o).mpr (.inr (.inr ⟨i, o, ho, .refl⟩))
    obtain ⟨wog, e1, e2⟩ := bindOuts_ok hmwf g hbound nOut 0 s2.2 (by omega)
    simp only [Nat.zero_le, true_and, Nat.zero_add, forall_const] at e2
    have hgate : writeGate w (fuel + 1) r g (.module nIn nOut ids 0 mid) s2 = .ok (s3.1, wog) := by
      rw [writeGate, bind_of_ok (circuit_of hc)]
      simp only
      rw [bind_of_ok (ensureWires_bound hargs), hm]
      simp only
      rw [bind_of_ok (circuit_of hmc), bind_of_ok b1, bind_of_ok c1]
      rw [if_neg (by omega), Nat.sub_zero, bind_of_ok e1]
    have hset : ∀ j, j < nOut → wog (g + j) ≠ none := by
      intro j hj
      obtain ⟨o, ho⟩ := Option.isSome_iff_exists.mp ((hmwf.output_dom j).mpr (by omega))
      obtain ⟨x, hx⟩ := Option.ne_none_iff_exists'.mp (hbound j o ho)
      rw [(e2 _ x).mpr (.inl ⟨j, o, hj, rfl, ho, hx⟩)]; simp
    have hpass : writePass2 (writeGate w (fuel + 1) r) outs s2 = .ok (s3.1, wog) := by
      cases outs with
      | nil => simp at k5; omega
      | cons p outs =>
        have := houts 0 hpos
        simp only [List.getElem?_cons_zero, Option.some.injEq, Nat.add_zero] at this
        subst this
        unfold writePass2
        rw [hfree]
        simp only
        rw [bind_of_ok hgate]
        refine writePass2_skip fun p hp => ?_
        obtain ⟨j, hj, rfl⟩ := hmem p (by simp [hp])
        exact hset j hj
    have hsw : sw = (s3.1, wog) := by
      unfold writeAll at w1
      rw [bind_of_ok k1, bind_of_ok k4] at w1
      simp only at w1
      rw [hpass] at w1
      exact (Except.ok.inj w1).symm
    subst hsw
    have hlw : lw = ls1 ++ ls3 := by
      have h1 := w2.out
      have h2 := k2.out
      have h3 := a.out
      have h4 := c2.out
      simp only at h1 h4
      rw [h4, h3, h2] at h1
      simp only [List.append_assoc] at h1
      have h1 := List.append_cancel_left h1
      refine gatesText_inj ?_
      rw [← h1, gatesText_append]
      simp [gatesText]
    have n1 := k2.numWire
    have n2 := a.numWire
    have n3 := c2.numWire
    have l1 := k2.last
    have l2 := a.last
    have l3 := c2.last
    simp only [List.length_nil, Nat.add_zero] at n1 n2 n3 l1 l2 l3 hfit
    have hlow1 := k2.low (by omega) hlow
    have hlow2 := a.low (by omega) hlow1
    obtain ⟨s3', ls3', cs3', f1, f2, f3⟩ := hF3 mc hmc fuel (by omega) (s2.1, new) hio (by
      intro y x hy
      obtain ⟨j, id, _, _, h⟩ := (b2 y x).mp hy
      exact hlow2 id x h)
    rw [c1] at f1
    cases Except.ok.inj f1
    have hls3 : ls3' = ls3 := by
      have h1 := f2.out
      rw [c2.out] at h1
      exact (gatesText_inj (List.append_cancel_left h1)).symm
    subst hls3
    obtain ⟨g1, g2, g3⟩ := f3 (by simp only; omega)
    subst hlw
    refine ⟨by simp; omega, ?_, ?_⟩
    · intro i o ho
      have hi : i < nOut := by rw [← hlen]; exact (hwf.output_dom i).mp (by rw [ho]; rfl)
      rw [hout i hi] at ho; cases ho
      obtain ⟨o, ho⟩ := Option.isSome_iff_exists.mp ((hmwf.output_dom i).mpr (by omega))
      have := (e2 (g + i) _).mpr (.inl ⟨i, o, hi, rfl, ho, g2 i o ho⟩)
      simp only
      rw [this, hlen, hon]
    · intro l hl x hx
      simp only
      rcases List.mem_append.mp hl with hl | hl
      · have h1 := (a.wired 0 (Nat.zero_le _) fun g y hg => .inr ⟨Nat.zero_le _, hlow1 g y hg⟩).2 l hl x hx
        obtain ⟨i, hi, rfl⟩ := List.mem_iff_getElem.mp hl
        have h2 := a.outs i _ (List.getElem?_eq_getElem hi)
        omega
      · have := g3 l hl x hx
        omega

/-- the outputs are the last wires, and no line reads them -/
theorem write_last {w : World} {r : Ref} {c : Circuit} (hw : WFw w) (hb : Built w r) (hc : w.circs[r]? = some c)
    (hlast : LastOutputs w r) :
    ∃ F, ∀ fuel, F ≤ fuel → ∀ numFirst res ls, write w fuel r numFirst WSt.new Map.empty = .ok res →
      WroteFile w r c numFirst res ls → res.consts.length ≤ c.numConst → c.outputLen ≤ ls.length ∧
        (∀ i o, c.outputMap i = some o → res.wog o = some (c.inputLen + c.numConst + ls.length - c.outputLen + i)) ∧
        ∀ l ∈ ls, ∀ x ∈ l.args, x < c.inputLen + c.numConst + ls.length - c.outputLen := by
  have hwf := hw.circ r c hc
  obtain ⟨F, hF⟩ := writeAll_last hw hlast hb
  refine ⟨F + 1, fun fuel hf numFirst res ls hrun hres hfit => ?_⟩
  obtain ⟨fuel, rfl⟩ : ∃ k, fuel = k + 1 := ⟨fuel - 1, by omega⟩
  obtain ⟨s1, k1, k2, k3, k4, k5⟩ := writeInputs_ok (fuel := fuel) hwf hc c.inputLen 0 (by omega)
    (s := ({ WSt.new with out := WSt.new.out ++ header c numFirst, constOf := Map.empty }, Map.empty)) rfl (by simp)
  simp only [Nat.zero_add] at k2 k5
  obtain ⟨s2, ls', cs, h1, h2, h3⟩ := hF c hc (fuel + 1) (by omega)
    ({ s1.1 with lastConstWire := c.inputLen, numWire := s1.1.numWire + c.numConst }, s1.2) (by
      intro g
      simp only
      constructor
      · intro h
        obtain ⟨x, hx⟩ := Option.ne_none_iff_exists'.mp h
        exact ⟨x, ((k5 g x).mp hx).2⟩
      · rintro ⟨k, hk⟩
        have : k < c.inputLen := (hwf.input_dom k).mp (by rw [(hwf.input_iff k g).mpr hk]; rfl)
        rw [(k5 g k).mpr ⟨this, hk⟩]; simp) (by
      intro g x hg
      have := ((k5 g x).mp hg).1
      simp only; omega)
  have hrun' := hrun
  unfold write at hrun'
  rw [bind_of_ok (circuit_of hc)] at hrun'
  split at hrun'
  · cases hrun'
  · simp only at hrun'
    rw [bind_of_ok k1] at hrun'
    simp only at h1 hrun'
    rw [bind_of_ok h1] at hrun'
    obtain ⟨bs, hbs, e⟩ : ∃ bs, constVals s2.1.constOf (rangeFromTo c.inputLen s2.1.lastConstWire) = .ok bs ∧
        res = ⟨bs, s2.1, s2.2⟩ := by
      cases e : constVals s2.1.constOf (rangeFromTo c.inputLen s2.1.lastConstWire) with
      | error e' => rw [e] at hrun'; cases hrun'
      | ok bs => rw [e] at hrun'; exact ⟨bs, rfl, (Except.ok.inj hrun').symm⟩
    subst e
    have htext := hres.text
    have hout := h2.out
    simp only [k3] at hout
    simp only [WSt.new, List.nil_append] at hout htext
    rw [hout, ← header_text] at htext
    have hls := gatesText_inj (List.append_cancel_left htext)
    subst hls
    have hnum := h2.numWire
    have hlast := h2.last
    simp only [k2] at hnum hlast
    have hconst : s2.1.lastConstWire ≤ c.inputLen + c.numConst := by
      have := constVals_length hbs
      unfold rangeFromTo at this
      simp only [List.length_map, List.length_range] at this
      simp only at hfit
      omega
    have h3 := h3 (by simp only [k2]; exact hconst)
    unfold AtEnd at h3
    rw [hnum] at h3
    exact h3

end CC.Bristol
