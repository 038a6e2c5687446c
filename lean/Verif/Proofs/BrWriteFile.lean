import Verif.Proofs.BrWrite

/-!
# `BristolNXAOWriter::write`: the whole file
-/

namespace CC.Bristol
open CC.Spec CC.Spec.Bristol

theorem writeInputs_ok {w : World} {fuel : Nat} {r : Ref} {c : Circuit} (hwf : WFc c) (hc : w.circs[r]? = some c) :
    ∀ (k i : Nat), i + k ≤ c.inputLen → ∀ {s : WS}, s.1.numWire = i →
    (∀ g x, s.2 g = some x ↔ x < i ∧ c.gateMap g = some (.input x)) →
    ∃ s', writeInputs w (fuel + 1) r c i k s = .ok s' ∧ s'.1.numWire = i + k ∧ s'.1.out = s.1.out ∧
      s'.1.constOf = s.1.constOf ∧ ∀ g x, s'.2 g = some x ↔ x < i + k ∧ c.gateMap g = some (.input x)
  | 0, i, _, s, h1, h2 => ⟨s, rfl, h1, rfl, rfl, h2⟩
  | k + 1, i, hi, s, h1, h2 => by
    obtain ⟨g, hg⟩ := Option.isSome_iff_exists.mp ((hwf.input_dom i).mpr (by omega))
    have hg' := (hwf.input_iff i g).mp hg
    obtain ⟨s', k1, k2, k3, k4, k5⟩ := writeInputs_ok hwf hc k (i + 1) (by omega)
      (s := updateWire g none (gateStr (.input i)) s) (by simp [updateWire, h1]) (by
        intro y x
        simp only [updateWire, Map.insert_apply, h1]
        split
        · next e =>
          subst e
          rw [hg']
          simp only [Option.some.injEq, Gate.input.injEq]
          omega
        · next e =>
          rw [h2]
          constructor
          · rintro ⟨a, b⟩; exact ⟨by omega, b⟩
          · rintro ⟨a, b⟩
            refine ⟨?_, b⟩
            have : x ≠ i := by
              rintro rfl
              have := (hwf.input_iff x y).mpr b
              rw [hg] at this
              exact e (Option.some.inj this).symm
            omega)
    refine ⟨s', ?_, by omega, k3, k4, ?_⟩
    · unfold writeInputs
      rw [hg]; simp only
      rw [hg']; simp only
      have : writeGate w (fuel + 1) r g (.input i) s = .ok (updateWire g none (gateStr (.input i)) s) := by
        unfold writeGate
        rw [bind_of_ok (circuit_of hc)]
      rw [bind_of_ok this]
      exact k1
    · intro y x
      rw [k5, show i + 1 + k = i + (k + 1) by omega]

theorem constVals_ok {m : Map Nat Bool} {bs : List Bool} : ∀ (n i : Nat) , i + n = bs.length → ∀ base,
    (∀ j, j < bs.length → m (base + j) = bs[j]?) →
    constVals m ((List.range' i n).map (base + ·)) = .ok (bs.drop i)
  | 0, i, h, base, _ => by
    rw [List.drop_eq_nil_of_le (by omega)]; rfl
  | n + 1, i, h, base, hm => by
    have hi : i < bs.length := by omega
    have ih := constVals_ok (m := m) n (i + 1) (by omega) base hm
    rw [List.range'_succ, List.map_cons]
    unfold constVals
    rw [hm i hi, List.getElem?_eq_getElem hi]
    simp only
    rw [bind_of_ok ih, List.drop_eq_getElem_cons hi]

theorem header_text (c : Circuit) (k : Nat) (ls : List GLine) : header c k ++ gatesText ls = (fileOf c k ls).text := by
  have h2 : num 2 = ['2'] := rfl
  have h1 : num 1 = ['1'] := rfl
  simp [header, File.text, fileOf, dec, num]
  simp [num] at h1 h2
  simp [h1, h2]

/-- what `write` produces -/
structure WroteFile (w : World) (r : Ref) (c : Circuit) (numFirst : Nat) (res : Written) (ls : List GLine) : Prop where
  text : res.st.out = (fileOf c numFirst ls).text
  inlined : Inlined w r ls.length res.consts
  numWire : res.st.numWire = c.inputLen + c.numConst + ls.length
  outs : ∀ (i : Nat) l, ls[i]? = some l → l.out = c.inputLen + c.numConst + i
  arity : ∀ l ∈ ls, l.args.length = l.op.arity
  plain : ∀ l ∈ ls, l.op ≠ .eq ∧ l.op ≠ .eqw
  dom : ∀ g, res.wog g ≠ none ↔
    (∃ k, c.gateMap g = some (.input k)) ∨ (∃ v, c.gateMap g = some (.const v)) ∨ Needed c g
  inputs : ∀ g k, c.gateMap g = some (.input k) → res.wog g = some k
  args : ∀ l ∈ ls, ∀ x ∈ l.args, x < c.inputLen + res.consts.length ∨ (c.inputLen + c.numConst ≤ x ∧ x < l.out)
  wires : ∀ g x, res.wog g = some x → x < c.inputLen + res.consts.length ∨
    (c.inputLen + c.numConst ≤ x ∧ x < c.inputLen + c.numConst + ls.length)
  vals : res.consts.length ≤ c.numConst → ∀ ins : List Bool, ins.length = c.inputLen → ∀ g x b,
    res.wog g = some x → Val w r ins g b → exec ls (inputWires (ins ++ res.consts)) x = some b

theorem write_ok {w : World} (hw : WFw w) {r : Ref} (hb : Built w r) {c : Circuit} (hc : w.circs[r]? = some c) :
    ∃ F, ∀ fuel, F ≤ fuel → ∀ numFirst, numFirst ≤ c.inputLen + c.numConst →
      ∃ res ls, write w fuel r numFirst WSt.new Map.empty = .ok res ∧ WroteFile w r c numFirst res ls := by
  have hwf := hw.circ r c hc
  obtain ⟨F, hF⟩ := writeGate_all hw hb
  refine ⟨F + 1, fun fuel hf numFirst hn => ?_⟩
  obtain ⟨fuel, rfl⟩ : ∃ k, fuel = k + 1 := ⟨fuel - 1, by omega⟩
  obtain ⟨s1, k1, k2, k3, k4, k5⟩ := writeInputs_ok (fuel := fuel) hwf hc c.inputLen 0 (by omega)
    (s := ({ WSt.new with out := WSt.new.out ++ header c numFirst, constOf := Map.empty }, Map.empty)) rfl (by simp)
  simp only [Nat.zero_add] at k2 k5
  have k5 : ∀ g x, s1.2 g = some x ↔ c.gateMap g = some (.input x) := by
    intro g x
    rw [k5]
    constructor
    · exact fun h => h.2
    · intro h
      refine ⟨?_, h⟩
      exact (hwf.input_dom x).mp (by rw [(hwf.input_iff x g).mpr h]; rfl)
  obtain ⟨s2, ls, cs, h1, h2, h3, h4⟩ := writeAll_ok hwf hc (hb.topo hc) (hF c hc (fuel + 1) (by omega))
    (s := ({ s1.1 with lastConstWire := c.inputLen, numWire := s1.1.numWire + c.numConst }, s1.2)) (by
      intro g
      simp only
      constructor
      · intro h
        obtain ⟨x, hx⟩ := Option.ne_none_iff_exists'.mp h
        exact ⟨x, (k5 g x).mp hx⟩
      · rintro ⟨k, hk⟩
        rw [(k5 g k).mpr hk]; simp)
  have e1 := h2.last
  have e2 := h2.numWire
  have e3 := h2.out
  have e4 := h2.constOf
  have e5 := h2.outs
  simp only [k2, k3, k4] at e1 e2 e3 e4 e5
  have hcv : constVals s2.1.constOf (rangeFromTo c.inputLen s2.1.lastConstWire) = .ok cs := by
    have := constVals_ok (m := s2.1.constOf) (bs := cs) cs.length 0 (by omega) c.inputLen (by
      intro j hj
      rw [e4, if_pos (by omega), Nat.add_sub_cancel_left])
    rw [List.drop_zero, ← List.range_eq_range'] at this
    unfold rangeFromTo
    rw [e1, Nat.add_sub_cancel_left]
    exact this
  refine ⟨⟨cs, s2.1, s2.2⟩, ls, ?_, ?_⟩
  · unfold write
    rw [bind_of_ok (circuit_of hc), if_neg (by omega)]
    simp only
    rw [bind_of_ok k1]
    simp only at h1 ⊢
    rw [bind_of_ok h1, bind_of_ok hcv]
  · have hin : ∀ g k, c.gateMap g = some (.input k) → s2.2 g = some k := fun g k hg => h2.keep g k ((k5 g k).mpr hg)
    have hwired := h2.wired (c.inputLen + c.numConst) (by simp only [k2]; omega) (by
      intro g x hg
      left
      exact (hwf.input_dom x).mp (by rw [(hwf.input_iff x g).mpr ((k5 g x).mp hg)]; rfl))
    rw [e1, e2] at hwired
    refine ⟨?_, h3, e2, e5, h2.arity, h2.plain, h4, hin, hwired.2, hwired.1, ?_⟩
    · show s2.1.out = _
      rw [e3, ← header_text]
      simp [WSt.new]
    · intro hfit ins hlen
      refine h2.sound (by simp only [k2]; rw [e1]; simp only at hfit; omega) ?_ ins _ ?_ ?_
      · intro g x hg
        simp only at hg ⊢
        have := (hwf.input_dom x).mp (by rw [(hwf.input_iff x g).mpr ((k5 g x).mp hg)]; rfl)
        omega
      · intro i b hi
        simp only [inputWires]
        rw [List.getElem?_append_right (by omega), hlen, Nat.add_sub_cancel_left]
        exact hi
      · intro g x b hg hv
        have hx := (k5 g x).mp hg
        have := val_input hc hx hv
        simp only [inputWires]
        rw [List.getElem?_append_left (List.getElem?_eq_some_iff.mp this).1]
        exact this

end CC.Bristol
