import Verif.Props.Writer
import Verif.Proofs.BrOrder
import Verif.Proofs.Readers
import Verif.Spec.Renaming
import Verif.Model.Equality

/-!
# Reading back: the circuit read, and when its numbering is that of the original
-/

namespace CC.Bristol
open CC.Spec CC.Spec.Bristol CC.Props

/-! ### the circuit read back -/

theorem gateOf_some {l : GLine} (h1 : l.args.length = l.op.arity) (h2 : l.op ≠ .eq ∧ l.op ≠ .eqw) : gateOf l ≠ none := by
  obtain ⟨op, args, out⟩ := l
  match op, args, h1, h2 with
  | .inv, [a], _, _ => simp [gateOf]
  | .xor, [a, b], _, _ => simp [gateOf]
  | .and, [a, b], _, _ => simp [gateOf]
  | .or, [a, b], _, _ => simp [gateOf]
  | .eq, _, _, h => exact absurd rfl h.1
  | .eqw, _, _, h => exact absurd rfl h.2

theorem _root_.CC.Props.Readback.mirror {w : World} {r : Ref} {c : Circuit} {numFirst : Nat} {res : Written} {ls : List GLine}
    (hb : Readback w r c numFirst res ls) (h0 : c.outputLen = 0 ∨ (c.numConst = 0 ∧ ls.length = c.numGate ∧
      c.outputLen ≤ c.inputLen + c.numGate)) {w2 : World} {r2 : Ref} {s2 : StoreRef} (hc2 : w2.circs[r2]? = some (Circuit.new s2)) :
    ∃ w3 c3, read r2 Map.empty res.st.out w2 = (.ok (upTo (c.inputLen + c.numConst + ls.length)), w3) ∧ w3.circs[r2]? = some c3 ∧
      Mirror (c.inputLen + c.numConst) ls c3 ∧ c3.outputLen = c.outputLen ∧
      ∀ i, c3.outputMap i = if i < c.outputLen then some (c.inputLen + c.numGate - c.outputLen + i) else none := by
  obtain ⟨w3, c3, e1, e2, e3, e4, e5⟩ := read_mirror hc2 hb.text
    (fun l hl => gateOf_some (hb.file.arity l hl) (hb.file.plain l hl)) (by
      intro i l hl
      have ho := hb.file.outs i l hl
      refine ⟨by rw [hb.numIn, ho], fun x hx => ?_⟩
      rcases hb.file.args l (List.mem_of_getElem? hl) x hx with q | q
      · have := hb.consts; omega
      · exact q.2) (by
      rw [hb.numOut, hb.numWire, hb.numIn]
      simp only [fileOf]
      omega) (by rw [hb.numOut, hb.numWire]; omega)
  rw [hb.numIn] at e1 e3
  rw [hb.numOut] at e4
  rw [hb.numOut, hb.numWire] at e5
  refine ⟨w3, c3, e1, e2, e3, e4, fun i => ?_⟩
  rw [e5]
  split
  · congr 1; omega
  · rfl

/-- the gate read for a wire is the gate written for it, with wires for its operands -/
theorem Mir.gateOf {c : Circuit} {n : Nat} {pre : Str} {ls : List GLine} {s : WS} (h : Mir c n pre ls s) {c3 : Circuit}
    (hm : Mirror n ls c3) {g : GateId} {x : Nat} {gate : Gate} (hx : s.2 g = some x) (hg : c.gateMap g = some gate) :
    c3.gateMap x = some (rename (fun g => (s.2 g).getD 0) gate) := by
  rw [hm.gate]
  split
  · next hlt =>
    have := h.low g x hx hlt
    rw [hg] at this; cases this; rfl
  · next hlt =>
    obtain ⟨gate', l, k1, k2, _, k4, k5⟩ := h.line g x hx (by omega)
    rw [hg] at k1; cases k1
    rw [k2]
    obtain ⟨op, args, out⟩ := l
    simp only at k4 k5
    cases k4 with
    | not x =>
      match args, k5 with
      | [a], k5 =>
        have e1 : s.2 x = some a := k5.1
        simp [CC.Bristol.gateOf, rename, e1]
    | xor x y | and x y | or x y =>
      match args, k5 with
      | [a, b], k5 =>
        have e1 : s.2 x = some a := k5.1
        have e2 : s.2 y = some b := k5.2.1
        simp [CC.Bristol.gateOf, rename, e1, e2]

/-! ### numbering -/

/-- a listing that turns the circuit into itself is the identity -/
theorem order_of_same {c : Circuit} (hwf : WFc c) (ht : Topo c) (hf : Flat c) (hin : ∀ k, k < c.inputLen → c.inputMap k = some k)
    {mid L : List GateId} {lo : Nat} (h1 : Visit c (List.range c.inputLen)
      ((List.range' lo c.outputLen).flatMap (operandsOf c)) mid)
    (h2 : Visit c mid (List.range' lo c.outputLen) L) (hl : L.length = c.gateIndex) (pos : GateId → Nat)
    (hpos : ∀ g x, L[x]? = some g → pos g = x)
    (hren : ∀ x g gate, L[x]? = some g → c.gateMap g = some gate → c.gateMap x = some (rename pos gate))
    (hmem : ∀ g, g < c.gateIndex → g ∈ L) (hlt' : ∀ g ∈ L, g < c.gateIndex) : L = List.range c.gateIndex := by
  have hat : ∀ g, g < c.gateIndex → L[pos g]? = some g := by
    intro g hg
    obtain ⟨x, hx⟩ := List.mem_iff_getElem?.mp (hmem g hg)
    rw [hpos g x hx]; exact hx
  have happ := h2.appends List.nodup_range' (by
    intro g hg gate hgate x hx
    refine h1.listed x (List.mem_flatMap.mpr ⟨g, hg, ?_⟩)
    unfold operandsOf; rw [hgate]; exact hx)
  have hsorted : ((List.range' lo c.outputLen).filter fun g => decide (g ∉ mid)).Pairwise (· < ·) :=
    List.Pairwise.filter _ List.pairwise_lt_range'
  have hoper : ∀ g gate x, c.gateMap g = some gate → x ∈ gate.operands → pos g = g → pos x = x := by
    intro g gate x hg hx he
    have hlt := hwf.lt_of_some hg
    have h3 := hren g g gate (by have := hat g hlt; rwa [he] at this) hg
    rw [hg] at h3
    rcases hf g gate hg with ⟨k, rfl⟩ | ⟨op, ho⟩
    · cases hx
    · cases ho with
      | not a =>
        simp only [rename, Option.some.injEq, Gate.not.injEq] at h3
        simp only [Gate.operands, List.mem_singleton] at hx
        subst hx; exact h3.symm
      | xor a b | and a b | or a b =>
        simp only [rename, Option.some.injEq, Gate.xor.injEq, Gate.and.injEq, Gate.or.injEq] at h3
        simp only [Gate.operands, List.mem_cons, List.not_mem_nil, or_false] at hx
        rcases hx with hx | hx
        · subst hx; exact h3.1.symm
        · subst hx; exact h3.2.symm
  have step : ∀ m, m < c.gateIndex → (∀ g, m < g → g < c.gateIndex → pos g = g) → pos m = m := by
    intro m hm ih
    have hop : (∃ a gate, c.gateMap a = some gate ∧ m ∈ gate.operands) → pos m = m := by
      rintro ⟨a, gate, ha, hx⟩
      refine hoper a gate m ha hx (ih a ?_ (hwf.lt_of_some ha))
      have := ht a gate ha m hx
      have := lead_le a gate
      omega
    by_cases hin' : m < c.inputLen
    · refine hpos m m ?_
      obtain ⟨t, et⟩ := h1.prefix.trans h2.prefix
      rw [← et, List.getElem?_append_left (by rw [List.length_range]; exact hin'), List.getElem?_range hin']
    rcases h2.source m (hmem m hm) with h3 | h3 | h3
    · rcases h1.source m h3 with h4 | h4 | h4
      · exact absurd (List.mem_range.mp h4) hin'
      · obtain ⟨a, _, h5⟩ := List.mem_flatMap.mp h4
        unfold operandsOf at h5
        split at h5
        · cases h5
        · next gate ha => exact hop ⟨a, gate, ha, h5⟩
      · exact hop h4
    · by_cases hmid : m ∈ mid
      · rcases h1.source m hmid with h4 | h4 | h4
        · exact absurd (List.mem_range.mp h4) hin'
        · obtain ⟨a, _, h5⟩ := List.mem_flatMap.mp h4
          unfold operandsOf at h5
          split at h5
          · cases h5
          · next gate ha => exact hop ⟨a, gate, ha, h5⟩
        · exact hop h4
      -- `m` is one of the outputs listed last
      have hm1 := hat m hm
      have hplt : pos m < L.length := (List.getElem?_eq_some_iff.mp hm1).1
      rcases Nat.lt_trichotomy (pos m) m with hlt | he | hgt
      · exfalso
        obtain ⟨g, hg⟩ : ∃ g, L[m]? = some g := ⟨_, List.getElem?_eq_getElem (by omega)⟩
        have hpg := hpos g m hg
        have hgn : g < c.gateIndex := hlt' g (List.mem_of_getElem? hg)
        have hge : ¬ m < g := fun h => by have := ih g h hgn; omega
        have hne : g ≠ m := by rintro rfl; omega
        have hlen : ¬ pos m < mid.length := by
          intro h
          rw [happ, List.getElem?_append_left h] at hm1
          exact hmid (List.mem_of_getElem? hm1)
        rw [happ, List.getElem?_append_right (by omega)] at hm1 hg
        obtain ⟨b1, b2⟩ := List.getElem?_eq_some_iff.mp hm1
        obtain ⟨b3, b4⟩ := List.getElem?_eq_some_iff.mp hg
        have := List.pairwise_iff_getElem.mp hsorted _ _ b1 b3 (by omega)
        omega
      · exact he
      · exfalso
        have h5 := ih (pos m) hgt (by omega)
        have h6 := hat (pos m) (by omega)
        rw [h5, hm1] at h6
        have := Option.some.inj h6; omega
    · exact hop h3
  have key : ∀ k m, m < c.gateIndex → c.gateIndex - m ≤ k → pos m = m := by
    intro k
    induction k with
    | zero => intro m hm hk; omega
    | succ k ih => exact fun m hm hk => step m hm fun g h1 h2 => ih g h2 (by omega)
  apply List.ext_getElem?
  intro x
  by_cases hx : x < c.gateIndex
  · have := hat x hx
    rw [key _ x hx (Nat.le_refl _)] at this
    rw [this, List.getElem?_range hx]
  · rw [List.getElem?_eq_none (by omega), List.getElem?_eq_none (by rw [List.length_range]; omega)]

end CC.Bristol
