import Verif.Props.Int

/-!
# C28, C33, C34: bit vectors

As in `Props/Int`, `w0` is any reachable heap, `w1` the heap after creating the configuration and `w` any heap reached
from there by calls that leave the module circuits of the configuration alone.
-/

namespace CC.Props
open CC Spec Logic

section
variable {w0 w1 w : World} {r : Ref} {n : Nat} {cfg : BitsConfig}

/-- Creating a configuration succeeds for every width on every existing circuit and leaves the existing circuits alone. -/
theorem C33_config {w : World} {r : Ref} {c : Circuit} (h : Reachable w) (hc : w.circs[r]? = some c) (n : Nat) :
    ∃ cfg w1, BitsConfig.new r n w = (.ok cfg, w1) ∧ cfg.cref = r ∧ Later w w1 ∧
      ∀ (x : Ref) d, w.circs[x]? = some d → w1.circs[x]? = some d := by
  obtain ⟨cfg, w1, e, ha, hr, _⟩ := bitsConfig_ok (WFw.of_reachable h) hc (Nat.le_refl _) n
  refine ⟨cfg, w1, e, hr, ?_, fun x d hd => ha.keeps.circ x d trivial hd⟩
  have := plays_bitsConfig r n w
  rw [e] at this; exact this

/-- The hypotheses of the theorems below can be met: two new vectors `x`, `y` of any width and a selector `s` on an empty
circuit. -/
theorem demo_bits (n : Nat) : ∃ cfg w1 w, ∃ x y s : Bits, Made (BitsConfig.new 0 n) cfg start w1 w ∧ x.config = cfg ∧
    y.config = cfg ∧ x.bits.length = n ∧ y.bits.length = n ∧ s.bits.length = 1 ∧
      ∀ a b c : List Bool, a.length = n → b.length = n → c.length = 1 →
        Denotes w 0 (a ++ b ++ c) x.bits a ∧ Denotes w 0 (a ++ b ++ c) y.bits b ∧ Denotes w 0 (a ++ b ++ c) s.bits c := by
  obtain ⟨cfg, w1, e, hcr, hl, hk⟩ := C33_config (r := 0) start_reachable rfl n
  have hr1 := later_reachable start_reachable hl
  obtain ⟨x, w2, c2, e2, o2, x1, x2, hc2, i2, _, v2⟩ := C47_new_bits (cfg := cfg) hr1 (by rw [hcr]; exact hk 0 _ rfl) n
  have hr2 := later_reachable hr1 o2.later
  obtain ⟨y, w3, c3, e3, o3, y1, y2, hc3, i3, _, v3⟩ := C47_new_bits (cfg := cfg) hr2 hc2 n
  have hr3 := later_reachable hr2 o3.later
  obtain ⟨s, w4, c4, e4, o4, z1, z2, hc4, i4, _, v4⟩ := C47_new_bits (cfg := cfg) hr3 hc3 1
  rw [hcr] at o2 o3 o4 v2 v3 v4
  have i0 : (Circuit.new 0).inputLen = 0 := rfl
  rw [i0] at i2 v2
  refine ⟨cfg, w1, w4, x, y, s, ⟨start_reachable, e, ?_⟩, x1, y1, x2, y2, z2, ?_⟩
  · exact ((Since.refl.on (by decide) o2).on (by decide) o3).on (by decide) o4
  · intro a b c ha hb hc
    refine ⟨?_, ?_, ?_⟩
    · have := v2 w4 (o3.later.trans o4.later) (a ++ b ++ c) (by simp; omega)
      rwa [List.drop_zero, List.append_assoc, List.take_left' ha, ← List.append_assoc] at this
    · have := v3 w4 o4.later (a ++ b ++ c) (by simp; omega)
      rwa [i2, List.append_assoc, List.drop_left' (by omega), List.take_left' hb, ← List.append_assoc] at this
    · have := v4 w4 (.refl _) (a ++ b ++ c) (by simp; omega)
      rwa [i3, i2, List.drop_left' (by simp; omega), List.take_of_length_le (by omega)] at this

/-- C33: `!x` -/
theorem C33_not (hm : Made (BitsConfig.new r n) cfg w0 w1 w) {x : Bits} (hx : x.config = cfg) (lx : x.bits.length = n) :
    Gives r w x.not fun z w' => z.config = cfg ∧ z.bits.length = n ∧
      ∀ ins a, Denotes w r ins x.bits a → Denotes w' r ins z.bits (a.map (!·)) := by
  obtain ⟨c, h⟩ := bits_session hm.reachable hm.made hm.since
  subst hx
  have hr := h.cref
  refine RunsW.gives (Q := fun z w' => z.config = x.config ∧ z.bits.length = n ∧ ∀ ins a, All2 (Val w r ins) x.bits a →
    All2 (Val w' r ins) z.bits (a.map (!·))) ?_ ?_
  · unfold Bits.not
    rw [hr]
    refine RunsW.seq (RunsW.expect (RunsW.module h.wf h.circ h.lt h.ok.not _)) ?_
    rintro gs w' g ⟨h1, h2⟩
    exact RunsW.pure g.wf ⟨rfl, h1, fun ins a ha => h2 ins a ha (by rw [← ha.length]; exact lx)⟩
  · rintro z w' ⟨h1, h2, h3⟩
    exact ⟨h1, h2, fun ins a ha => denotes_iff.mpr (h3 ins a (denotes_iff.mp ha))⟩

example : ∃ w, ∃ x : Bits, Gives 0 w x.not fun z w' =>
    Denotes w' 0 [true, false, true, true, false] z.bits [false, true] := by
  obtain ⟨cfg, w1, w, x, y, s, hm, hx, hy, lx, ly, ls, hv⟩ := demo_bits 2
  obtain ⟨z, w', e1, e2, _, _, h⟩ := C33_not hm hx lx
  exact ⟨w, x, z, w', e1, e2, h _ _ (hv [true, false] [true, true] [false] rfl rfl rfl).1⟩

/-- C33: `x & y`, `x | y`, `x ^ y` -/
theorem C33_and_or_xor (hm : Made (BitsConfig.new r n) cfg w0 w1 w) {x y : Bits} (hx : x.config = cfg)
    (lx : x.bits.length = n) (ly : y.bits.length = n) :
    (Gives r w (x.and y) fun z w' => z.config = cfg ∧ z.bits.length = n ∧
      ∀ ins a b, Denotes w r ins x.bits a → Denotes w r ins y.bits b →
        Denotes w' r ins z.bits (List.zipWith (· && ·) a b)) ∧
    (Gives r w (x.or y) fun z w' => z.config = cfg ∧ z.bits.length = n ∧
      ∀ ins a b, Denotes w r ins x.bits a → Denotes w r ins y.bits b →
        Denotes w' r ins z.bits (List.zipWith (· || ·) a b)) ∧
    (Gives r w (x.xor y) fun z w' => z.config = cfg ∧ z.bits.length = n ∧
      ∀ ins a b, Denotes w r ins x.bits a → Denotes w r ins y.bits b →
        Denotes w' r ins z.bits (List.zipWith (· != ·) a b)) := by
  obtain ⟨c, h⟩ := bits_session hm.reachable hm.made hm.since
  subst hx
  have hr := h.cref
  refine ⟨?_, ?_, ?_⟩
  · refine RunsW.gives (Q := fun z w' => z.config = x.config ∧ z.bits.length = n ∧ ∀ ins a b, All2 (Val w r ins) x.bits a →
      All2 (Val w r ins) y.bits b → All2 (Val w' r ins) z.bits (List.zipWith (· && ·) a b)) ?_ ?_
    · unfold Bits.and
      rw [hr]
      refine RunsW.seq (RunsW.expect (RunsW.call2 h.wf h.circ h.lt h.ok.and lx ly)) ?_
      rintro gs w' g ⟨h1, h2⟩
      exact RunsW.pure g.wf ⟨rfl, h1, h2⟩
    · rintro z w' ⟨h1, h2, h3⟩
      exact ⟨h1, h2, fun ins a b ha hb => denotes_iff.mpr (h3 ins a b (denotes_iff.mp ha) (denotes_iff.mp hb))⟩
  · refine RunsW.gives (Q := fun z w' => z.config = x.config ∧ z.bits.length = n ∧ ∀ ins a b, All2 (Val w r ins) x.bits a →
      All2 (Val w r ins) y.bits b → All2 (Val w' r ins) z.bits (List.zipWith (· || ·) a b)) ?_ ?_
    · unfold Bits.or
      rw [hr]
      refine RunsW.seq (RunsW.expect (RunsW.call2 h.wf h.circ h.lt h.ok.or lx ly)) ?_
      rintro gs w' g ⟨h1, h2⟩
      exact RunsW.pure g.wf ⟨rfl, h1, h2⟩
    · rintro z w' ⟨h1, h2, h3⟩
      exact ⟨h1, h2, fun ins a b ha hb => denotes_iff.mpr (h3 ins a b (denotes_iff.mp ha) (denotes_iff.mp hb))⟩
  · refine RunsW.gives (Q := fun z w' => z.config = x.config ∧ z.bits.length = n ∧ ∀ ins a b, All2 (Val w r ins) x.bits a →
      All2 (Val w r ins) y.bits b → All2 (Val w' r ins) z.bits (List.zipWith (· != ·) a b)) ?_ ?_
    · unfold Bits.xor
      rw [hr]
      refine RunsW.seq (RunsW.expect (RunsW.call2 h.wf h.circ h.lt h.ok.xor lx ly)) ?_
      rintro gs w' g ⟨h1, h2⟩
      exact RunsW.pure g.wf ⟨rfl, h1, h2⟩
    · rintro z w' ⟨h1, h2, h3⟩
      exact ⟨h1, h2, fun ins a b ha hb => denotes_iff.mpr (h3 ins a b (denotes_iff.mp ha) (denotes_iff.mp hb))⟩

example : ∃ w, ∃ x y : Bits, Gives 0 w (x.xor y) fun z w' =>
    Denotes w' 0 [true, false, true, true, false] z.bits [false, true] := by
  obtain ⟨cfg, w1, w, x, y, s, hm, hx, hy, lx, ly, ls, hv⟩ := demo_bits 2
  obtain ⟨_, _, z, w', e1, e2, _, _, h⟩ := C33_and_or_xor hm hx lx ly
  have := hv [true, false] [true, true] [false] rfl rfl rfl
  exact ⟨w, x, y, z, w', e1, e2, h _ _ _ this.1 this.2.1⟩

/-- C28 for bit vectors: `eq` and `neq` -/
theorem C28_bits (hm : Made (BitsConfig.new r n) cfg w0 w1 w) {x y : Bits} (hx : x.config = cfg)
    (lx : x.bits.length = n) (ly : y.bits.length = n) :
    (Gives r w (x.eq y) fun g w' => ∀ ins a b, Denotes w r ins x.bits a → Denotes w r ins y.bits b →
      Val w' r ins g (decide (a = b))) ∧
    (Gives r w (x.neq y) fun g w' => ∀ ins a b, Denotes w r ins x.bits a → Denotes w r ins y.bits b →
      Val w' r ins g (decide (a ≠ b))) := by
  obtain ⟨c, h⟩ := bits_session hm.reachable hm.made hm.since
  subst hx
  have hr := h.cref
  constructor
  · refine RunsW.gives (Q := fun g w' => ∀ ins a b, All2 (Val w r ins) x.bits a →
      All2 (Val w r ins) y.bits b → Val w' r ins g (a == b)) ?_ ?_
    · unfold Bits.eq
      rw [hr]
      exact RunsW.call2_bit h.wf h.circ h.lt h.ok.eq lx ly
    · intro z w' h3 ins a b ha hb
      have := h3 ins a b (denotes_iff.mp ha) (denotes_iff.mp hb)
      rwa [Bool.beq_eq_decide_eq] at this
  · refine RunsW.gives (Q := fun g w' => ∀ ins a b, All2 (Val w r ins) x.bits a →
      All2 (Val w r ins) y.bits b → Val w' r ins g (!(a == b))) ?_ ?_
    · unfold Bits.neq
      rw [hr]
      exact RunsW.call2_bit h.wf h.circ h.lt h.ok.neq lx ly
    · intro z w' h3 ins a b ha hb
      have := h3 ins a b (denotes_iff.mp ha) (denotes_iff.mp hb)
      rwa [Bool.beq_eq_decide_eq, ← decide_not] at this

example : ∃ w, ∃ x y : Bits, Gives 0 w (x.neq y) fun z w' => Val w' 0 [true, false, true, true, false] z true := by
  obtain ⟨cfg, w1, w, x, y, s, hm, hx, hy, lx, ly, ls, hv⟩ := demo_bits 2
  obtain ⟨_, z, w', e1, e2, h⟩ := C28_bits hm hx lx ly
  have := hv [true, false] [true, true] [false] rfl rfl rfl
  exact ⟨w, x, y, z, w', e1, e2, h _ _ _ this.1 this.2.1⟩

end

/-- C34: `self.mux(t, s)`. Only the circuit has to exist. -/
theorem C34_mux {w : World} {n : Nat} {c : Circuit} (h : Reachable w) {x t : Bits} (hc : w.circs[x.config.cref]? = some c)
    (lx : x.bits.length = n) (lt : t.bits.length = n) (s : GateId) :
    Gives x.config.cref w (x.mux t n s) fun z w' => z.config = x.config ∧ z.bits.length = n ∧
      ∀ ins a b sel, Denotes w x.config.cref ins x.bits a → Denotes w x.config.cref ins t.bits b →
        Val w x.config.cref ins s sel → Denotes w' x.config.cref ins z.bits (if sel then b else a) := by
  refine RunsW.gives (Q := fun z w' => z.config = x.config ∧ z.bits.length = n ∧
      ∀ ins a b sel, All2 (Val w x.config.cref ins) x.bits a → All2 (Val w x.config.cref ins) t.bits b →
        Val w x.config.cref ins s sel → All2 (Val w' x.config.cref ins) z.bits (if sel then b else a)) ?_ ?_
  · unfold Bits.mux
    refine RunsW.seq (RunsW.not (WFw.of_reachable h) hc s) ?_
    intro ns w1 g1 h1
    refine RunsW.seq (RunsW.mapList (P := fun i g w' => ∀ ins (a b : List Bool) ai bi sel,
      All2 (Val w x.config.cref ins) x.bits a → All2 (Val w x.config.cref ins) t.bits b →
      Val w x.config.cref ins s sel → a[i]? = some ai → b[i]? = some bi → Val w' x.config.cref ins g (if sel then bi else ai))
      (List.range n) g1.wf ?_ ?_) ?_
    · intro i g w w' h hg ins a b ai bi sel ha hb hs hai hbi
      exact hg.val (h ins a b ai bi sel ha hb hs hai hbi)
    · intro i w2 hi g2
      have hin : i < n := by simpa using hi
      have g02 := g1.trans g2
      obtain ⟨c2, hc2, _⟩ := g02.at hc
      refine RunsW.seq (P := fun xi w' => x.bits[i]? = some xi ∧ w' = w2) (RunsW.idx g2.wf
        (List.getElem?_eq_getElem (by omega)) ⟨List.getElem?_eq_getElem (by omega), rfl⟩) ?_
      rintro xi _ _ ⟨hxi, rfl⟩
      refine RunsW.seq (RunsW.and g2.wf hc2 xi ns) ?_
      intro f w3 g3 h3
      obtain ⟨c3, hc3, _⟩ := g3.at hc2
      refine RunsW.seq (P := fun ti w' => t.bits[i]? = some ti ∧ w' = w3) (RunsW.idx g3.wf
        (List.getElem?_eq_getElem (by omega)) ⟨List.getElem?_eq_getElem (by omega), rfl⟩) ?_
      rintro ti _ _ ⟨hti, rfl⟩
      refine RunsW.seq (RunsW.and g3.wf hc3 ti s) ?_
      intro tt w4 g4 h4
      obtain ⟨c4, hc4, _⟩ := g4.at hc3
      refine (RunsW.xor g4.wf hc4 f tt).mono ?_
      intro g w5 g5 h5 ins a b ai bi sel ha hb hs hai hbi
      have hxv := (all2_iff.mp ha).2 i xi ai hxi hai
      have htv := (all2_iff.mp hb).2 i ti bi hti hbi
      have k1 := h3 ins ai (!sel) (g02.val hxv) (g2.val (h1 ins sel hs))
      have k2 := h4 ins bi sel ((g02.trans g3).val htv) ((g02.trans g3).val hs)
      have k3 := h5 ins _ _ (g4.val k1) k2
      have e : ((ai && !sel) != (bi && sel)) = if sel then bi else ai := by cases ai <;> cases bi <;> cases sel <;> rfl
      rw [e] at k3
      exact k3
    · rintro zs w2 g2 hz
      have hl := hz.length
      simp at hl
      refine RunsW.pure g2.wf ⟨rfl, by simp [← hl], ?_⟩
      intro ins a b sel ha hb hs
      have la := ha.length
      have lb := hb.length
      refine all2_iff.mpr ⟨by simp; split <;> omega, ?_⟩
      intro i g v hg hv
      have hi : i < zs.length := lt_of_getElem? hg
      have ea : a[i]? = some (a[i]'(by omega)) := List.getElem?_eq_getElem (by omega)
      have eb : b[i]? = some (b[i]'(by omega)) := List.getElem?_eq_getElem (by omega)
      have := (all2_iff.mp hz).2 i i g (List.getElem?_range (by omega)) hg ins a b _ _ sel ha hb hs ea eb
      have ev : v = if sel then b[i]'(by omega) else a[i]'(by omega) := by
        split
        · rw [if_pos ‹_›, eb] at hv; cases hv; rfl
        · rw [if_neg ‹_›, ea] at hv; cases hv; rfl
      rw [ev]; exact this
  · rintro z w' ⟨h1, h2, h3⟩
    exact ⟨h1, h2, fun ins a b sel ha hb hs =>
      denotes_iff.mpr (h3 ins a b sel (denotes_iff.mp ha) (denotes_iff.mp hb) hs)⟩

example : ∃ w, ∃ x y : Bits, ∃ s, Gives x.config.cref w (x.mux y 2 s) fun z w' =>
    Denotes w' x.config.cref [true, false, false, true, true] z.bits [false, true] := by
  obtain ⟨cfg, w1, w, x, y, s, hm, hx, hy, lx, ly, ls, hv⟩ := demo_bits 2
  obtain ⟨c, h⟩ := bits_session hm.reachable hm.made hm.since
  obtain rfl := hx
  have hr : Reachable w := later_reachable (later_reachable hm.reachable (by
    have := plays_bitsConfig 0 2 start; rw [hm.made] at this; exact this)) hm.since.later
  match hsb : s.bits, ls with
  | [g], _ =>
    obtain ⟨z, w', e1, e2, _, _, k⟩ := C34_mux (t := y) hr (by rw [h.cref]; exact h.circ) lx ly g
    have := hv [true, false] [false, true] [true] rfl rfl rfl
    rw [← h.cref, hsb] at this
    exact ⟨w, x, y, g, z, w', e1, e2, k _ _ _ true this.1 this.2.1 (this.2.2.2 0 g true rfl rfl)⟩

/-! ### a run -/

def bitsProgram (n : Nat) (f : Bits → Bits → M Bits) : M Unit := do
  let cfg ← BitsConfig.new 0 n
  let x ← Bits.new cfg n
  let y ← Bits.new cfg n
  let z ← f x y
  z.output n

set_option maxRecDepth 100000 in
example : evalOutput (bitsProgram 3 (fun x y => x.mux y 3 0) start).2 100 0 [true, false, false, false, true, true] =
    .ok [false, true, true] := by decide +kernel

end CC.Props
