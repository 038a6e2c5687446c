import Verif.Proofs.TestRuns

/-!
# The tests of `AllocInt`
-/

namespace CC
open Spec Logic Arith Fp

section
variable {w : World} {s : Ref} {K : Ctx} {c : Circuit} {ins : List Bool} {n : Nat}

/-- the word whose bits start at `k` -/
def wordAt (n : Nat) (ins : List Bool) (k : Nat) : BitVec n := BitVec.ofNat n (bitsVal ((ins.drop k).take n))

theorem wordAt_bits {k : Nat} (h : k + n ≤ ins.length) : (ins.drop k).take n = bvBits (wordAt n ins k) :=
  bvBits_of (by simp; omega)

theorem RunsC.newAt (hb : Bld w s K c) (h0 : c.outputLen = 0) {cfg : IntConfig} (hcr : cfg.cref = s)
    (hl : c.inputLen + n ≤ ins.length) :
    RunsC w s (AInt.new cfg n) c fun x c' => Step w s K c c' ∧ c'.inputLen = c.inputLen + n ∧
      IVal w s ins c' x cfg (wordAt n ins c.inputLen) :=
  (RunsC.newI hb h0 hcr hl).mono fun _ _ ⟨h1, h2, _, h4⟩ => ⟨h1, h2, h4 _ (wordAt_bits hl)⟩

theorem V.gate (hb : Bld w s K c) {g : GateId} {b : Bool} (h : V w s ins c g b) : ∃ gate, c.gateMap g = some gate :=
  hb.wfc.some_of_lt (h.lt hb)

/-- one output -/
theorem RunsC.close1 (hb : Bld w s K c) (h0 : c.outputLen = 0) {g : GateId} {b : Bool} (h : V w s ins c g b) :
    RunsC w s (do let _ ← CC.output s g; Pure.pure s) c fun a c2 => a = s ∧ Leaves w s K c c.inputLen ins [b] c2 := by
  obtain ⟨gate, hg⟩ := h.gate hb
  have := RunsC.output1 (c := c) hb.lt [] hg
  rw [withOutputs_nil hb.wfc h0] at this
  refine RunsC.seq this ?_
  rintro _ c1 rfl
  exact RunsC.pure ⟨rfl, c, [g], rfl, hb.refl, rfl, by simp, h, trivial⟩

/-- two outputs -/
theorem RunsC.close2 (hb : Bld w s K c) (h0 : c.outputLen = 0) {g g' : GateId} {b b' : Bool} (h : V w s ins c g b)
    (h' : V w s ins c g' b') (hp : Before c g g') :
    RunsC w s (do let _ ← CC.output s g; let _ ← CC.output s g'; Pure.pure s) c fun a c2 =>
      a = s ∧ Leaves w s K c c.inputLen ins [b, b'] c2 := by
  obtain ⟨gate, hg⟩ := h.gate hb
  obtain ⟨gate', hg'⟩ := h'.gate hb
  have := RunsC.output1 (c := c) hb.lt [] hg
  rw [withOutputs_nil hb.wfc h0] at this
  refine RunsC.seq this ?_
  rintro _ c1 rfl
  refine RunsC.seq (RunsC.output1 (c := c) hb.lt [g] hg') ?_
  rintro _ c1 rfl
  exact RunsC.pure ⟨rfl, c, [g, g'], rfl, hb.refl, rfl, by simp [hp.early.apart hb], h, h', trivial⟩

theorem Leaves.after {c1 c2 : Circuit} {m m' : Nat} {outs : List Bool} (h : Step w s K c c1)
    (hl : Leaves w s K c1 m ins outs c2) (hm : m = m') : Leaves w s K c m' ins outs c2 := by
  obtain ⟨c', gs, h1, h2, h3, h4, h5⟩ := hl
  exact ⟨c', gs, h1, h.trans h2, h3.trans hm, h4, h5⟩

/-- what an integer configuration guarantees to a test -/
def IntReady (n : Nat) (w : World) (N : Nat) (st : StoreRef) (r : Ref) (cfg : IntConfig) : Prop :=
  cfg.cref = r ∧ IntOk w N st n cfg

theorem configures_int (hn : 1 ≤ n) : Configures (fun r => IntConfig.new r n) (IntReady n) := by
  intro w r c0 N hw hr hN
  obtain ⟨cfg, w', e, ha, hcr, hok⟩ := intConfig_ok hw hr hN hn
  exact ⟨cfg, w', e, ha, hcr, hok⟩

end

theorem sub_mul_bv {n : Nat} (x y z : BitVec n) : (x - y) * z = x * z - y * z := by grind

theorem sub_add_one_bv {n : Nat} (x : BitVec n) : x - (x + 1) = -1 := by grind

theorem add_one_sub_bv {n : Nat} (x : BitVec n) : x + 1 - x = 1 := by grind

theorem sub_sub_one_bv {n : Nat} (x : BitVec n) : x - (x - 1) = 1 := by grind

theorem sub_one_sub_bv {n : Nat} (x : BitVec n) : x - 1 - x = -1 := by grind

theorem msb_one_bv {n : Nat} (hn : 2 ≤ n) : (1 : BitVec n).msb = false := by
  rw [BitVec.msb_eq_getLsbD_last]; simp [BitVec.getLsbD_one]; omega

theorem msb_neg_one_bv {n : Nat} (hn : 1 ≤ n) : (-1 : BitVec n).msb = true := by
  rw [show (-1 : BitVec n) = BitVec.allOnes n from BitVec.neg_one_eq_allOnes, BitVec.msb_eq_getLsbD_last]; simp; omega

theorem ne_of_sub_bv {n : Nat} {x y : BitVec n} (hn : 1 ≤ n) (h : x - y = 1) : (x == y) = false := by
  rw [beq_eq_false_iff_ne]
  rintro rfl
  rw [BitVec.sub_self] at h
  have := congrArg BitVec.toNat h
  simp at this
  omega

theorem addSubMul_ok {w : World} (hw : Reachable w) {n : Nat} (hn : 1 ≤ n) :
    ∃ r w', Tests.addSubMul n w = (.ok r, w') ∧
      ∃ F, ∀ fuel ≥ F, ∀ ins : List Bool, ins.length = 3 * n → evalOutput w' fuel r ins = .ok [true] := by
  refine test_ok (configures_int hn) (fun r => plays_intConfig r n) (fun r cfg => ?_) (f := fun _ => [true]) ?_ hw
  · unfold AInt.eq
    playsF
    all_goals exact plays_output _ _
  · rintro w s K c cfg hb h0 hi0 ⟨hcr, hok⟩ hcall ins hins
    have hi : IntD w (fun d => d < K.out ∨ d = s) K.st n cfg := hok.toD hcall
    refine RunsC.seq (RunsC.newAt (ins := ins) hb h0 hcr (by omega)) ?_
    rintro x c1 ⟨s1, l1, x1⟩
    have o1 := s1.outputLen.trans h0
    refine RunsC.seq (RunsC.newAt (ins := ins) s1.bld o1 hcr (by omega)) ?_
    rintro y c2 ⟨s2, l2, y2⟩
    have o2 := s2.outputLen.trans o1
    have x2 := x1.step s1.bld s2
    refine RunsC.seq (RunsC.newAt (ins := ins) s2.bld o2 hcr (by omega)) ?_
    rintro z c3 ⟨s3, l3, z3⟩
    have o3 := s3.outputLen.trans o2
    have x3 := x2.step s2.bld s3
    have y3 := y2.step s2.bld s3
    refine RunsC.seq (RunsC.sub s3.bld o3 hi hcr x3 y3) ?_
    rintro d c4 ⟨n4, _⟩
    have s4 := n4.grew.step
    have o4 := s4.outputLen.trans o3
    have x4 := x3.step s3.bld s4
    have y4 := y3.step s3.bld s4
    have z4 := z3.step s3.bld s4
    refine RunsC.seq (RunsC.mul s4.bld o4 hi hcr n4.val z4) ?_
    rintro out1 c5 ⟨n5, _⟩
    have s5 := n5.grew.step
    have o5 := s5.outputLen.trans o4
    have x5 := x4.step s4.bld s5
    have y5 := y4.step s4.bld s5
    have z5 := z4.step s4.bld s5
    refine RunsC.seq (RunsC.mul s5.bld o5 hi hcr x5 z5) ?_
    rintro xz c6 ⟨n6, _⟩
    have s6 := n6.grew.step
    have o6 := s6.outputLen.trans o5
    have y6 := y5.step s5.bld s6
    have z6 := z5.step s5.bld s6
    have u6 := n5.val.step s5.bld s6
    refine RunsC.seq (RunsC.mul s6.bld o6 hi hcr y6 z6) ?_
    rintro yz c7 ⟨n7, _⟩
    have s7 := n7.grew.step
    have o7 := s7.outputLen.trans o6
    have u7 := u6.step s6.bld s7
    have xz7 := n6.val.step s6.bld s7
    refine RunsC.seq (RunsC.sub s7.bld o7 hi hcr xz7 n7.val) ?_
    rintro out2 c8 ⟨n8, _⟩
    have s8 := n8.grew.step
    have o8 := s8.outputLen.trans o7
    have u8 := u7.step s7.bld s8
    refine RunsC.seq (RunsC.eqI s8.bld o8 hi hcr u8 n8.val) ?_
    intro e c9 n9
    have s9 := n9.grew.step
    have o9 := s9.outputLen.trans o8
    have v9 := n9.v
    rw [show (((wordAt n ins c.inputLen - wordAt n ins c1.inputLen) * wordAt n ins c2.inputLen ==
      wordAt n ins c.inputLen * wordAt n ins c2.inputLen - wordAt n ins c1.inputLen * wordAt n ins c2.inputLen)) = true by
        rw [sub_mul_bv]; simp] at v9
    refine (RunsC.close1 s9.bld o9 v9).mono ?_
    rintro a c10 ⟨rfl, hl⟩
    refine ⟨rfl, hl.after (((((((((s1.trans s2).trans s3).trans s4).trans s5).trans s6).trans s7).trans s8).trans s9)) ?_⟩
    rw [n9.grew.inputLen, n8.grew.inputLen, n7.grew.inputLen, n6.grew.inputLen, n5.grew.inputLen, n4.grew.inputLen]
    omega

theorem less_ok {w : World} (hw : Reachable w) {n : Nat} (hn : 2 ≤ n) :
    ∃ r w', Tests.less n w = (.ok r, w') ∧
      ∃ F, ∀ fuel ≥ F, ∀ ins : List Bool, ins.length = n → evalOutput w' fuel r ins = .ok [true, false] := by
  refine test_ok (configures_int (by omega)) (fun r => plays_intConfig r n) (fun r cfg => ?_) (f := fun _ => [true, false]) ?_ hw
  · unfold AInt.less
    playsF
    all_goals exact plays_output _ _
  · rintro w s K c cfg hb h0 hi0 ⟨hcr, hok⟩ hcall ins hins
    have hi : IntD w (fun d => d < K.out ∨ d = s) K.st n cfg := hok.toD hcall
    refine RunsC.seq (RunsC.newAt (ins := ins) hb h0 hcr (by omega)) ?_
    rintro x c1 ⟨s1, l1, x1⟩
    have o1 := s1.outputLen.trans h0
    refine RunsC.seq (RunsC.oneI (ins := ins) (n := n) s1.bld (by omega) hcr) ?_
    intro one c2 n2
    have s2 := n2.grew.step
    have o2 := s2.outputLen.trans o1
    have x2 := x1.step s1.bld s2
    refine RunsC.seq (RunsC.add s2.bld o2 hi hcr x2 n2.val) ?_
    rintro y c3 ⟨n3, _⟩
    have s3 := n3.grew.step
    have o3 := s3.outputLen.trans o2
    have x3 := x2.step s2.bld s3
    refine RunsC.seq (RunsC.less s3.bld o3 (by omega) hi hcr x3 n3.val) ?_
    intro l c4 n4
    have s4 := n4.grew.step
    have o4 := s4.outputLen.trans o3
    have x4 := x3.step s3.bld s4
    have y4 := n3.val.step s3.bld s4
    refine RunsC.seq (RunsC.less s4.bld o4 (by omega) hi hcr y4 x4) ?_
    intro k c5 n5
    have s5 := n5.grew.step
    have o5 := s5.outputLen.trans o4
    have v4 := s5.v s4.bld n4.v
    have v5 := n5.v
    rw [sub_add_one_bv, msb_neg_one_bv (by omega)] at v4
    rw [add_one_sub_bv, msb_one_bv hn] at v5
    refine (RunsC.close2 s5.bld o5 v4 v5 ?_).mono ?_
    · obtain ⟨L, _, k2, k3⟩ := n4.tidy
      obtain ⟨L', k4, _, k6⟩ := n5.tidy
      exact ⟨L, _, _, L', _, _, k3.ext s5.ext, k6, .inr (by omega), by simp, by simp⟩
    rintro a c6 ⟨rfl, hl⟩
    refine ⟨rfl, hl.after ((((s1.trans s2).trans s3).trans s4).trans s5) ?_⟩
    rw [n5.grew.inputLen, n4.grew.inputLen, n3.grew.inputLen, n2.grew.inputLen]
    omega

theorem larger_ok {w : World} (hw : Reachable w) {n : Nat} (hn : 2 ≤ n) :
    ∃ r w', Tests.larger n w = (.ok r, w') ∧
      ∃ F, ∀ fuel ≥ F, ∀ ins : List Bool, ins.length = n → evalOutput w' fuel r ins = .ok [true, false] := by
  refine test_ok (configures_int (by omega)) (fun r => plays_intConfig r n) (fun r cfg => ?_) (f := fun _ => [true, false]) ?_ hw
  · unfold AInt.larger
    playsF
    all_goals exact plays_output _ _
  · rintro w s K c cfg hb h0 hi0 ⟨hcr, hok⟩ hcall ins hins
    have hi : IntD w (fun d => d < K.out ∨ d = s) K.st n cfg := hok.toD hcall
    refine RunsC.seq (RunsC.newAt (ins := ins) hb h0 hcr (by omega)) ?_
    rintro x c1 ⟨s1, l1, x1⟩
    have o1 := s1.outputLen.trans h0
    refine RunsC.seq (RunsC.oneI (ins := ins) (n := n) s1.bld (by omega) hcr) ?_
    intro one c2 n2
    have s2 := n2.grew.step
    have o2 := s2.outputLen.trans o1
    have x2 := x1.step s1.bld s2
    refine RunsC.seq (RunsC.sub s2.bld o2 hi hcr x2 n2.val) ?_
    rintro y c3 ⟨n3, _⟩
    have s3 := n3.grew.step
    have o3 := s3.outputLen.trans o2
    have x3 := x2.step s2.bld s3
    refine RunsC.seq (RunsC.larger s3.bld o3 (by omega) hi hcr x3 n3.val) ?_
    intro l c4 n4
    have s4 := n4.grew.step
    have o4 := s4.outputLen.trans o3
    have x4 := x3.step s3.bld s4
    have y4 := n3.val.step s3.bld s4
    refine RunsC.seq (RunsC.larger s4.bld o4 (by omega) hi hcr y4 x4) ?_
    intro k c5 n5
    have s5 := n5.grew.step
    have o5 := s5.outputLen.trans o4
    have v4 := s5.v s4.bld n4.v
    have v5 := n5.v
    rw [sub_sub_one_bv, msb_one_bv hn, ne_of_sub_bv (by omega) (sub_sub_one_bv _)] at v4
    rw [sub_one_sub_bv, msb_neg_one_bv (by omega)] at v5
    refine (RunsC.close2 s5.bld o5 v4 v5 ?_).mono ?_
    · obtain ⟨L, _, k2, k3⟩ := n4.tidy
      obtain ⟨L', k4, _, k6⟩ := n5.tidy
      exact ⟨L, _, _, L', _, _, k3.ext s5.ext, k6, .inr (by omega), by simp, by simp⟩
    rintro a c6 ⟨rfl, hl⟩
    refine ⟨rfl, hl.after ((((s1.trans s2).trans s3).trans s4).trans s5) ?_⟩
    rw [n5.grew.inputLen, n4.grew.inputLen, n3.grew.inputLen, n2.grew.inputLen]
    omega

end CC
