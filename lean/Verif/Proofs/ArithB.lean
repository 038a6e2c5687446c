import Verif.Model.Arith
import Verif.Proofs.LogicB

/-! # The modules of `AllocInt` -/

namespace CC
open Spec Arith

section loops
variable {w : World} {s : Ref} {K : Ctx} {c : Circuit} {ins : List Bool}

/-- the closing loop `for g in gs { output(g) }` -/
theorem RunsC.outputsAll (hb : Bld w s K c) (h0 : c.outputLen = 0) {gs : List GateId} {bs : List Bool} (hr : Ready c gs)
    (hv : All2 (V w s ins c) gs bs) :
    RunsC w s (M.mapList (fun g => CC.output s g) gs) c fun _ c' =>
      Bld w s K c' ∧ Outs w s ins c' bs ∧ c'.inputLen = c.inputLen := by
  have hl := hv.length
  refine (RunsC.mapList (I := fun acc c' => Bld w s K c' ∧ Outs w s ins c' (bs.take acc.length) ∧
    c'.inputLen = c.inputLen ∧ ExtC c c' ∧ c'.gateMap = c.gateMap) gs [] [] rfl
    ⟨hb, by simpa using Outs.nil h0, rfl, ExtC.refl c, rfl⟩ ?_).mono ?_
  · rintro p g q acc c1 hp hacc ⟨b1, b2, b3, b4, b5⟩
    simp only [List.nil_append] at hp
    have hg : gs[acc.length]? = some g := by rw [hp, hacc]; simp
    obtain ⟨g', b, hg', hbit, hgv⟩ := hv.get (lt_of_getElem? hg)
    rw [hg] at hg'; cases hg'
    have hgv1 := val_ext hb b4 hgv
    have hlen := b2.1
    rw [List.length_take] at hlen
    have hlt := lt_of_getElem? hg
    have hu : Unread c1 g := by
      intro x gate hx; rw [b5] at hx; exact hr.1 g (List.mem_of_getElem? hg) x gate hx
    have hpos := hr.2 _ g hg
    refine (RunsC.output b1 hgv1 hu (by omega)).mono ?_
    intro _ c2 hn
    refine ⟨hn.bld, ?_, hn.inputLen.trans b3, b4.trans hn.ext, hn.gateMap.trans b5⟩
    have := b2.output b1 hn hgv1
    rw [List.length_append]
    simp only [List.length_cons, List.length_nil, Nat.zero_add]
    rw [List.take_add_one, hbit]
    exact this
  · rintro ys c' ⟨⟨b1, b2, b3, _⟩, hy⟩
    refine ⟨b1, ?_, b3⟩
    rw [List.nil_append, hy, hl, List.take_length] at b2
    exact b2

end loops

/-- addition modulo `2^n` -/
def addF (n : Nat) (a b : List Bool) : List Bool := bitsOf n (bitsVal a + bitsVal b)
/-- subtraction modulo `2^n` -/
def subF (n : Nat) (a b : List Bool) : List Bool := bitsOf n (bitsVal a + (2 ^ n - bitsVal b))
/-- multiplication modulo `2^n` -/
def mulF (n : Nat) (a b : List Bool) : List Bool := bitsOf n (bitsVal a * bitsVal b)
/-- the sign of the difference modulo `2^n` -/
def lessF (n : Nat) (a b : List Bool) : Bool := (bitsVal a + (2 ^ n - bitsVal b)).testBit (n - 1)

theorem bits_map {n : Nat} {bs : List Bool} (h : bs.length = n) : bs = (List.range n).map (bitsVal bs).testBit := by
  have := bitsOf_bitsVal h
  unfold bitsOf at this; exact this.symm

theorem map_range_get (φ : Nat → Bool) {n i : Nat} (h : i < n) : ((List.range n).map φ)[i]? = some (φ i) := by
  simp [List.getElem?_range h]

theorem map_range_get' (φ : Nat → Bool) {n i : Nat} {b : Bool} (h : i < n) (hb : ((List.range n).map φ)[i]? = some b) :
    b = φ i := by rw [map_range_get φ h] at hb; cases hb; rfl

theorem range_cons {n : Nat} (hn : 1 ≤ n) : List.range n = 0 :: rangeFromTo 1 n := by
  obtain ⟨m, rfl⟩ : ∃ m, n = m + 1 := ⟨n - 1, by omega⟩
  rw [List.range_succ_eq_map]
  simp only [rangeFromTo, Nat.add_sub_cancel]
  congr 1
  apply List.map_congr_left
  intro x _; omega

section
variable {w : World} {r : Ref} {c0 : Circuit} {n N : Nat}

theorem buildAdd_ok (hw : WFw w) (hr : w.circs[r]? = some c0) (hN : N ≤ w.circs.length) (hn : 1 ≤ n) :
    Builds w N c0.storage (buildAdd r n) (2 * n) n (bin n (addF n)) := by
  refine Builds.mk hw hr hN (by intro ins hl; simp [bin, addF]) ?_
  intro w1 s K mid c1 ins _ hb he hl
  refine RunsC.two (k := fun a b => _) hb he n hl ?_
  intro a b c2 hb2 h0 hin ha hbv
  rw [bits_map (n := n) (bs := ins.take n) (by simp; omega)] at ha
  rw [bits_map (n := n) (bs := ins.drop n) (by simp; omega)] at hbv
  have hgoal : bin n (addF n) ins = bitsOf n (bitsVal (ins.take n) + bitsVal (ins.drop n)) := rfl
  rw [hgoal]
  generalize bitsVal (ins.take n) = A at *
  generalize bitsVal (ins.drop n) = B at *
  have hla := ha.length
  have hlb := hbv.length
  simp only [List.length_map, List.length_range] at hla hlb
  have hA : ∀ i, i < n → ∃ x, a[i]? = some x ∧ V w1 s ins c2 x (A.testBit i) := by
    intro i hi
    obtain ⟨x, b1, hx, hbit1, hv1⟩ := ha.get (i := i) (by omega)
    rw [map_range_get' _ hi hbit1] at hv1
    exact ⟨x, hx, hv1⟩
  have hB : ∀ i, i < n → ∃ x, b[i]? = some x ∧ V w1 s ins c2 x (B.testBit i) := by
    intro i hi
    obtain ⟨x, b1, hx, hbit1, hv1⟩ := hbv.get (i := i) (by omega)
    rw [map_range_get' _ hi hbit1] at hv1
    exact ⟨x, hx, hv1⟩
  -- generate and propagate bits
  refine RunsC.seq (RunsC.mapRange (I := fun (acc : List (GateId × GateId)) c => Grew w1 s K c2 c ∧
      All2 (V w1 s ins c) (acc.map Prod.fst) ((List.range acc.length).map fun i => A.testBit i && B.testBit i) ∧
      All2 (V w1 s ins c) (acc.map Prod.snd) ((List.range acc.length).map fun i => A.testBit i || B.testBit i)) n
      ⟨hb2.grew, by simp [All2], by simp [All2]⟩ ?_) ?_
  · rintro i acc c hi hacc ⟨hg, h1, h2⟩
    obtain ⟨x, hx, hxv⟩ := hA i hi
    obtain ⟨y, hy, hyv⟩ := hB i hi
    have hbc := hg.step.bld
    have h0c := hg.out0 h0
    refine RunsC.bind (RunsC.idx hx ?_)
    refine RunsC.bind (RunsC.idx hy ?_)
    refine RunsC.seq (RunsC.and (ins := ins) hbc (hg.step.v hb2 hxv) (hg.step.v hb2 hyv) (hbc.notOut h0c _)
      (hbc.notOut h0c _)) ?_
    intro g c3 hn1
    have hbc3 := hn1.step.bld
    have h0c3 := hn1.grew.out0 h0c
    have hg3 := hg.trans hn1.grew
    refine RunsC.seq (RunsC.or (ins := ins) hbc3 (hg3.step.v hb2 hxv) (hg3.step.v hb2 hyv) (hbc3.notOut h0c3 _)
      (hbc3.notOut h0c3 _)) ?_
    intro p c4 hn2
    refine RunsC.pure ⟨hg3.trans hn2.grew, ?_, ?_⟩
    · rw [List.length_append, List.length_singleton, List.range_succ, List.map_append, List.map_append]
      refine ((hn1.grew.trans hn2.grew).step.vs hbc h1).append ⟨?_, trivial⟩
      rw [hacc]
      exact hn2.step.v hbc3 hn1.v
    · rw [List.length_append, List.length_singleton, List.range_succ, List.map_append, List.map_append]
      refine ((hn1.grew.trans hn2.grew).step.vs hbc h2).append ⟨?_, trivial⟩
      rw [hacc]
      exact hn2.v
  rintro gps c3 ⟨⟨hg3, h1, h2⟩, hlen⟩
  rw [hlen] at h1 h2
  have hb3 := hg3.step.bld
  have h03 := hg3.out0 h0
  have hG : ∀ i, i < n → ∃ x, (gps.map Prod.fst)[i]? = some x ∧ V w1 s ins c3 x (A.testBit i && B.testBit i) := by
    intro i hi
    obtain ⟨x, b1, hx, hbit1, hv1⟩ := h1.get (i := i) (by simp; omega)
    rw [map_range_get' _ hi hbit1] at hv1
    exact ⟨x, hx, hv1⟩
  have hP : ∀ i, i < n → ∃ x, (gps.map Prod.snd)[i]? = some x ∧ V w1 s ins c3 x (A.testBit i || B.testBit i) := by
    intro i hi
    obtain ⟨x, b1, hx, hbit1, hv1⟩ := h2.get (i := i) (by simp; omega)
    rw [map_range_get' _ hi hbit1] at hv1
    exact ⟨x, hx, hv1⟩
  -- carries
  obtain ⟨g0, hg0, hg0v⟩ := hG 0 hn
  refine RunsC.bind (RunsC.idx hg0 ?_)
  refine RunsC.seq (RunsC.foldFromTo (I := fun i cs c => Grew w1 s K c3 c ∧
      All2 (V w1 s ins c) cs ((List.range i).map fun j => carry A B (j + 1))) 1 n hn
      ⟨hb3.grew, ?_, trivial⟩ ?_) ?_
  · show V w1 s ins c3 g0 (carry A B (0 + 1))
    rw [carry_succ, carry_zero]; simpa using hg0v
  · rintro i cs c hi1 hi ⟨hg, hc⟩
    obtain ⟨p, hp, hpv⟩ := hP i hi
    obtain ⟨g, hgi, hgv⟩ := hG i hi
    have hcl := hc.length
    simp only [List.length_map, List.length_range] at hcl
    obtain ⟨cp, b1, hcp, hbit1, hcv⟩ := hc.get (i := i - 1) (by omega)
    rw [map_range_get' _ (by omega) hbit1] at hcv
    have hbc := hg.step.bld
    have h0c := hg.out0 h03
    refine RunsC.bind (RunsC.idx hp ?_)
    refine RunsC.bind (RunsC.idx hcp ?_)
    refine RunsC.seq (RunsC.and (ins := ins) hbc (hg.step.v hb3 hpv) hcv (hbc.notOut h0c _) (hbc.notOut h0c _)) ?_
    intro pc c5 hn1
    have hb5 := hn1.step.bld
    have h05 := hn1.grew.out0 h0c
    have hg5 := hg.trans hn1.grew
    refine RunsC.bind (RunsC.idx hgi ?_)
    refine RunsC.seq (RunsC.or (ins := ins) hb5 (hg5.step.v hb3 hgv) hn1.v (hb5.notOut h05 _) (hb5.notOut h05 _)) ?_
    intro co c6 hn2
    refine RunsC.pure ⟨hg5.trans hn2.grew, ?_⟩
    rw [List.range_succ, List.map_append]
    refine ((hn1.grew.trans hn2.grew).step.vs hbc hc).append ⟨?_, trivial⟩
    have := hn2.v
    rw [show i - 1 + 1 = i by omega] at this
    show V w1 s ins c6 co (carry A B (i + 1))
    rw [carry_succ]; exact this
  rintro cs c4 ⟨hg4, hc⟩
  have hb4 := hg4.step.bld
  have h04 := hg4.out0 h03
  have hg24 := hg3.trans hg4
  -- sums
  obtain ⟨x0, hx0, hx0v⟩ := hA 0 hn
  obtain ⟨y0, hy0, hy0v⟩ := hB 0 hn
  have hem := hb4.em (ins := ins) h04
  refine RunsC.bind (RunsC.idx hx0 ?_)
  refine RunsC.bind (RunsC.idx hy0 ?_)
  refine RunsC.seq (RunsC.xor (ins := ins) hb4 (hg24.step.v hb2 hx0v) (hg24.step.v hb2 hy0v) (hb4.notOut h04 _)
    (hb4.notOut h04 _)) ?_
  intro s0 c5 hn5
  refine RunsC.seq (hem.emit hn5) ?_
  intro _ c6 hem6
  refine RunsC.seq (RunsC.emitLoop 1 n (fun i => (A + B).testBit i) hem6 ?_) ?_
  · intro i bs c hi1 hi hemc
    obtain ⟨x, hx, hxv⟩ := hA i hi
    obtain ⟨y, hy, hyv⟩ := hB i hi
    have hcl := hc.length
    simp only [List.length_map, List.length_range] at hcl
    obtain ⟨cp, b1, hcp, hbit1, hcv⟩ := hc.get (i := i - 1) (by omega)
    rw [map_range_get' _ (by omega) hbit1, show i - 1 + 1 = i by omega] at hcv
    have hx4 := hg24.step.v hb2 hxv
    have hy4 := hg24.step.v hb2 hyv
    refine RunsC.bind (RunsC.idx hx ?_)
    refine RunsC.bind (RunsC.idx hy ?_)
    refine RunsC.seq (RunsC.xor (ins := ins) hemc.bld (hemc.v hb4 hx4) (hemc.v hb4 hy4) (hemc.notOut (hx4.lt hb4))
      (hemc.notOut (hy4.lt hb4))) ?_
    intro axb c7 hn7
    have hem7 := hemc.step hn7.grew
    refine RunsC.bind (RunsC.idx hcp ?_)
    refine RunsC.seq (RunsC.xor (ins := ins) hem7.bld hn7.v (hem7.v hb4 hcv) (hn7.notOut hemc.bld)
      (hem7.notOut (hcv.lt hb4))) ?_
    intro o c8 hn8
    refine (hem7.emit hn8).mono ?_
    intro _ c9 h
    rw [testBit_sum]; exact h
  · intro _ c' hemc
    refine RunsC.pure ⟨rfl, hemc.bld, ?_, by rw [hemc.inputLen, hg4.inputLen, hg3.inputLen, hin]⟩
    have := hemc.outs
    have e : bitsOf n (A + B) = [] ++ [A.testBit 0 != B.testBit 0] ++ (rangeFromTo 1 n).map fun i => (A + B).testBit i := by
      unfold bitsOf
      rw [range_cons hn, List.map_cons, testBit_sum A B 0, carry_zero]
      simp
    rw [e]; exact this

theorem buildSub_ok {m1 : ModuleId} (hw : WFw w) (hr : w.circs[r]? = some c0) (hN : N ≤ w.circs.length) (hn : 1 ≤ n)
    (hm : ModOk w N c0.storage m1 (2 * n) n (bin n (addF n))) :
    Builds w N c0.storage (buildSub r n m1) (2 * n) n (bin n (subF n)) := by
  refine Builds.mk hw hr hN (by intro ins hl; simp [bin, subF]) ?_
  intro w1 s K mid c1 ins hmods hb he hl
  refine RunsC.two (k := fun a b => _) hb he n hl ?_
  intro a b c2 hb2 h0 hin ha hbv
  have hlb := hbv.length
  rw [List.length_drop] at hlb
  refine RunsC.seq (RunsC.mapVals (ins := ins) hb2 n (fun i => !((ins.drop n)[i]?.getD false)) ?_) ?_
  · intro i c hi hg
    obtain ⟨y, b2, hy, hbit2, hv2⟩ := hbv.get (i := i) (by omega)
    refine RunsC.bind (RunsC.idx hy ?_)
    have hbc := hg.step.bld
    have h0c := hg.out0 h0
    refine (RunsC.not (ins := ins) hbc (hg.step.v hb2 hv2) (hbc.notOut h0c _)).mono ?_
    intro g c' hn1
    refine ⟨hn1.grew, ?_⟩
    rw [hbit2]; exact hn1.v
  rintro flipped c3 ⟨hg3, hf⟩
  have hb3 := hg3.step.bld
  have h03 := hg3.out0 h0
  refine RunsC.seq (RunsC.constant (ins := ins) hb3 true) ?_
  intro one c4 hn4
  have hb4 := hn4.step.bld
  have h04 := hn4.grew.out0 h03
  refine RunsC.seq (RunsC.consts (ins := ins) hb4 false (n - 1)) ?_
  rintro zeros c5 ⟨hg5, hz⟩
  have hb5 := hg5.step.bld
  have h05 := hg5.out0 h04
  have hg35 := hn4.grew.trans hg5
  have hin1 : All2 (V w1 s ins c5) (flipped ++ [one] ++ zeros)
      ((List.range n).map (fun i => !((ins.drop n)[i]?.getD false)) ++ bitsOf n 1) := by
    rw [bitsOf_one hn, List.append_assoc]
    refine (hg35.step.vs hb3 hf).append (All2.append ?_ hz)
    exact ⟨hg5.step.v hb4 hn4.v, trivial⟩
  refine RunsC.seq (RunsC.module (ins := ins) hb5 (hmods _ _ _ _ hm) hin1 (by simp; omega)
    (fun x _ => hb5.notOut h05 x)) ?_
  rintro compB c6 ⟨hn6, _⟩
  have hb6 := hn6.step.bld
  have h06 := hn6.grew.out0 h05
  have hg26 := (hg3.trans hg35).trans hn6.grew
  have ha6 := hg26.step.vs hb2 ha
  have hflip : (List.range n).map (fun i => !((ins.drop n)[i]?.getD false)) = (ins.drop n).map (!·) := by
    apply List.ext_getElem?
    intro i
    by_cases h : i < n
    · rw [map_range_get _ h, List.getElem?_map, List.getElem?_eq_getElem (show i < (ins.drop n).length by simp; omega)]; rfl
    · rw [List.getElem?_eq_none (by simp; omega), List.getElem?_eq_none (by simp; omega)]
  have hcomp : bin n (addF n) ((List.range n).map (fun i => !((ins.drop n)[i]?.getD false)) ++ bitsOf n 1)
      = bitsOf n (2 ^ n - bitsVal (ins.drop n)) := by
    rw [hflip]
    have hl' : ((ins.drop n).map (!·)).length = n := by simp; omega
    unfold bin addF
    rw [List.take_left' hl', List.drop_left' hl', bitsVal_bitsOf]
    have := bitsVal_not (ins.drop n)
    rw [show (ins.drop n).length = n by simp; omega] at this
    apply bitsOf_congr
    rw [Nat.add_mod_mod]
    congr 1
    omega
  rw [hcomp] at hn6
  have hin2 := ha6.append hn6.v
  refine RunsC.seq (RunsC.module (ins := ins) hb6 (hmods _ _ _ _ hm) hin2 (by simp; omega)
    (fun x _ => hb6.notOut h06 x)) ?_
  rintro results c7 ⟨hn7, _⟩
  have hb7 := hn7.step.bld
  have h07 := hn7.grew.out0 h06
  refine RunsC.seq (RunsC.outputsAll (ins := ins) hb7 h07 (hn7.ready hb6) hn7.v) ?_
  rintro _ c' ⟨k1, k2, k3⟩
  refine RunsC.pure ⟨rfl, k1, ?_, by rw [k3, hn7.inputLen, hg26.inputLen, hin]⟩
  have hl' : (ins.take n).length = n := by simp; omega
  have e : bin n (addF n) (ins.take n ++ bitsOf n (2 ^ n - bitsVal (ins.drop n))) = bin n (subF n) ins := by
    unfold bin addF subF
    rw [List.take_left' hl', List.drop_left' hl', bitsVal_bitsOf]
    apply bitsOf_congr
    rw [Nat.add_mod_mod]
  rw [e] at k2; exact k2

/-- the bits of `A * 2^i` or of `0` -/
theorem row_bits {n i A : Nat} (b : Bool) (hi : i ≤ n) :
    List.replicate i false ++ (List.range (n - i)).map (fun j => A.testBit j && b) = bitsOf n (2 ^ i * (A * b.toNat)) := by
  obtain ⟨k, rfl⟩ : ∃ k, n = i + k := ⟨n - i, by omega⟩
  rw [bitsOf_add_split, Nat.mul_div_cancel_left _ (Nat.two_pow_pos i)]
  congr 1
  · rw [← bitsOf_zero]; apply bitsOf_congr; simp
  · rw [show i + k - i = k by omega]
    unfold bitsOf
    apply List.map_congr_left
    intro j _
    cases b <;> simp

theorem partial_product (A B i : Nat) : A * (B % 2 ^ i) + 2 ^ i * (A * (B.testBit i).toNat) = A * (B % 2 ^ (i + 1)) := by
  rw [mod_succ_bit, Nat.mul_add, Nat.mul_left_comm]

theorem buildMul_ok {m1 : ModuleId} (hw : WFw w) (hr : w.circs[r]? = some c0) (hN : N ≤ w.circs.length)
    (hm : ModOk w N c0.storage m1 (2 * n) n (bin n (addF n))) :
    Builds w N c0.storage (buildMul r n m1) (2 * n) n (bin n (mulF n)) := by
  refine Builds.mk hw hr hN (by intro ins hl; simp [bin, mulF]) ?_
  intro w1 s K mid c1 ins hmods hb he hl
  refine RunsC.two (k := fun a b => _) hb he n hl ?_
  intro a b c2 hb2 h0 hin ha hbv
  have hBlt : bitsVal (ins.drop n) < 2 ^ n := by
    have := bitsVal_lt (ins.drop n)
    rwa [show (ins.drop n).length = n by simp; omega] at this
  rw [bits_map (n := n) (bs := ins.take n) (by simp; omega)] at ha
  rw [bits_map (n := n) (bs := ins.drop n) (by simp; omega)] at hbv
  have hgoal : bin n (mulF n) ins = bitsOf n (bitsVal (ins.take n) * bitsVal (ins.drop n)) := rfl
  rw [hgoal]
  generalize bitsVal (ins.take n) = A at *
  generalize bitsVal (ins.drop n) = B at *
  have hla := ha.length
  have hlb := hbv.length
  simp only [List.length_map, List.length_range] at hla hlb
  have hA : ∀ i, i < n → ∃ x, a[i]? = some x ∧ V w1 s ins c2 x (A.testBit i) := by
    intro i hi
    obtain ⟨x, b1, hx, hbit1, hv1⟩ := ha.get (i := i) (by omega)
    rw [map_range_get' _ hi hbit1] at hv1
    exact ⟨x, hx, hv1⟩
  have hB : ∀ i, i < n → ∃ x, b[i]? = some x ∧ V w1 s ins c2 x (B.testBit i) := by
    intro i hi
    obtain ⟨x, b1, hx, hbit1, hv1⟩ := hbv.get (i := i) (by omega)
    rw [map_range_get' _ hi hbit1] at hv1
    exact ⟨x, hx, hv1⟩
  refine RunsC.seq (RunsC.consts (ins := ins) hb2 false n) ?_
  rintro sum0 c3 ⟨hg3, hz⟩
  refine RunsC.seq (RunsC.foldRange (I := fun i sum c => Grew w1 s K c2 c ∧
      All2 (V w1 s ins c) sum (bitsOf n (A * (B % 2 ^ i))) ∧ (i = 0 ∨ Ready c sum)) n
      ⟨hg3, by rw [Nat.pow_zero, Nat.mod_one, Nat.mul_zero, bitsOf_zero]; exact hz, Or.inl rfl⟩ ?_) ?_
  · rintro i sum c hi ⟨hg, hs, _⟩
    have hbc := hg.step.bld
    have h0c := hg.out0 h0
    refine RunsC.seq (RunsC.consts (ins := ins) hbc false i) ?_
    rintro zeros c4 ⟨hg4, hz4⟩
    have hb4 := hg4.step.bld
    have h04 := hg4.out0 h0c
    have hg24 := hg.trans hg4
    refine RunsC.seq (RunsC.mapVals (ins := ins) hb4 (n - i) (fun j => A.testBit j && B.testBit i) ?_) ?_
    · intro j c5 hj hg5
      obtain ⟨x, hx, hxv⟩ := hA j (by omega)
      obtain ⟨y, hy, hyv⟩ := hB i hi
      have hg25 := hg24.trans hg5
      have hb5 := hg5.step.bld
      have h05 := hg5.out0 h04
      refine RunsC.bind (RunsC.idx hx ?_)
      refine RunsC.bind (RunsC.idx hy ?_)
      refine (RunsC.and (ins := ins) hb5 (hg25.step.v hb2 hxv) (hg25.step.v hb2 hyv) (hb5.notOut h05 _)
        (hb5.notOut h05 _)).mono ?_
      intro g c6 hn1
      exact ⟨hn1.grew, hn1.v⟩
    rintro ands c5 ⟨hg5, hands⟩
    have hb5 := hg5.step.bld
    have h05 := hg5.out0 h04
    have hrow := (hg5.step.vs hb4 hz4).append hands
    rw [row_bits _ (by omega)] at hrow
    have hin5 := ((hg4.trans hg5).step.vs hbc hs).append hrow
    refine (RunsC.module (ins := ins) hb5 (hmods _ _ _ _ hm) hin5 (by simp; omega)
      (fun x _ => hb5.notOut h05 x)).mono ?_
    rintro sum' c6 ⟨hn6, _⟩
    refine ⟨(hg24.trans hg5).trans hn6.grew, ?_, Or.inr (hn6.ready hb5)⟩
    have e : bin n (addF n) (bitsOf n (A * (B % 2 ^ i)) ++ bitsOf n (2 ^ i * (A * (B.testBit i).toNat)))
        = bitsOf n (A * (B % 2 ^ (i + 1))) := by
      unfold bin addF
      rw [List.take_left' (by simp), List.drop_left' (by simp), bitsVal_bitsOf, bitsVal_bitsOf]
      apply bitsOf_congr
      rw [Nat.add_mod_mod, Nat.mod_add_mod, partial_product]
    have := hn6.v
    rw [e] at this; exact this
  rintro sum c ⟨hg, hs, hready⟩
  have hbc := hg.step.bld
  have h0c := hg.out0 h0
  have hsl := hs.length
  rw [length_bitsOf] at hsl
  have hready' : Ready c sum := by
    rcases hready with h | h
    · subst h
      have : sum = [] := List.length_eq_zero_iff.mp hsl
      subst this
      exact ⟨by simp, by simp⟩
    · exact h
  have hout := RunsC.outputs (ins := ins) hbc h0c hready' hs
  rw [hsl] at hout
  refine RunsC.seq hout ?_
  rintro _ c' ⟨k1, k2, k3⟩
  refine RunsC.pure ⟨rfl, k1, ?_, by rw [k3, hg.inputLen, hin]⟩
  rw [Nat.mod_eq_of_lt hBlt] at k2
  exact k2

/-- the bits of `A * 2^i` or of `0` in double width -/
theorem row_bits2 {n i A : Nat} (b : Bool) (hi : i ≤ n) (hA : A < 2 ^ n) :
    List.replicate i false ++ (List.range n).map (fun j => A.testBit j && b) ++ List.replicate (n - i) false
      = bitsOf (2 * n) (2 ^ i * (A * b.toNat)) := by
  have h := row_bits (n := 2 * n) (i := i) (A := A) b (by omega)
  rw [← h, List.append_assoc]
  congr 1
  apply List.ext_getElem?
  intro j
  by_cases h1 : j < n
  · rw [List.getElem?_append_left (by simpa using h1), map_range_get _ h1, map_range_get _ (by omega)]
  · by_cases h2 : j < 2 * n - i
    · rw [List.getElem?_append_right (by simp; omega), map_range_get _ h2, List.getElem?_replicate,
        if_pos (by simp; omega)]
      have : A.testBit j = false := Nat.testBit_lt_two_pow (Nat.lt_of_lt_of_le hA (Nat.pow_le_pow_right (by omega) (by omega)))
      rw [this]; rfl
    · rw [List.getElem?_eq_none (by simp; omega), List.getElem?_eq_none (by simp; omega)]

theorem buildMulExtend_ok {m1 : ModuleId} (hw : WFw w) (hr : w.circs[r]? = some c0) (hN : N ≤ w.circs.length)
    (hm : ModOk w N c0.storage m1 (2 * (2 * n)) (2 * n) (bin (2 * n) (addF (2 * n)))) :
    Builds w N c0.storage (buildMulExtend r n m1) (2 * n) (2 * n) (bin n (mulF (2 * n))) := by
  refine Builds.mk hw hr hN (by intro ins hl; simp [bin, mulF]) ?_
  intro w1 s K mid c1 ins hmods hb he hl
  refine RunsC.two (k := fun a b => _) hb he n hl ?_
  intro a b c2 hb2 h0 hin ha hbv
  have hBlt : bitsVal (ins.drop n) < 2 ^ n := by
    have := bitsVal_lt (ins.drop n)
    rwa [show (ins.drop n).length = n by simp; omega] at this
  have hAlt : bitsVal (ins.take n) < 2 ^ n := by
    have := bitsVal_lt (ins.take n)
    rwa [show (ins.take n).length = n by simp; omega] at this
  rw [bits_map (n := n) (bs := ins.take n) (by simp; omega)] at ha
  rw [bits_map (n := n) (bs := ins.drop n) (by simp; omega)] at hbv
  have hgoal : bin n (mulF (2 * n)) ins = bitsOf (2 * n) (bitsVal (ins.take n) * bitsVal (ins.drop n)) := rfl
  rw [hgoal]
  generalize bitsVal (ins.take n) = A at *
  generalize bitsVal (ins.drop n) = B at *
  have hla := ha.length
  have hlb := hbv.length
  simp only [List.length_map, List.length_range] at hla hlb
  have hA : ∀ i, i < n → ∃ x, a[i]? = some x ∧ V w1 s ins c2 x (A.testBit i) := by
    intro i hi
    obtain ⟨x, b1, hx, hbit1, hv1⟩ := ha.get (i := i) (by omega)
    rw [map_range_get' _ hi hbit1] at hv1
    exact ⟨x, hx, hv1⟩
  have hB : ∀ i, i < n → ∃ x, b[i]? = some x ∧ V w1 s ins c2 x (B.testBit i) := by
    intro i hi
    obtain ⟨x, b1, hx, hbit1, hv1⟩ := hbv.get (i := i) (by omega)
    rw [map_range_get' _ hi hbit1] at hv1
    exact ⟨x, hx, hv1⟩
  refine RunsC.seq (RunsC.consts (ins := ins) hb2 false (2 * n)) ?_
  rintro sum0 c3 ⟨hg3, hz⟩
  refine RunsC.seq (RunsC.foldRange (I := fun i sum c => Grew w1 s K c2 c ∧
      All2 (V w1 s ins c) sum (bitsOf (2 * n) (A * (B % 2 ^ i))) ∧ (i = 0 ∨ Ready c sum)) n
      ⟨hg3, by rw [Nat.pow_zero, Nat.mod_one, Nat.mul_zero, bitsOf_zero]; exact hz, Or.inl rfl⟩ ?_) ?_
  · rintro i sum c hi ⟨hg, hs, _⟩
    have hbc := hg.step.bld
    have h0c := hg.out0 h0
    refine RunsC.seq (RunsC.consts (ins := ins) hbc false i) ?_
    rintro zeros c4 ⟨hg4, hz4⟩
    have hb4 := hg4.step.bld
    have h04 := hg4.out0 h0c
    have hg24 := hg.trans hg4
    refine RunsC.seq (RunsC.mapVals (ins := ins) hb4 n (fun j => A.testBit j && B.testBit i) ?_) ?_
    · intro j c5 hj hg5
      obtain ⟨x, hx, hxv⟩ := hA j (by omega)
      obtain ⟨y, hy, hyv⟩ := hB i hi
      have hg25 := hg24.trans hg5
      have hb5 := hg5.step.bld
      have h05 := hg5.out0 h04
      refine RunsC.bind (RunsC.idx hx ?_)
      refine RunsC.bind (RunsC.idx hy ?_)
      refine (RunsC.and (ins := ins) hb5 (hg25.step.v hb2 hxv) (hg25.step.v hb2 hyv) (hb5.notOut h05 _)
        (hb5.notOut h05 _)).mono ?_
      intro g c6 hn1
      exact ⟨hn1.grew, hn1.v⟩
    rintro ands c5 ⟨hg5, hands⟩
    have hb5 := hg5.step.bld
    have h05 := hg5.out0 h04
    refine RunsC.seq (RunsC.consts (ins := ins) hb5 false (n - i)) ?_
    rintro zeros2 c6 ⟨hg6, hz6⟩
    have hb6 := hg6.step.bld
    have h06 := hg6.out0 h05
    have hrow := (((hg5.trans hg6).step.vs hb4 hz4).append (hg6.step.vs hb5 hands)).append hz6
    rw [row_bits2 _ (by omega) hAlt] at hrow
    have hin6 := (((hg4.trans hg5).trans hg6).step.vs hbc hs).append hrow
    refine (RunsC.module (ins := ins) hb6 (hmods _ _ _ _ hm) hin6 (by simp; omega)
      (fun x _ => hb6.notOut h06 x)).mono ?_
    rintro sum' c7 ⟨hn7, _⟩
    refine ⟨((hg24.trans hg5).trans hg6).trans hn7.grew, ?_, Or.inr (hn7.ready hb6)⟩
    have e : bin (2 * n) (addF (2 * n)) (bitsOf (2 * n) (A * (B % 2 ^ i)) ++ bitsOf (2 * n) (2 ^ i * (A * (B.testBit i).toNat)))
        = bitsOf (2 * n) (A * (B % 2 ^ (i + 1))) := by
      unfold bin addF
      rw [List.take_left' (by simp), List.drop_left' (by simp), bitsVal_bitsOf, bitsVal_bitsOf]
      apply bitsOf_congr
      rw [Nat.add_mod_mod, Nat.mod_add_mod, partial_product]
    have := hn7.v
    rw [e] at this; exact this
  rintro sum c ⟨hg, hs, hready⟩
  have hbc := hg.step.bld
  have h0c := hg.out0 h0
  have hsl := hs.length
  rw [length_bitsOf] at hsl
  have hready' : Ready c sum := by
    rcases hready with h | h
    · subst h
      have : sum = [] := List.length_eq_zero_iff.mp hsl
      subst this
      exact ⟨by simp, by simp⟩
    · exact h
  have hout := RunsC.outputs (ins := ins) hbc h0c hready' hs
  rw [hsl] at hout
  refine RunsC.seq hout ?_
  rintro _ c' ⟨k1, k2, k3⟩
  refine RunsC.pure ⟨rfl, k1, ?_, by rw [k3, hg.inputLen, hin]⟩
  rw [Nat.mod_eq_of_lt hBlt] at k2
  exact k2

theorem buildLess_ok {m1 : ModuleId} (hw : WFw w) (hr : w.circs[r]? = some c0) (hN : N ≤ w.circs.length) (hn : 1 ≤ n)
    (hm : ModOk w N c0.storage m1 (2 * n) n (bin n (subF n))) :
    Builds w N c0.storage (buildLess r n m1) (2 * n) 1 (bin n fun a b => [lessF n a b]) := by
  refine Builds.mk hw hr hN (by intro ins hl; simp [bin]) ?_
  intro w1 s K mid c1 ins hmods hb he hl
  refine RunsC.two (k := fun a b => _) hb he n hl ?_
  intro a b c2 hb2 h0 hin ha hbv
  have hab := ha.append hbv
  rw [List.take_append_drop] at hab
  refine RunsC.seq (RunsC.module (ins := ins) hb2 (hmods _ _ _ _ hm) hab hl (fun x _ => hb2.notOut h0 x)) ?_
  rintro gs c3 ⟨hn3, hlen⟩
  have hb3 := hn3.step.bld
  have h03 := hn3.grew.out0 h0
  refine RunsC.seq (RunsC.constant (ins := ins) hb3 true) ?_
  intro one c4 hn4
  have hb4 := hn4.step.bld
  have h04 := hn4.grew.out0 h03
  obtain ⟨g, b1, hg, hbit, hv⟩ := hn3.v.get (i := n - 1) (by rw [hn3.ids]; simp [hlen]; omega)
  rw [if_neg (by omega)]
  refine RunsC.bind (RunsC.idx hg ?_)
  refine RunsC.seq (RunsC.equivalent (ins := ins) hb4 (hn4.step.v hb3 hv) hn4.v (hb4.notOut h04 _)
    (hb4.notOut h04 _)) ?_
  rintro g2 c5 ⟨k1, k2, k3, k4, k5, k6⟩
  have h05 := k1.outputLen.trans h04
  have hpos := hb4.ins
  refine RunsC.seq (RunsC.output k1.bld k5 k6 (by rw [k2, h05, k4]; omega)) ?_
  intro _ c' ho
  refine RunsC.pure ⟨rfl, ho.bld, ?_, by rw [ho.inputLen, k2, hn4.inputLen, hn3.inputLen, hin]⟩
  have := (Outs.nil (ins := ins) h05).output k1.bld ho k5
  have hb1 : b1 = lessF n (ins.take n) (ins.drop n) := by
    have hbit' : (bitsOf n (bitsVal (ins.take n) + (2 ^ n - bitsVal (ins.drop n))))[n - 1]? = some b1 := hbit
    rw [bitsOf_get (by omega)] at hbit'
    cases hbit'; rfl
  subst hb1
  simpa [bin] using this

theorem buildLessOrEq_ok {m1 m2 : ModuleId} {f g : List Bool → List Bool → Bool} (hw : WFw w)
    (hr : w.circs[r]? = some c0) (hN : N ≤ w.circs.length) (n : Nat)
    (hm1 : ModOk w N c0.storage m1 (2 * n) 1 (bin n fun a b => [f a b]))
    (hm2 : ModOk w N c0.storage m2 (2 * n) 1 (bin n fun a b => [g a b])) :
    Builds w N c0.storage (buildLessOrEq r n m1 m2) (2 * n) 1 (bin n fun a b => [f a b || g a b]) := by
  refine Builds.mk hw hr hN (by intro ins hl; simp [bin]) ?_
  intro w1 s K mid c1 ins hmods hb he hl
  refine RunsC.two (k := fun a b => _) hb he n hl ?_
  intro a b c2 hb2 h0 hin ha hbv
  have hab := ha.append hbv
  rw [List.take_append_drop] at hab
  refine RunsC.seq (RunsC.module (ins := ins) hb2 (hmods _ _ _ _ hm1) hab hl (fun x _ => hb2.notOut h0 x)) ?_
  rintro gs c3 ⟨hn3, hlen3⟩
  have hb3 := hn3.step.bld
  have h03 := hn3.grew.out0 h0
  obtain ⟨x, b1, hx, hbit1, hv1⟩ := hn3.v.get (i := 0) (by rw [hn3.ids]; simp [hlen3])
  refine RunsC.bind (RunsC.idx hx ?_)
  refine RunsC.seq (RunsC.module (ins := ins) hb3 (hmods _ _ _ _ hm2) (hn3.step.vs hb2 hab) hl
    (fun x _ => hb3.notOut h03 x)) ?_
  rintro gs2 c4 ⟨hn4, hlen4⟩
  have hb4 := hn4.step.bld
  have h04 := hn4.grew.out0 h03
  obtain ⟨y, b2, hy, hbit2, hv2⟩ := hn4.v.get (i := 0) (by rw [hn4.ids]; simp [hlen4])
  refine RunsC.bind (RunsC.idx hy ?_)
  refine RunsC.seq (RunsC.or (ins := ins) hb4 (hn4.step.v hb3 hv1) hv2 (hb4.notOut h04 _) (hb4.notOut h04 _)) ?_
  intro z c5 hn5
  have hb5 := hn5.step.bld
  have h05 := hn5.grew.out0 h04
  have hpos := hb4.ins
  refine RunsC.seq (RunsC.output hb5 hn5.v hn5.unread (by rw [hn5.inputLen, h05, hn5.id]; omega)) ?_
  intro _ c' ho
  refine RunsC.pure ⟨rfl, ho.bld, ?_, by rw [ho.inputLen, hn5.inputLen, hn4.inputLen, hn3.inputLen, hin]⟩
  have := (Outs.nil (ins := ins) h05).output hb5 ho hn5.v
  simp [bin] at hbit1 hbit2
  subst hbit1; subst hbit2
  simpa [bin] using this

theorem buildLarger_ok {m1 : ModuleId} {f : List Bool → List Bool → Bool} (hw : WFw w) (hr : w.circs[r]? = some c0) (hN : N ≤ w.circs.length)
    (n : Nat) (hm : ModOk w N c0.storage m1 (2 * n) 1 (bin n fun a b => [f a b])) :
    Builds w N c0.storage (buildLarger r n m1) (2 * n) 1 (bin n fun a b => [!f a b]) := buildNeg1_ok hw hr hN n hm

theorem buildLargerOrEq_ok {m1 : ModuleId} {f : List Bool → List Bool → Bool} (hw : WFw w)
    (hr : w.circs[r]? = some c0) (hN : N ≤ w.circs.length) (n : Nat) (hm : ModOk w N c0.storage m1 (2 * n) 1 (bin n fun a b => [f a b])) :
    Builds w N c0.storage (buildLargerOrEq r n m1) (2 * n) 1 (bin n fun a b => [!f a b]) := buildNeg1_ok hw hr hN n hm

/-- what `AllocIntConfig::new` guarantees -/
structure IntOk (w : World) (N : Nat) (st : StoreRef) (n : Nat) (cfg : IntConfig) : Prop where
  add : ModOk w N st cfg.addMid (2 * n) n (bin n (addF n))
  sub : ModOk w N st cfg.subMid (2 * n) n (bin n (subF n))
  mul : ModOk w N st cfg.mulMid (2 * n) n (bin n (mulF n))
  eq : ModOk w N st cfg.eqMid (2 * n) 1 (bin n fun a b => [a == b])
  neq : ModOk w N st cfg.neqMid (2 * n) 1 (bin n fun a b => [!(a == b)])
  less : ModOk w N st cfg.lessMid (2 * n) 1 (bin n fun a b => [lessF n a b])
  lessOrEq : ModOk w N st cfg.lessOrEqMid (2 * n) 1 (bin n fun a b => [lessF n a b || a == b])
  larger : ModOk w N st cfg.largerMid (2 * n) 1 (bin n fun a b => [!(lessF n a b || a == b)])
  largerOrEq : ModOk w N st cfg.largerOrEqMid (2 * n) 1 (bin n fun a b => [!lessF n a b])

theorem IntOk.map {w w' : World} {N N' : Nat} {st : StoreRef} {cfg : IntConfig} (h : IntOk w N st n cfg)
    (hm : ∀ mid nIn nOut f, ModOk w N st mid nIn nOut f → ModOk w' N' st mid nIn nOut f) : IntOk w' N' st n cfg :=
  ⟨hm _ _ _ _ h.add, hm _ _ _ _ h.sub, hm _ _ _ _ h.mul, hm _ _ _ _ h.eq, hm _ _ _ _ h.neq, hm _ _ _ _ h.less,
    hm _ _ _ _ h.lessOrEq, hm _ _ _ _ h.larger, hm _ _ _ _ h.largerOrEq⟩

theorem After.intOk {w w' : World} (h : After w w') {N st cfg} (hi : IntOk w N st n cfg) : IntOk w' N st n cfg :=
  hi.map fun _ _ _ _ hm => h.modOk hm

theorem intConfig_ok (hw : WFw w) (hr : w.circs[r]? = some c0) (hN : N ≤ w.circs.length) (hn : 1 ≤ n) :
    ∃ cfg w', IntConfig.new r n w = (.ok cfg, w') ∧ After w w' ∧ cfg.cref = r ∧ IntOk w' N c0.storage n cfg := by
  obtain ⟨m1, w1, e1, a1, o1⟩ := buildAdd_ok hw hr hN hn
  have hr1 := a1.keeps.circ r c0 trivial hr
  have hN1 := Nat.le_trans hN a1.length
  obtain ⟨m2, w2, e2, a2, o2⟩ := buildSub_ok a1.wf hr1 hN1 hn o1
  have hr2 := a2.keeps.circ r c0 trivial hr1
  have hN2 := Nat.le_trans hN1 a2.length
  obtain ⟨m3, w3, e3, a3, o3⟩ := buildMul_ok a2.wf hr2 hN2 (a2.modOk o1)
  have hr3 := a3.keeps.circ r c0 trivial hr2
  have hN3 := Nat.le_trans hN2 a3.length
  obtain ⟨m4, w4, e4, a4, o4⟩ := buildEq_ok a3.wf hr3 hN3 n
  have hr4 := a4.keeps.circ r c0 trivial hr3
  have hN4 := Nat.le_trans hN3 a4.length
  obtain ⟨m5, w5, e5, a5, o5⟩ := buildNeq_ok a4.wf hr4 hN4 n o4
  have hr5 := a5.keeps.circ r c0 trivial hr4
  have hN5 := Nat.le_trans hN4 a5.length
  obtain ⟨m6, w6, e6, a6, o6⟩ := buildLess_ok a5.wf hr5 hN5 hn (a5.modOk (a4.modOk (a3.modOk o2)))
  have hr6 := a6.keeps.circ r c0 trivial hr5
  have hN6 := Nat.le_trans hN5 a6.length
  obtain ⟨m7, w7, e7, a7, o7⟩ := buildLessOrEq_ok (g := fun a b => a == b) a6.wf hr6 hN6 n o6 (a6.modOk (a5.modOk o4))
  have hr7 := a7.keeps.circ r c0 trivial hr6
  have hN7 := Nat.le_trans hN6 a7.length
  obtain ⟨m8, w8, e8, a8, o8⟩ := buildLarger_ok a7.wf hr7 hN7 n o7
  have hr8 := a8.keeps.circ r c0 trivial hr7
  have hN8 := Nat.le_trans hN7 a8.length
  obtain ⟨m9, w9, e9, a9, o9⟩ := buildLargerOrEq_ok a8.wf hr8 hN8 n (a8.modOk (a7.modOk o6))
  refine ⟨⟨r, m1, m2, m3, m4, m5, m6, m7, m8, m9⟩, w9, ?_,
    ((((((((a1.trans a2).trans a3).trans a4).trans a5).trans a6).trans a7).trans a8).trans a9), rfl, ?_⟩
  · unfold IntConfig.new
    rw [bind_ok e1, bind_ok e2, bind_ok e3, bind_ok e4, bind_ok e5, bind_ok e6, bind_ok e7, bind_ok e8, bind_ok e9]; rfl
  · have b8 := a8.trans a9
    have b7 := a7.trans b8
    have b6 := a6.trans b7
    have b5 := a5.trans b6
    have b4 := a4.trans b5
    have b3 := a3.trans b4
    have b2 := a2.trans b3
    exact ⟨b2.modOk o1, b3.modOk o2, b4.modOk o3, b5.modOk o4, b6.modOk o5, b7.modOk o6, b8.modOk o7, a9.modOk o8, o9⟩

end

end CC
