import Verif.Proofs.TestInt
import Verif.Proofs.FpV

/-!
# The test of `AllocFp` and the tests of `AllocBits`
-/

namespace CC
open Spec Logic Arith Fp

section
variable {w : World} {s : Ref} {K : Ctx} {c : Circuit} {ins : List Bool} {n p rExp : Nat} {cfg : FpConfig}

/-- an `AllocFp` holding the word `v` -/
structure FVal (w : World) (s : Ref) (ins : List Bool) (c : Circuit) {n : Nat} (x : AFp) (cfg : FpConfig) (v : BitVec n) :
    Prop where
  config : x.config = cfg
  val : IVal w s ins c x.val cfg.intConfig v

theorem FVal.step {c' : Circuit} {x : AFp} {v : BitVec n} (h : FVal w s ins c x cfg v) (hb : Bld w s K c)
    (hs : Step w s K c c') : FVal w s ins c' x cfg v := ⟨h.config, h.val.step hb hs⟩

/-- what a field configuration guarantees to a test -/
def FpReady (n p rExp : Nat) (w : World) (N : Nat) (st : StoreRef) (r : Ref) (cfg : FpConfig) : Prop :=
  cfg.cref = r ∧ cfg.intConfig.cref = r ∧ IntOk w N st n cfg.intConfig ∧ FpOk w N st n p rExp cfg

theorem configures_fp (hf : FieldFits n p rExp) : Configures (fun r => fieldOver r n p rExp) (FpReady n p rExp) := by
  intro w r c0 N hw hr hN
  obtain ⟨cfg, w', e, ha, h1, h2, h3, h4⟩ := field_ok hw hr hN hf
  exact ⟨cfg, w', e, ha, h1, h2, h3, h4⟩

theorem RunsC.newFp (hb : Bld w s K c) (h0 : c.outputLen = 0) (hcr : cfg.intConfig.cref = s)
    (hl : c.inputLen + n ≤ ins.length) :
    RunsC w s (AFp.new cfg n) c fun x c' => Step w s K c c' ∧ c'.inputLen = c.inputLen + n ∧
      FVal w s ins c' x cfg (wordAt n ins c.inputLen) := by
  unfold AFp.new
  refine RunsC.seq (RunsC.newAt hb h0 hcr hl) ?_
  rintro x c' ⟨h1, h2, h3⟩
  exact RunsC.pure ⟨h1, h2, rfl, h3⟩

theorem RunsC.fp2 (hb : Bld w s K c) (h0 : c.outputLen = 0) {mid : ModuleId} {φ : BitVec n → BitVec n → BitVec n}
    (hm : ModD w (fun d => d < K.out ∨ d = s) K.st mid (2 * n) n (bin n (lift2 φ))) (hcr : cfg.cref = s) {x y : AFp}
    {a b : BitVec n} (hx : FVal w s ins c x cfg a) (hy : FVal w s ins c y cfg b) :
    RunsC w s (do
      let outs ← M.expect (CC.module x.config.cref mid (x.val.val ++ y.val.val))
      AFp.fromGateIdsUnchecked x.config n outs) c fun z c' => Grew w s K c c' ∧ FVal w s ins c' z cfg (φ a b) := by
  rw [hx.config, hcr]
  have hl : (bvBits a ++ bvBits b).length = 2 * n := by simp; omega
  refine RunsC.seq (RunsC.expect (RunsC.module (ins := ins) hb hm (hx.val.vals.append hy.val.vals) hl
    (fun x _ => hb.notOut h0 x))) ?_
  rintro gs c' ⟨h1, h2⟩
  have hlen := h1.v.length
  unfold AFp.fromGateIdsUnchecked
  refine RunsC.seq (RunsC.expect (RunsC.fromAll (n := n) (by omega))) ?_
  rintro z c2 ⟨rfl, rfl⟩
  refine RunsC.pure ⟨h1.grew, rfl, rfl, ?_⟩
  have := h1.v
  rw [(All2.app_bin hx.val.vals hy.val.vals (bvBits_length _) _).2, lift2_bv] at this
  exact this

theorem fpAddV_zero {n p : Nat} (hn : 1 ≤ n) (hp : 1 ≤ p) (hp2 : p ≤ 2 ^ (n - 1)) :
    fpAddV (BitVec.ofNat n p) 0 0 = 0 := by
  have hh := pow_half hn
  have hP : (BitVec.ofNat n p).toNat = p := by rw [BitVec.toNat_ofNat, Nat.mod_eq_of_lt (by omega)]
  have hm : ((0 : BitVec n) - BitVec.ofNat n p).msb = true := by
    rw [BitVec.msb_eq_decide, BitVec.toNat_sub, hP]
    simp only [BitVec.ofNat_eq_ofNat, BitVec.toNat_ofNat, Nat.zero_mod, Nat.add_zero]
    rw [Nat.mod_eq_of_lt (by omega), decide_eq_true (by omega)]
  rw [fpAddV_cases hn _ 0 0 0 (by simp), hm]
  simp

end

theorem M.assoc {α β γ} (x : M α) (f : α → M β) (g : β → M γ) : (x >>= f) >>= g = x >>= fun a => f a >>= g := by
  funext w
  simp only [M.bind_apply]
  rcases x w with ⟨a | a, w'⟩ <;> rfl

theorem fpAddSubMul_ok {w : World} (hw : Reachable w) {n p rExp : Nat} (hf : FieldFits n p rExp) (hp : 1 ≤ p)
    (hroom : p ≤ 2 ^ (n - 1)) :
    ∃ r w', Tests.fpAddSubMul n p rExp w = (.ok r, w') ∧
      ∃ F, ∀ fuel ≥ F, ∀ ins : List Bool, ins.length = 3 * n → evalOutput w' fuel r ins = .ok [true, true] := by
  have hw8 := hf.width
  have key := test_ok (configures_fp hf) (fun r => plays_fieldOver r n p rExp) (m := 3 * n) (f := fun _ => [true, true])
    (body := fun r cfg => do
      let x ← AFp.new cfg n
      let y ← AFp.new cfg n
      let z ← AFp.new cfg n
      let a ← x.add y n
      let out1 ← a.mul z n
      let xz ← x.mul z n
      let yz ← y.mul z n
      let out2 ← xz.add yz n
      let d ← x.sub y n
      let out3 ← d.mul z n
      let xz' ← x.mul z n
      let yz' ← y.mul z n
      let out4 ← xz'.sub yz' n
      let e1 ← out1.eq out2 n
      let e2 ← out3.eq out4 n
      let _ ← output r e1
      let _ ← output r e2
      pure r) (fun r cfg => ?_) ?_ hw
  · obtain ⟨r, w', e, h⟩ := key
    refine ⟨r, w', ?_, h⟩
    rw [← e]
    show Tests.fpAddSubMul n p rExp w = _
    unfold Tests.fpAddSubMul fieldOver
    simp only [M.assoc]
  · unfold AFp.new AFp.add AFp.mul AFp.sub AFp.eq AFp.fromGateIdsUnchecked AInt.eq
    playsF
    all_goals exact plays_output _ _
  · rintro w s K c cfg hb h0 hi0 ⟨hcr, hicr, hok, hfp⟩ hcall ins hins
    have hi : IntD w (fun d => d < K.out ∨ d = s) K.st n cfg.intConfig := hok.toD hcall
    have hadd := hcall _ _ _ _ hfp.add
    have hsub := hcall _ _ _ _ hfp.sub
    have hmul := hcall _ _ _ _ hfp.mul
    have mz := fun a b : BitVec n => fpMulV_zero (pi := 2 ^ rExp - Fp.modInv p (2 ^ rExp)) (k := rExp) (by omega) hp hroom a b
    have az := fpAddV_zero (n := n) (by omega) hp hroom
    have addR : ∀ {c : Circuit} {x y : AFp} {a b : BitVec n}, Bld w s K c → c.outputLen = 0 → FVal w s ins c x cfg a →
        FVal w s ins c y cfg b → RunsC w s (x.add y n) c fun z c' =>
          Grew w s K c c' ∧ FVal w s ins c' z cfg (fpAddV (BitVec.ofNat n p) a b) := by
      intro c x y a b hb h0 hx hy
      unfold AFp.add
      have := RunsC.fp2 hb h0 hadd hcr hx hy
      rw [hx.config] at this ⊢; exact this
    have subR : ∀ {c : Circuit} {x y : AFp} {a b : BitVec n}, Bld w s K c → c.outputLen = 0 → FVal w s ins c x cfg a →
        FVal w s ins c y cfg b → RunsC w s (x.sub y n) c fun z c' =>
          Grew w s K c c' ∧ FVal w s ins c' z cfg (fpAddV (BitVec.ofNat n p) a (-b)) := by
      intro c x y a b hb h0 hx hy
      unfold AFp.sub
      have := RunsC.fp2 hb h0 hsub hcr hx hy
      rw [hx.config] at this ⊢; exact this
    have mulR : ∀ {c : Circuit} {x y : AFp} {a b : BitVec n}, Bld w s K c → c.outputLen = 0 → FVal w s ins c x cfg a →
        FVal w s ins c y cfg b → RunsC w s (x.mul y n) c fun z c' => Grew w s K c c' ∧ FVal w s ins c' z cfg (0 : BitVec n) := by
      intro c x y a b hb h0 hx hy
      unfold AFp.mul
      have := RunsC.fp2 hb h0 hmul hcr hx hy
      rw [mz] at this
      rw [hx.config] at this ⊢; exact this
    have eqR : ∀ {c : Circuit} {x y : AFp} {a b : BitVec n}, Bld w s K c → c.outputLen = 0 → FVal w s ins c x cfg a →
        FVal w s ins c y cfg b → RunsC w s (x.eq y n) c fun g c' => NewB w s K ins c g (a == b) c' := by
      intro c x y a b hb h0 hx hy
      exact RunsC.eqI hb h0 hi hicr hx.val hy.val
    refine RunsC.seq (RunsC.newFp (ins := ins) hb h0 hicr (by omega)) ?_
    rintro x c1 ⟨s1, l1, x1⟩
    have o1 := s1.outputLen.trans h0
    refine RunsC.seq (RunsC.newFp (ins := ins) s1.bld o1 hicr (by omega)) ?_
    rintro y c2 ⟨s2, l2, y2⟩
    have o2 := s2.outputLen.trans o1
    have x2 := x1.step s1.bld s2
    refine RunsC.seq (RunsC.newFp (ins := ins) s2.bld o2 hicr (by omega)) ?_
    rintro z c3 ⟨s3, l3, z3⟩
    have o3 := s3.outputLen.trans o2
    have x3 := x2.step s2.bld s3
    have y3 := y2.step s2.bld s3
    clear x1 x2 y2
    refine RunsC.seq (addR s3.bld o3 x3 y3) ?_
    rintro a c4 ⟨g4, a4⟩
    have o4 := g4.step.outputLen.trans o3
    have z4 := z3.step s3.bld g4.step
    refine RunsC.seq (mulR g4.step.bld o4 a4 z4) ?_
    rintro out1 c5 ⟨g5, u5⟩
    have k5 := g4.trans g5
    have o5 := g5.step.outputLen.trans o4
    refine RunsC.seq (mulR g5.step.bld o5 (x3.step s3.bld k5.step) (z3.step s3.bld k5.step)) ?_
    rintro xz c6 ⟨g6, v6⟩
    have k6 := k5.trans g6
    have o6 := g6.step.outputLen.trans o5
    refine RunsC.seq (mulR g6.step.bld o6 (y3.step s3.bld k6.step) (z3.step s3.bld k6.step)) ?_
    rintro yz c7 ⟨g7, v7⟩
    have k7 := k6.trans g7
    have o7 := g7.step.outputLen.trans o6
    refine RunsC.seq (addR g7.step.bld o7 (v6.step g6.step.bld g7.step) v7) ?_
    rintro out2 c8 ⟨g8, u8⟩
    rw [az] at u8
    have k8 := k7.trans g8
    have o8 := g8.step.outputLen.trans o7
    refine RunsC.seq (subR g8.step.bld o8 (x3.step s3.bld k8.step) (y3.step s3.bld k8.step)) ?_
    rintro d c9 ⟨g9, d9⟩
    have k9 := k8.trans g9
    have o9 := g9.step.outputLen.trans o8
    refine RunsC.seq (mulR g9.step.bld o9 d9 (z3.step s3.bld k9.step)) ?_
    rintro out3 c10 ⟨g10, u10⟩
    have k10 := k9.trans g10
    have o10 := g10.step.outputLen.trans o9
    refine RunsC.seq (mulR g10.step.bld o10 (x3.step s3.bld k10.step) (z3.step s3.bld k10.step)) ?_
    rintro xz' c11 ⟨g11, v11⟩
    have k11 := k10.trans g11
    have o11 := g11.step.outputLen.trans o10
    refine RunsC.seq (mulR g11.step.bld o11 (y3.step s3.bld k11.step) (z3.step s3.bld k11.step)) ?_
    rintro yz' c12 ⟨g12, v12⟩
    have k12 := k11.trans g12
    have o12 := g12.step.outputLen.trans o11
    refine RunsC.seq (subR g12.step.bld o12 (v11.step g11.step.bld g12.step) v12) ?_
    rintro out4 c13 ⟨g13, u13⟩
    rw [show -(0 : BitVec n) = 0 by simp, az] at u13
    have k13 := k12.trans g13
    have o13 := g13.step.outputLen.trans o12
    have j10 := (g11.trans g12).trans g13
    have j8 := (g9.trans g10).trans j10
    have j5 := ((g6.trans g7).trans g8).trans j8
    refine RunsC.seq (eqR g13.step.bld o13 (u5.step g5.step.bld j5.step) (u8.step g8.step.bld j8.step)) ?_
    intro e1 c14 n14
    have k14 := k13.trans n14.grew
    have o14 := n14.grew.step.outputLen.trans o13
    refine RunsC.seq (eqR n14.grew.step.bld o14 (u10.step g10.step.bld (j10.trans n14.grew).step)
      (u13.step g13.step.bld n14.grew.step)) ?_
    intro e2 c15 n15
    have k15 := k14.trans n15.grew
    have o15 := n15.grew.step.outputLen.trans o14
    have v14 := n15.grew.step.v n14.grew.step.bld n14.v
    have v15 := n15.v
    rw [show ((0 : BitVec n) == 0) = true by simp] at v14 v15
    refine (RunsC.close2 n15.grew.step.bld o15 v14 v15 ?_).mono ?_
    · obtain ⟨L, _, k2, k3⟩ := n14.tidy
      obtain ⟨L', k4, _, k6⟩ := n15.tidy
      exact ⟨L, _, _, L', _, _, k3.ext n15.grew.step.ext, k6, .inr (by omega), by simp, by simp⟩
    rintro a c16 ⟨rfl, hl⟩
    refine ⟨rfl, hl.after (((s1.trans s2).trans s3).trans k15.step) ?_⟩
    rw [k15.inputLen]
    omega

end CC
