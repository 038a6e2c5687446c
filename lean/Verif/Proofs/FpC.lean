import Verif.Spec.Field
import Verif.Proofs.FpB
import Verif.Proofs.Plays

/-!
# `AllocFpConfig`: creating and using one
-/

namespace CC
open Spec Logic Arith

/-! ### the modular inverse -/

/-- the coefficients returned by `ext_gcd` are bounded by the arguments -/
theorem extGcd_bound (a b : Int) (ha : 0 ≤ a) (hb : 1 ≤ b) :
    (Utils.extGcd a b).1.natAbs ≤ b.natAbs ∧ (Utils.extGcd a b).2.1.natAbs ≤ max a.natAbs 1 := by
  induction h : b.natAbs using Nat.strong_induction_on generalizing a b with
  | _ k ih =>
    rw [Props.extGcd_eq, if_neg (by omega)]
    have hr0 : 0 ≤ a.tmod b := Int.tmod_nonneg b ha
    have hrb : a.tmod b < b := Int.tmod_lt_of_pos a (by omega)
    have hq0 : 0 ≤ a.tdiv b := Int.tdiv_nonneg ha (by omega)
    have hqr : b * a.tdiv b + a.tmod b = a := Int.mul_tdiv_add_tmod a b
    by_cases h0 : a.tmod b = 0
    · rw [h0, Props.extGcd_eq, if_pos rfl]
      simp only [Int.mul_zero, Int.sub_zero]
      omega
    · obtain ⟨i1, i2⟩ := ih (a.tmod b).natAbs (by omega) b (a.tmod b) (by omega) (by omega) rfl
      generalize (Utils.extGcd b (a.tmod b)).1 = x at i1
      generalize (Utils.extGcd b (a.tmod b)).2.1 = y at i2
      simp only
      refine ⟨by omega, ?_⟩
      have h1 : (x - a.tdiv b * y).natAbs ≤ x.natAbs + (a.tdiv b * y).natAbs := by omega
      have h2 : (a.tdiv b * y).natAbs = (a.tdiv b).natAbs * y.natAbs := Int.natAbs_mul _ _
      have h3 : (a.tdiv b).natAbs * y.natAbs ≤ (a.tdiv b).natAbs * b.natAbs := Nat.mul_le_mul_left _ (by omega)
      have h4 : a.natAbs = b.natAbs * (a.tdiv b).natAbs + (a.tmod b).natAbs := by
        rw [← Int.natAbs_mul]
        have : 0 ≤ b * a.tdiv b := Int.mul_nonneg (by omega) hq0
        omega
      rw [Nat.mul_comm] at h3
      rw [Nat.mul_comm] at h2
      have h5 : y.natAbs * (a.tdiv b).natAbs = (a.tdiv b).natAbs * y.natAbs := Nat.mul_comm _ _
      have h6 : (a.tdiv b).natAbs * b.natAbs = b.natAbs * (a.tdiv b).natAbs := Nat.mul_comm _ _
      omega

theorem modInv_le (p : Nat) {m : Nat} (hm : 1 ≤ m) : Fp.modInv p m ≤ m := by
  have := (extGcd_bound p m (by omega) (by omega)).1
  unfold Fp.modInv
  simp only []
  split <;> omega

/-- `mod_inv` as an integer -/
theorem modInv_int (p : Nat) {m : Nat} (hm : 1 ≤ m) :
    (Fp.modInv p m : Int) % m = (Utils.extGcd p m).1 % m := by
  have := (extGcd_bound p m (by omega) (by omega)).1
  unfold Fp.modInv
  simp only []
  split
  · rw [Int.natAbs_of_nonneg (by omega), Int.add_emod_right]
  · rw [Int.natAbs_of_nonneg (by omega)]

theorem modInv_mul {p m : Nat} (hm : 1 ≤ m) (hg : Nat.gcd p m = 1) : (p * Fp.modInv p m) % m = 1 % m := by
  have hb := Props.C40_bezout (p : Int) m
  have hd := Props.C40_nonneg (p : Int) m (by omega) (by omega)
  rw [show Int.gcd (p : Int) m = Nat.gcd p m from rfl, hg] at hd
  rw [hd] at hb
  have h1 : ((p : Int) * Fp.modInv p m) % m = 1 % m := by
    rw [Int.mul_emod, modInv_int p hm, ← Int.mul_emod, ← Int.add_mul_emod_self_left _ (m : Int) (Utils.extGcd p m).2.1, hb]
    rfl
  have h2 : ((p * Fp.modInv p m % m : Nat) : Int) = ((1 % m : Nat) : Int) := by
    push_cast; exact h1
  exact_mod_cast h2

/-! ### configurations -/

/-- the word function of the multiplication module -/
def fpMulV {n : Nat} (p pi : BitVec n) (rExp r2 : Nat) (a b : BitVec n) : BitVec n :=
  fpMontV p pi rExp (fpMontV p pi rExp (a * b) * BitVec.ofNat n r2)

structure FpOk (w : World) (N : Nat) (st : StoreRef) (n p rExp : Nat) (cfg : Fp.FpConfig) : Prop where
  pEq : cfg.p = p
  rExpEq : cfg.rExp = rExp
  pi : cfg.pMinusInv = 2 ^ rExp - Fp.modInv p (2 ^ rExp)
  r2 : cfg.r2 = 0
  add : ModOk w N st cfg.addMid (2 * n) n (bin n (lift2 (fpAddV (BitVec.ofNat n p))))
  sub : ModOk w N st cfg.subMid (2 * n) n (bin n (lift2 fun a b => fpAddV (BitVec.ofNat n p) a (-b)))
  mont : ModOk w N st cfg.montRedMid n n
    (lift1 (fpMontV (BitVec.ofNat n p) (BitVec.ofNat n (2 ^ rExp - Fp.modInv p (2 ^ rExp))) rExp))
  mul : ModOk w N st cfg.mulMid (2 * n) n
    (bin n (lift2 (fpMulV (BitVec.ofNat n p) (BitVec.ofNat n (2 ^ rExp - Fp.modInv p (2 ^ rExp))) rExp 0)))

theorem FpOk.map {w w' : World} {N N' : Nat} {st : StoreRef} {n p rExp : Nat} {cfg : Fp.FpConfig} (h : FpOk w N st n p rExp cfg)
    (hm : ∀ mid nIn nOut f, ModOk w N st mid nIn nOut f → ModOk w' N' st mid nIn nOut f) : FpOk w' N' st n p rExp cfg :=
  ⟨h.pEq, h.rExpEq, h.pi, h.r2, hm _ _ _ _ h.add, hm _ _ _ _ h.sub, hm _ _ _ _ h.mont, hm _ _ _ _ h.mul⟩

theorem bytes_fit {n v : Nat} (hn : 8 ≤ n) (hv : v < 256 ^ (n / 8)) : 8 * (AInt.bytesLe v).length ≤ n := by
  have := (bytesLe_len v (n / 8) (by omega)).mpr hv
  omega

section
variable {w : World} {r : Ref} {c0 : Circuit} {n N p rExp : Nat} {ic : IntConfig}

theorem fpConfig_ok (hw : WFw w) (hr : w.circs[r]? = some c0) (hN : N ≤ w.circs.length) (hi : IntOk w N c0.storage n ic)
    (hf : FieldFits n p rExp) :
    ∃ cfg w', Fp.FpConfig.new r ic n p rExp w = (.ok cfg, w') ∧ After w w' ∧ cfg.cref = r ∧ cfg.intConfig = ic ∧
      FpOk w' N c0.storage n p rExp cfg := by
  obtain ⟨hn, hp, he⟩ := hf
  have hpos : 1 ≤ 2 ^ rExp := Nat.one_le_two_pow
  have hle := modInv_le p hpos
  have hrn : rExp ≤ n := by
    apply Nat.le_of_not_lt
    intro hlt
    have h1 : 256 ^ (n / 8) ≤ 2 ^ n := by
      rw [show 256 = 2 ^ 8 from rfl, ← Nat.pow_mul]
      exact Nat.pow_le_pow_right (by decide) (by omega)
    have h2 : 2 ^ n ≤ 2 ^ rExp := Nat.pow_le_pow_right (by decide) (by omega)
    omega
  have f0 : 8 * (AInt.bytesLe 0).length ≤ n := hn
  have fp := bytes_fit hn hp
  have fpi : 8 * (AInt.bytesLe (2 ^ rExp - Fp.modInv p (2 ^ rExp))).length ≤ n := bytes_fit hn (by omega)
  obtain ⟨m1, w1, e1, a1, o1⟩ := fpAdd_ok hw hr hN (by omega) hi fp
  have hr1 := a1.keeps.circ r c0 trivial hr
  have hN1 := Nat.le_trans hN a1.length
  have i1 := hi.map fun _ _ _ _ h => a1.modOk h
  obtain ⟨m2, w2, e2, a2, o2⟩ := fpSub_ok a1.wf hr1 hN1 i1 o1
  have hr2 := a2.keeps.circ r c0 trivial hr1
  have hN2 := Nat.le_trans hN1 a2.length
  have i2 := i1.map fun _ _ _ _ h => a2.modOk h
  obtain ⟨m3, w3, e3, a3, o3⟩ := fpMont_ok (k := rExp) a2.wf hr2 hN2 (by omega) i2 fp fpi hrn
  have hr3 := a3.keeps.circ r c0 trivial hr2
  have hN3 := Nat.le_trans hN2 a3.length
  have i3 := i2.map fun _ _ _ _ h => a3.modOk h
  obtain ⟨m4, w4, e4, a4, o4⟩ := fpMul_ok (r2 := 0) a3.wf hr3 hN3 i3 f0 o3
  refine ⟨⟨r, ic, p, 2 ^ rExp - Fp.modInv p (2 ^ rExp), rExp, 0, m1, m2, m4, m3⟩, w4, ?_,
    ((a1.trans a2).trans a3).trans a4, rfl, rfl, ?_⟩
  · unfold Fp.FpConfig.new
    simp only [Nat.one_shiftLeft, Nat.mul_mod_right]
    rw [if_neg (by omega), bind_ok e1, bind_ok e2, bind_ok e3, bind_ok e4]; rfl
  · have b3 := a3.trans a4
    have b2 := a2.trans b3
    exact ⟨rfl, rfl, rfl, rfl, b2.modOk o1, b3.modOk o2, a4.modOk o3, o4⟩

end

theorem field_ok {w : World} {r : Ref} {c0 : Circuit} {n N p rExp : Nat} (hw : WFw w) (hr : w.circs[r]? = some c0)
    (hN : N ≤ w.circs.length) (hf : FieldFits n p rExp) :
    ∃ cfg w', fieldOver r n p rExp w = (.ok cfg, w') ∧ After w w' ∧ cfg.cref = r ∧ cfg.intConfig.cref = r ∧
      IntOk w' N c0.storage n cfg.intConfig ∧ FpOk w' N c0.storage n p rExp cfg := by
  obtain ⟨ic, w1, e1, a1, hcr, o1⟩ := intConfig_ok hw hr hN (show 1 ≤ n by have := hf.width; omega)
  obtain ⟨cfg, w2, e2, a2, h1, h2, o2⟩ := fpConfig_ok a1.wf (a1.keeps.circ r c0 trivial hr) (Nat.le_trans hN a1.length) o1 hf
  refine ⟨cfg, w2, ?_, a1.trans a2, h1, by rw [h2, hcr], ?_, o2⟩
  · unfold fieldOver; rw [bind_ok e1]; exact e2
  · rw [h2]; exact o1.map fun _ _ _ _ h => a2.modOk h

/-! ### API calls only -/

theorem plays_AInt_new (cfg : IntConfig) (n : Nat) : Plays (AInt.new cfg n) := by unfold AInt.new; plays
theorem plays_AInt_fromGateIds (cfg : IntConfig) (n : Nat) (ids) : Plays (AInt.fromGateIds cfg n ids) := by
  unfold AInt.fromGateIds; plays
theorem plays_AInt_zero (cfg : IntConfig) (n : Nat) : Plays (AInt.zero cfg n) := plays_AInt_fromGateIds cfg n []
theorem plays_AInt_one (cfg : IntConfig) (n : Nat) : Plays (AInt.one cfg n) := by
  unfold AInt.one; exact .bind (plays_constant _ _) fun _ => plays_AInt_fromGateIds cfg n _
theorem plays_AInt_fromBiguint (cfg : IntConfig) (n v : Nat) : Plays (AInt.fromBiguint cfg n v) := by
  unfold AInt.fromBiguint; simp only []; plays
theorem plays_AInt_output (x : AInt) (n : Nat) : Plays (x.output n) := by unfold AInt.output; plays
theorem plays_AInt_add (x y : AInt) : Plays (x.add y) := by unfold AInt.add; plays
theorem plays_AInt_sub (x y : AInt) : Plays (x.sub y) := by unfold AInt.sub; plays
theorem plays_AInt_mul (x y : AInt) : Plays (x.mul y) := by unfold AInt.mul; plays
theorem plays_AInt_neg (x : AInt) (n : Nat) : Plays (x.neg n) := by
  unfold AInt.neg; exact .bind (.expect (plays_AInt_zero _ _)) fun _ => plays_AInt_sub _ _
theorem plays_AInt_compareWith (m : ModuleId) (x y : AInt) (n : Nat) : Plays (AInt.compareWith m x y n) := by
  unfold AInt.compareWith AInt.slices; plays
theorem plays_AInt_shiftRight (x : AInt) (n k : Nat) : Plays (x.shiftRight n k) := by unfold AInt.shiftRight; plays

macro "playsF" : tactic => `(tactic| repeat' with_reducible (first
  | exact plays_AInt_new _ _ | exact plays_AInt_fromGateIds _ _ _ | exact plays_AInt_zero _ _ | exact plays_AInt_one _ _
  | exact plays_AInt_fromBiguint _ _ _ | exact plays_AInt_output _ _ | exact plays_AInt_add _ _ | exact plays_AInt_sub _ _
  | exact plays_AInt_mul _ _ | exact plays_AInt_neg _ _ | exact plays_AInt_compareWith _ _ _ _
  | exact plays_AInt_shiftRight _ _ _
  | exact Plays.pure _ | exact Plays.throw _ | exact plays_constant _ _
  | exact plays_not _ _ | exact plays_and _ _ _ | exact plays_or _ _ _
  | exact plays_module _ _ _ | exact plays_subCircuit _
  | exact Plays.idx _ _ | assumption
  | apply Plays.expect | apply Plays.foldList | apply Plays.bind
  | intro _ | split))

theorem plays_fpAdd (r : Ref) (ic : IntConfig) (n p : Nat) : Plays (Fp.buildAdd r ic n p) := by
  unfold Fp.buildAdd AInt.larger AInt.less; playsF
theorem plays_fpSub (r : Ref) (ic : IntConfig) (n : Nat) (m : ModuleId) : Plays (Fp.buildSub r ic n m) := by
  unfold Fp.buildSub; playsF
theorem plays_fpMul (r : Ref) (ic : IntConfig) (n r2 : Nat) (m : ModuleId) : Plays (Fp.buildMul r ic n r2 m) := by
  unfold Fp.buildMul; playsF
theorem plays_fpMont (r : Ref) (ic : IntConfig) (n p pi k : Nat) : Plays (Fp.buildMontRed r ic n p pi k) := by
  unfold Fp.buildMontRed AInt.largerOrEq; playsF

theorem plays_fpConfig (r : Ref) (ic : IntConfig) (n p k : Nat) : Plays (Fp.FpConfig.new r ic n p k) := by
  unfold Fp.FpConfig.new
  simp only []
  split
  · exact .throw _
  · exact .bind (plays_fpAdd _ _ _ _) fun _ => .bind (plays_fpSub _ _ _ _) fun _ => .bind (plays_fpMont _ _ _ _ _ _) fun _ =>
      .bind (plays_fpMul _ _ _ _ _) fun _ => .pure _

theorem plays_fieldOver (r : Ref) (n p k : Nat) : Plays (fieldOver r n p k) :=
  .bind (plays_intConfig r n) fun _ => plays_fpConfig r _ n p k

/-! ### sessions -/

/-- a field configuration at a later time -/
structure FieldAt (w0 w : World) (r : Ref) (n p rExp : Nat) (cfg : Fp.FpConfig) (c : Circuit) : Prop where
  wf : WFw w
  circ : w.circs[r]? = some c
  lt : r < w0.circs.length
  cref : cfg.cref = r
  icref : cfg.intConfig.cref = r
  int : IntOk w w0.circs.length c.storage n cfg.intConfig
  ok : FpOk w w0.circs.length c.storage n p rExp cfg

theorem fieldOver_circ {r : Ref} {n p k : Nat} {w w' : World} {cfg : Fp.FpConfig} (h : fieldOver r n p k w = (.ok cfg, w')) :
    ∃ c, w.circs[r]? = some c := by
  unfold fieldOver at h
  rw [M.bind_apply] at h
  rcases hi : IntConfig.new r n w with ⟨a | a, w1⟩
  · rw [hi] at h; cases h
  · exact intConfig_circ hi

theorem field_session {w0 w1 w : World} {r : Ref} {n p rExp : Nat} {cfg : Fp.FpConfig} (h0 : Reachable w0)
    (hcfg : fieldOver r n p rExp w0 = (.ok cfg, w1)) (hs : Since w0 w1 w)
    (hf : FieldFits n p rExp) : ∃ c, FieldAt w0 w r n p rExp cfg c := by
  obtain ⟨c0, hc0⟩ := fieldOver_circ hcfg
  obtain ⟨cfg', w1', e, ha, hcr, hicr, hi, hok⟩ := field_ok (WFw.of_reachable h0) hc0 (Nat.le_refl _) hf
  rw [hcfg] at e; cases e
  have hx := ext_of_later ha.wf hs.later
  obtain ⟨c, hc, hec⟩ := hx.2.circs _ _ (ha.keeps.circ _ _ trivial hc0)
  refine ⟨c, hx.1, hc, lt_of_getElem? hc0, hcr, hicr, ?_, ?_⟩
  · rw [hec.storage]; exact hi.map fun _ _ _ _ hm => hm.session (hs.keeps ha.wf)
  · rw [hec.storage]; exact hok.map fun _ _ _ _ hm => hm.session (hs.keeps ha.wf)

section
variable {w0 w : World} {r : Ref} {n p rExp : Nat} {cfg : Fp.FpConfig} {c : Circuit}

/-- `RunsW` for a two-operand field operation -/
theorem RunsW.callFp (h : FieldAt w0 w r n p rExp cfg c) {mid : ModuleId} {φ : BitVec n → BitVec n → BitVec n}
    (hm : ModOk w w0.circs.length c.storage mid (2 * n) n (bin n (lift2 φ))) {xs ys : List GateId}
    (lx : xs.length = n) (ly : ys.length = n) :
    RunsW r w (do
      let outs ← M.expect (CC.module cfg.cref mid (xs ++ ys))
      Fp.AFp.fromGateIdsUnchecked cfg n outs) fun z w' => z.config = cfg ∧ z.val.config = cfg.intConfig ∧
        z.val.val.length = n ∧ ∀ ins a b, All2 (Val w r ins) xs a → All2 (Val w r ins) ys b →
          All2 (Val w' r ins) z.val.val (lift2 φ a b) := by
  rw [h.cref]
  refine RunsW.seq (RunsW.expect (RunsW.call2 h.wf h.circ h.lt hm lx ly)) ?_
  rintro gs w1 g1 ⟨h1, h2⟩
  unfold Fp.AFp.fromGateIdsUnchecked AInt.fromGateIds
  rw [if_pos (by omega), show n - gs.length = 0 by omega]
  refine RunsW.seq (P := fun v w' => v = { val := gs, config := cfg.intConfig } ∧ w' = w1)
    (RunsW.expect (RunsW.seq (RunsW.pure (a := []) (Q := fun l w' => l = [] ∧ w' = w1) g1.wf ⟨rfl, rfl⟩) ?_)) ?_
  · rintro _ _ _ ⟨rfl, rfl⟩
    exact RunsW.pure g1.wf ⟨by simp, rfl⟩
  · rintro _ _ _ ⟨rfl, rfl⟩
    exact RunsW.pure g1.wf ⟨rfl, rfl, h1, h2⟩

theorem FieldAt.grows {w' : World} (h : FieldAt w0 w r n p rExp cfg c) (g : Grows r w w') :
    ∃ c', FieldAt w0 w' r n p rExp cfg c' := by
  obtain ⟨c', hc', hst⟩ := g.at h.circ
  have hlt := h.lt
  have hk : Keeps (w0.circs.length ≤ ·) w w' := g.keeps.weaken fun y hy e => by subst e; omega
  refine ⟨c', g.wf, hc', h.lt, h.cref, h.icref, ?_, ?_⟩
  · rw [hst]; exact h.int.map fun _ _ _ _ hm => hm.session hk
  · rw [hst]; exact h.ok.map fun _ _ _ _ hm => hm.session hk

end

end CC
