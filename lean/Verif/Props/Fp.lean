import Verif.Proofs.FpV
import Verif.Props.Int

/-!
# C35–C39: the prime field

As in `Props/Int.lean`, `w0` is an arbitrary reachable heap, `w1` the heap after creating the configurations, `w` any heap
reached from there by calls that leave the module circuits of the configurations alone, and `ins` an arbitrary assignment
of the input wires. The integers are two's complement, so *room for `2p`* is `2p ≤ 2^(n-1)`.
-/

namespace CC.Props
open CC Spec Arith Logic Fp

theorem num_det {w : World} {r : Ref} {ins : List Bool} {gs : List GateId} {a b : Nat} (h : Num w r ins gs a)
    (k : Num w r ins gs b) : a = b := by
  obtain ⟨x, hx, rfl⟩ := h
  obtain ⟨y, hy, rfl⟩ := k
  congr 1
  apply List.ext_getElem?
  intro i
  by_cases hi : i < gs.length
  · have hxl := hx.1
    have hyl := hy.1
    rw [List.getElem?_eq_getElem (show i < x.length by omega), List.getElem?_eq_getElem (show i < y.length by omega)]
    congr 1
    exact (hx.2 i _ _ (List.getElem?_eq_getElem hi) (List.getElem?_eq_getElem _)).det
      (hy.2 i _ _ (List.getElem?_eq_getElem hi) (List.getElem?_eq_getElem _))
  · rw [List.getElem?_eq_none (by have := hx.1; omega), List.getElem?_eq_none (by have := hy.1; omega)]

theorem bvOf_toNat {n : Nat} {bs : List Bool} (h : bs.length = n) : (bvOf n bs).toNat = bitsVal bs := by
  subst h
  unfold bvOf
  rw [BitVec.toNat_ofNat, Nat.mod_eq_of_lt (bitsVal_lt bs)]

section
variable {w0 w1 w : World} {r : Ref} {n p rExp : Nat} {cfg : FpConfig}

/-- Creating a field configuration succeeds on every existing circuit if the constants fit, leaves the existing circuits
alone, and is a sequence of API calls. -/
theorem C35_config {w : World} {r : Ref} {c : Circuit} (h : Reachable w) (hc : w.circs[r]? = some c)
    (hf : FieldFits n p rExp) :
    ∃ cfg w1, fieldOver r n p rExp w = (.ok cfg, w1) ∧ cfg.cref = r ∧ cfg.intConfig.cref = r ∧ Later w w1 ∧
      ∀ (x : Ref) d, w.circs[x]? = some d → w1.circs[x]? = some d := by
  obtain ⟨cfg, w1, e, ha, hr, hir, _⟩ := field_ok (WFw.of_reachable h) hc (Nat.le_refl _) hf
  refine ⟨cfg, w1, e, hr, hir, ?_, fun x d hd => ha.keeps.circ x d trivial hd⟩
  have := plays_fieldOver r n p rExp w
  rw [e] at this; exact this

/-- The hypotheses of the theorems below can be met: a configuration on an empty circuit and two new field values. On the
input bits of two numbers `a`, `b`, `x` holds `a` and `y` holds `b`. -/
theorem demo_field {n p rExp : Nat} (hf : FieldFits n p rExp) : ∃ cfg w1 w, ∃ x y : AFp,
    Made (fieldOver 0 n p rExp) cfg start w1 w ∧ x.config = cfg ∧ y.config = cfg ∧ x.val.val.length = n ∧
    y.val.val.length = n ∧ ∀ a b, a < 2 ^ n → b < 2 ^ n →
      Num w 0 (bitsOf n a ++ bitsOf n b) x.val.val a ∧ Num w 0 (bitsOf n a ++ bitsOf n b) y.val.val b := by
  obtain ⟨cfg, w1, e, _, hcr, hl, hk⟩ := C35_config (r := 0) start_reachable rfl hf
  have hr1 := later_reachable start_reachable hl
  obtain ⟨x, w2, c2, e2, o2, x1, x2, hc2, i2, _, v2⟩ := C47_new_int (cfg := cfg.intConfig) hr1 (by rw [hcr]; exact hk 0 _ rfl) n
  have hr2 := later_reachable hr1 o2.later
  obtain ⟨y, w3, c3, e3, o3, y1, y2, hc3, i3, _, v3⟩ := C47_new_int (cfg := cfg.intConfig) hr2 hc2 n
  rw [hcr] at o2 o3 v2 v3
  refine ⟨cfg, w1, w3, ⟨x, cfg⟩, ⟨y, cfg⟩, ⟨start_reachable, e, ?_⟩, rfl, rfl, x2, y2, ?_⟩
  · exact (Since.refl.on (by decide) o2).on (by decide) o3
  · intro a b ha hb
    refine ⟨⟨_, v2 w3 o3.later _ ?_, ?_⟩, ⟨_, v3 w3 (.refl _) _ ?_, ?_⟩⟩
    · simp [Circuit.new]
    · simp [Circuit.new, bitsVal_bitsOf, Nat.mod_eq_of_lt ha]
    · rw [i2]; simp [Circuit.new]
    · rw [i2]
      have e1 : List.drop ((Circuit.new 0).inputLen + n) (bitsOf n a ++ bitsOf n b) = bitsOf n b := by
        rw [List.drop_left' (by simp [Circuit.new])]
      rw [e1, List.take_of_length_le (by simp), bitsVal_bitsOf, Nat.mod_eq_of_lt hb]

/-! ## C35: addition -/

/-- C35 except on pairs with `a + b = p`: for operands below `p` the sum is the canonical representative of `a + b`. If
`a + b = p` the result is `p` instead of `0`. -/
theorem C35_add_partial (hm : Made (fieldOver r n p rExp) cfg w0 w1 w) (hf : FieldFits n p rExp) (hroom : 2 * p ≤ 2 ^ (n - 1))
    {x y : AFp} (hx : x.config = cfg) (lx : x.val.val.length = n) (ly : y.val.val.length = n) :
    Gives r w (x.add y n) fun z w' => z.config = cfg ∧ z.val.config = cfg.intConfig ∧ z.val.val.length = n ∧
      ∀ ins a b, Num w r ins x.val.val a → Num w r ins y.val.val b → a < p → b < p →
        (a + b ≠ p → Num w' r ins z.val.val ((a + b) % p)) ∧ (a + b = p → Num w' r ins z.val.val p) := by
  obtain ⟨c, h⟩ := field_session hm.reachable hm.made hm.since hf
  subst hx
  refine RunsW.gives (RunsW.callFp h h.ok.add lx ly) ?_
  rintro z w' ⟨h1, h2, h3, h4⟩
  refine ⟨h1, h2, h3, ?_⟩
  rintro ins _ _ ⟨a, ha, rfl⟩ ⟨b, hb, rfl⟩ hap hbp
  have hw8 := hf.width
  have k := h4 ins a b (denotes_iff.mp ha) (denotes_iff.mp hb)
  have ea := bvOf_toNat (n := n) (bs := a) (by have := ha.1; omega)
  have eb := bvOf_toNat (n := n) (bs := b) (by have := hb.1; omega)
  have hv := fpAddV_add (a := bvOf n a) (b := bvOf n b) (by omega) hroom (by omega) (by omega)
  rw [ea, eb] at hv
  constructor
  · intro hne
    refine ⟨_, denotes_iff.mpr k, ?_⟩
    unfold lift2
    rw [bitsVal_bvBits, hv]
    split
    · rw [show bitsVal a + bitsVal b = (bitsVal a + bitsVal b - p) + p by omega, Nat.add_mod_right, Nat.mod_eq_of_lt (by omega)]
      omega
    · rw [Nat.mod_eq_of_lt (by omega)]
  · intro he
    refine ⟨_, denotes_iff.mpr k, ?_⟩
    unfold lift2
    rw [bitsVal_bvBits, hv, if_neg (by omega), he]

theorem fits11 : FieldFits 8 11 4 := ⟨by decide, by decide, by decide⟩

example : ∃ w, ∃ x y : AFp, Gives 0 w (x.add y 8) fun z w' => Num w' 0 (bitsOf 8 9 ++ bitsOf 8 5) z.val.val 3 := by
  obtain ⟨cfg, w1, w, x, y, hm, hx, hy, lx, ly, hv⟩ := demo_field fits11
  obtain ⟨z, w', e1, e2, _, _, _, h⟩ := C35_add_partial hm fits11 (by decide) hx lx ly
  exact ⟨w, x, y, z, w', e1, e2, (h _ 9 5 (hv 9 5 (by decide) (by decide)).1 (hv 9 5 (by decide) (by decide)).2 (by decide)
    (by decide)).1 (by decide)⟩

/-- C35 as stated is false, for every modulus `p ≥ 2` for which a configuration can be made: there are operands below `p`
whose sum the circuit reports as `p`, not as `0`. -/
theorem C35_full_false (hp2 : 2 ≤ p) (hf : FieldFits n p rExp) (hroom : 2 * p ≤ 2 ^ (n - 1)) :
    ∃ cfg w1 w ins a b, ∃ x y : AFp, Made (fieldOver 0 n p rExp) cfg start w1 w ∧ x.config = cfg ∧ y.config = cfg ∧
      Num w 0 ins x.val.val a ∧ Num w 0 ins y.val.val b ∧ a < p ∧ b < p ∧
      Gives 0 w (x.add y n) fun z w' => Num w' 0 ins z.val.val p ∧ ¬ Num w' 0 ins z.val.val ((a + b) % p) := by
  obtain ⟨cfg, w1, w, x, y, hm, hx, hy, lx, ly, hv⟩ := demo_field hf
  obtain ⟨z, w', e1, e2, _, _, _, h⟩ := C35_add_partial hm hf hroom hx lx ly
  have hh := pow_half (n := n) (by have := hf.width; omega)
  obtain ⟨ha, hb⟩ := hv 1 (p - 1) (by omega) (by omega)
  have hp := (h _ 1 (p - 1) ha hb (by omega) (by omega)).2 (by omega)
  refine ⟨cfg, w1, w, _, 1, p - 1, x, y, hm, hx, hy, ha, hb, by omega, by omega, z, w', e1, e2, hp, ?_⟩
  intro h0
  have := num_det h0 hp
  rw [show 1 + (p - 1) = p by omega, Nat.mod_self] at this
  omega

example : ∃ n p rExp, 2 ≤ p ∧ FieldFits n p rExp ∧ 2 * p ≤ 2 ^ (n - 1) := ⟨8, 11, 4, by decide, fits11, by decide⟩

/-! ## C36: subtraction and negation -/

/-- C36: for operands below `p` the difference is the canonical representative of `a − b` -/
theorem C36_sub (hm : Made (fieldOver r n p rExp) cfg w0 w1 w) (hf : FieldFits n p rExp) (hroom : 2 * p ≤ 2 ^ (n - 1))
    {x y : AFp} (hx : x.config = cfg) (lx : x.val.val.length = n) (ly : y.val.val.length = n) :
    Gives r w (x.sub y n) fun z w' => z.config = cfg ∧ z.val.config = cfg.intConfig ∧ z.val.val.length = n ∧
      ∀ ins a b, Num w r ins x.val.val a → Num w r ins y.val.val b → a < p → b < p →
        Num w' r ins z.val.val (((a : Int) - b) % p).toNat := by
  obtain ⟨c, h⟩ := field_session hm.reachable hm.made hm.since hf
  subst hx
  refine RunsW.gives (RunsW.callFp h h.ok.sub lx ly) ?_
  rintro z w' ⟨h1, h2, h3, h4⟩
  refine ⟨h1, h2, h3, ?_⟩
  rintro ins _ _ ⟨a, ha, rfl⟩ ⟨b, hb, rfl⟩ hap hbp
  have hw8 := hf.width
  have k := h4 ins a b (denotes_iff.mp ha) (denotes_iff.mp hb)
  have ea := bvOf_toNat (n := n) (bs := a) (by have := ha.1; omega)
  have eb := bvOf_toNat (n := n) (bs := b) (by have := hb.1; omega)
  have hv := fpAddV_sub (a := bvOf n a) (b := bvOf n b) (by omega) hroom (by omega) (by omega)
  rw [ea, eb] at hv
  refine ⟨_, denotes_iff.mpr k, ?_⟩
  unfold lift2
  rw [bitsVal_bvBits, hv]
  have e : (((bitsVal a + (p - bitsVal b)) % p : Nat) : Int) = ((bitsVal a : Int) - bitsVal b) % p := by
    rw [Int.natCast_mod, Int.natCast_add, Int.natCast_sub (by omega)]
    rw [show (bitsVal a : Int) + ((p : Int) - bitsVal b) = ((bitsVal a : Int) - bitsVal b) + p by omega, Int.add_emod_right]
  omega

example : ∃ w, ∃ x y : AFp, Gives 0 w (x.sub y 8) fun z w' => Num w' 0 (bitsOf 8 5 ++ bitsOf 8 9) z.val.val 7 := by
  obtain ⟨cfg, w1, w, x, y, hm, hx, hy, lx, ly, hv⟩ := demo_field fits11
  obtain ⟨z, w', e1, e2, _, _, _, h⟩ := C36_sub hm fits11 (by decide) hx lx ly
  exact ⟨w, x, y, z, w', e1, e2, h _ 5 9 (hv 5 9 (by decide) (by decide)).1 (hv 5 9 (by decide) (by decide)).2 (by decide)
    (by decide)⟩

/-- C36: for operands below `p` the negation is the canonical representative of `−a` -/
theorem C36_neg (hm : Made (fieldOver r n p rExp) cfg w0 w1 w) (hf : FieldFits n p rExp) (hroom : 2 * p ≤ 2 ^ (n - 1))
    {x : AFp} (hx : x.config = cfg) (lx : x.val.val.length = n) :
    Gives r w (x.neg n) fun z w' => z.config = cfg ∧ z.val.config = cfg.intConfig ∧ z.val.val.length = n ∧
      ∀ ins a, Num w r ins x.val.val a → a < p → Num w' r ins z.val.val ((-(a : Int)) % p).toNat := by
  obtain ⟨c, h⟩ := field_session hm.reachable hm.made hm.since hf
  subst hx
  refine RunsW.gives (Q := fun z w' => z.config = x.config ∧ z.val.config = x.config.intConfig ∧ z.val.val.length = n ∧
    ∀ ins a, All2 (Val w r ins) x.val.val a → All2 (Val w' r ins) z.val.val
      (lift2 (fun a b => fpAddV (BitVec.ofNat n p) a (-b)) (List.replicate n false) a)) ?_ ?_
  · unfold AFp.neg AFp.zero AInt.zero
    have hic := h.icref
    have := RunsW.fromGateIds (n := n) h.wf (cfg := x.config.intConfig) (by rw [hic]; exact h.circ) (ids := []) (Nat.zero_le _)
    rw [hic] at this
    refine RunsW.seq (P := fun z w' => z.config = x.config ∧ z.val.val.length = n ∧
      ∀ ins, All2 (Val w' r ins) z.val.val (List.replicate n false)) (RunsW.expect (RunsW.seq this ?_)) ?_
    · rintro z w' g ⟨h1, h2, h3⟩
      exact RunsW.pure g.wf ⟨rfl, h2, fun ins => by simpa using h3 ins [] trivial⟩
    · rintro z w' g ⟨h1, h2, h3⟩
      obtain ⟨c', h'⟩ := h.grows g
      unfold AFp.sub
      rw [h1]
      refine (RunsW.callFp h' h'.ok.sub h2 lx).mono ?_
      rintro z2 w2 g2 ⟨k1, k2, k3, k4⟩
      exact ⟨k1, k2, k3, fun ins a ha => k4 ins _ a (h3 ins) (g.vals ha)⟩
  · rintro z w' ⟨h1, h2, h3, h4⟩
    refine ⟨h1, h2, h3, ?_⟩
    rintro ins _ ⟨a, ha, rfl⟩ hap
    have hw8 := hf.width
    have k := h4 ins a (denotes_iff.mp ha)
    have ea := bvOf_toNat (n := n) (bs := a) (by have := ha.1; omega)
    have e0 := bvOf_toNat (n := n) (bs := List.replicate n false) (by simp)
    rw [bitsVal_replicate_false] at e0
    have hv := fpAddV_sub (a := bvOf n (List.replicate n false)) (b := bvOf n a) (by omega) hroom (by omega) (by omega)
    rw [ea, e0] at hv
    refine ⟨_, denotes_iff.mpr k, ?_⟩
    unfold lift2
    rw [bitsVal_bvBits, hv]
    have e : (((0 + (p - bitsVal a)) % p : Nat) : Int) = (-(bitsVal a : Int)) % p := by
      rw [Int.natCast_mod, Int.natCast_add, Int.natCast_sub (by omega)]
      rw [show ((0 : Nat) : Int) + ((p : Int) - bitsVal a) = -(bitsVal a : Int) + p by omega, Int.add_emod_right]
    omega

example : ∃ w, ∃ x : AFp, Gives 0 w (x.neg 8) fun z w' => Num w' 0 (bitsOf 8 5 ++ bitsOf 8 9) z.val.val 6 := by
  obtain ⟨cfg, w1, w, x, y, hm, hx, hy, lx, ly, hv⟩ := demo_field fits11
  obtain ⟨z, w', e1, e2, _, _, _, h⟩ := C36_neg hm fits11 (by decide) hx lx
  exact ⟨w, x, z, w', e1, e2, h _ 5 (hv 5 9 (by decide) (by decide)).1 (by decide)⟩

/-- the room is needed: with `2p` above `2^(n-1)` but below `2^n` the difference of two operands below `p` can be wrong -/
theorem C36_room_needed : ∃ n p rExp cfg w1 w ins a b, ∃ x y : AFp, FieldFits n p rExp ∧ 2 * p < 2 ^ n ∧
    Made (fieldOver 0 n p rExp) cfg start w1 w ∧ x.config = cfg ∧ y.config = cfg ∧
    Num w 0 ins x.val.val a ∧ Num w 0 ins y.val.val b ∧ a < p ∧ b < p ∧
    Gives 0 w (x.sub y n) fun z w' => ¬ Num w' 0 ins z.val.val (((a : Int) - b) % p).toNat := by
  have hf : FieldFits 8 100 4 := ⟨by decide, by decide, by decide⟩
  obtain ⟨cfg, w1, w, x, y, hm, hx, hy, lx, ly, hv⟩ := demo_field hf
  obtain ⟨c, h⟩ := field_session hm.reachable hm.made hm.since hf
  obtain ⟨ha, hb⟩ := hv 1 51 (by decide) (by decide)
  refine ⟨8, 100, 4, cfg, w1, w, _, 1, 51, x, y, hf, by decide, hm, hx, hy, ha, hb, by decide, by decide, ?_⟩
  subst hx
  refine RunsW.gives (RunsW.callFp h h.ok.sub lx ly) ?_
  rintro z w' ⟨h1, h2, h3, h4⟩ hno
  obtain ⟨a, ha, ea⟩ := ha
  obtain ⟨b, hb, eb⟩ := hb
  have k : Num w' 0 _ z.val.val _ := ⟨_, denotes_iff.mpr (h4 _ a b (denotes_iff.mp ha) (denotes_iff.mp hb)), rfl⟩
  have hd := num_det hno k
  unfold lift2 at hd
  rw [bitsVal_bvBits] at hd
  unfold bvOf at hd
  rw [ea, eb] at hd
  revert hd
  decide

/-! ## C37: multiplication -/

/-- C37, what the code computes: the constant `r2` is reduced modulo `R` instead of modulo `p`, so it is `0`, and so is
every product. It is therefore right only for operands whose product is a multiple of `p`. -/
theorem C37_mul_partial (hm : Made (fieldOver r n p rExp) cfg w0 w1 w) (hf : FieldFits n p rExp) (hp : 1 ≤ p) (hroom : p ≤ 2 ^ (n - 1))
    {x y : AFp} (hx : x.config = cfg) (lx : x.val.val.length = n) (ly : y.val.val.length = n) :
    cfg.r2 = 0 ∧ Gives r w (x.mul y n) fun z w' => z.config = cfg ∧ z.val.config = cfg.intConfig ∧ z.val.val.length = n ∧
      ∀ ins a b, Num w r ins x.val.val a → Num w r ins y.val.val b →
        Num w' r ins z.val.val 0 ∧ (Num w' r ins z.val.val (a * b % p) ↔ p ∣ a * b) := by
  obtain ⟨c, h⟩ := field_session hm.reachable hm.made hm.since hf
  subst hx
  refine ⟨h.ok.r2, RunsW.gives (RunsW.callFp h h.ok.mul lx ly) ?_⟩
  rintro z w' ⟨h1, h2, h3, h4⟩
  refine ⟨h1, h2, h3, ?_⟩
  rintro ins _ _ ⟨a, ha, rfl⟩ ⟨b, hb, rfl⟩
  have hw8 := hf.width
  have k := h4 ins a b (denotes_iff.mp ha) (denotes_iff.mp hb)
  have h0 : Num w' r ins z.val.val 0 := by
    refine ⟨_, denotes_iff.mpr k, ?_⟩
    unfold lift2
    rw [bitsVal_bvBits, fpMulV_zero (by omega) hp hroom]
    simp
  refine ⟨h0, fun hn => ?_, fun hd => ?_⟩
  · exact Nat.dvd_of_mod_eq_zero (num_det hn h0)
  · rw [Nat.mod_eq_zero_of_dvd hd]; exact h0

example : ∃ w, ∃ x y : AFp, Gives 0 w (x.mul y 8) fun z w' => Num w' 0 (bitsOf 8 5 ++ bitsOf 8 9) z.val.val 0 := by
  obtain ⟨cfg, w1, w, x, y, hm, hx, hy, lx, ly, hv⟩ := demo_field fits11
  obtain ⟨_, z, w', e1, e2, _, _, _, h⟩ := C37_mul_partial hm fits11 (by decide) (by decide) hx lx ly
  exact ⟨w, x, y, z, w', e1, e2, (h _ 5 9 (hv 5 9 (by decide) (by decide)).1 (hv 5 9 (by decide) (by decide)).2).1⟩

/-- C37 as stated is false for every modulus `p ≥ 2`: `1 * 1` is `0` -/
theorem C37_full_false (hp2 : 2 ≤ p) (hf : FieldFits n p rExp) (hroom : p ≤ 2 ^ (n - 1)) :
    ∃ cfg w1 w ins, ∃ x y : AFp, Made (fieldOver 0 n p rExp) cfg start w1 w ∧ x.config = cfg ∧ y.config = cfg ∧
      Num w 0 ins x.val.val 1 ∧ Num w 0 ins y.val.val 1 ∧
      Gives 0 w (x.mul y n) fun z w' => Num w' 0 ins z.val.val 0 ∧ ¬ Num w' 0 ins z.val.val (1 * 1 % p) := by
  obtain ⟨cfg, w1, w, x, y, hm, hx, hy, lx, ly, hv⟩ := demo_field hf
  obtain ⟨_, z, w', e1, e2, _, _, _, h⟩ := C37_mul_partial hm hf (by omega) hroom hx lx ly
  have hw8 := hf.width
  have hh := pow_half (n := n) (by omega)
  obtain ⟨ha, hb⟩ := hv 1 1 (by omega) (by omega)
  obtain ⟨h0, h1⟩ := h _ 1 1 ha hb
  refine ⟨cfg, w1, w, _, x, y, hm, hx, hy, ha, hb, z, w', e1, e2, h0, ?_⟩
  intro hn
  have := Nat.le_of_dvd (by decide) (h1.mp hn)
  omega

example : ∃ n p rExp, 2 ≤ p ∧ FieldFits n p rExp ∧ p ≤ 2 ^ (n - 1) := ⟨8, 11, 4, by decide, fits11, by decide⟩

/-! ## C39: the Montgomery constant -/

theorem odd_coprime_two {p : Nat} (hp : p % 2 = 1) : Nat.Coprime p 2 := by
  show Nat.gcd p 2 = 1
  rw [Nat.gcd_comm, Nat.gcd_rec, hp]; rfl

/-- C39 on the formula of the code: `r − mod_inv(p, r)` -/
theorem C39_constant {p k : Nat} (hp : p % 2 = 1) (hk : 1 ≤ k) :
    modInv p (2 ^ k) ≤ 2 ^ k ∧ (p * (2 ^ k - modInv p (2 ^ k)) + 1) % 2 ^ k = 0 ∧ 0 < 2 ^ k - modInv p (2 ^ k) ∧
      2 ^ k - modInv p (2 ^ k) ≤ 2 ^ k := by
  have h1 : 1 < 2 ^ k := Nat.one_lt_two_pow (by omega)
  have hle := modInv_le p (m := 2 ^ k) (by omega)
  have hg : Nat.gcd p (2 ^ k) = 1 := by
    apply Nat.Coprime.pow_right
    exact odd_coprime_two hp
  have hi := modInv_mul (p := p) (m := 2 ^ k) (by omega) hg
  rw [Nat.mod_eq_of_lt h1] at hi
  have hlt : modInv p (2 ^ k) < 2 ^ k := by
    refine Nat.lt_of_le_of_ne hle ?_
    intro he
    rw [he, Nat.mul_mod_left] at hi
    omega
  refine ⟨hle, ?_, by omega, by omega⟩
  have e : p * (2 ^ k - modInv p (2 ^ k)) + 1 + (p * modInv p (2 ^ k)) = p * 2 ^ k + 1 := by
    rw [Nat.mul_sub]
    have : p * modInv p (2 ^ k) ≤ p * 2 ^ k := Nat.mul_le_mul_left _ hle
    omega
  have h2 : (p * (2 ^ k - modInv p (2 ^ k)) + 1 + (p * modInv p (2 ^ k))) % 2 ^ k = 1 := by
    rw [e, Nat.mul_add_mod_self_right, Nat.mod_eq_of_lt h1]
  rw [Nat.add_mod, hi] at h2
  have hl := Nat.mod_lt (p * (2 ^ k - modInv p (2 ^ k)) + 1) (show 2 ^ k > 0 by omega)
  generalize (p * (2 ^ k - modInv p (2 ^ k)) + 1) % 2 ^ k = q at h2 hl
  by_cases hq : q + 1 < 2 ^ k
  · rw [Nat.mod_eq_of_lt hq] at h2; omega
  · rw [show q + 1 = 2 ^ k by omega, Nat.mod_self] at h2; omega

/-- C39: whenever `AllocFpConfig::new` returns a configuration for an odd `p` and `r_exp ≥ 1`, in whatever heap and with
whatever integer configuration, its `p_minus_inv` is `−p⁻¹` modulo `2^r_exp`. -/
theorem C39_config {ic : IntConfig} {w w' : World} (hnew : FpConfig.new r ic n p rExp w = (.ok cfg, w')) (hp : p % 2 = 1)
    (hk : 1 ≤ rExp) : cfg.p = p ∧ cfg.rExp = rExp ∧ (p * cfg.pMinusInv + 1) % 2 ^ rExp = 0 ∧ 0 < cfg.pMinusInv ∧
      cfg.pMinusInv ≤ 2 ^ rExp := by
  have key : cfg.p = p ∧ cfg.rExp = rExp ∧ cfg.pMinusInv = 2 ^ rExp - modInv p (2 ^ rExp) := by
    unfold FpConfig.new at hnew
    simp only [Nat.one_shiftLeft] at hnew
    split at hnew
    · cases hnew
    · rw [M.bind_apply] at hnew
      rcases h1 : Fp.buildAdd r ic n p w with ⟨a | a, v1⟩ <;> rw [h1] at hnew
      · cases hnew
      simp only [] at hnew
      rw [M.bind_apply] at hnew
      rcases h2 : Fp.buildSub r ic n a v1 with ⟨b | b, v2⟩ <;> rw [h2] at hnew
      · cases hnew
      simp only [] at hnew
      rw [M.bind_apply] at hnew
      rcases h3 : Fp.buildMontRed r ic n p (2 ^ rExp - modInv p (2 ^ rExp)) rExp v2 with ⟨d | d, v3⟩ <;> rw [h3] at hnew
      · cases hnew
      simp only [] at hnew
      rw [M.bind_apply] at hnew
      rcases h4 : Fp.buildMul r ic n (2 ^ rExp * 2 ^ rExp % 2 ^ rExp) d v3 with ⟨e | e, v4⟩ <;> rw [h4] at hnew
      · cases hnew
      · cases hnew
        exact ⟨rfl, rfl, rfl⟩
  obtain ⟨k1, k2, k3⟩ := key
  obtain ⟨_, h2, h3, h4⟩ := C39_constant (p := p) hp hk
  rw [k3]
  exact ⟨k1, k2, h2, h3, h4⟩

/-- for `p = 11` and `R = 16` the constant is `13`: `11 * 13 + 1 = 9 * 16` -/
theorem const11 : 2 ^ 4 - modInv 11 (2 ^ 4) = 13 := by
  have h := C39_constant (p := 11) (k := 4) (by decide) (by decide)
  omega

example : ∃ cfg w', ∃ ic w, FpConfig.new 0 ic 8 11 4 w = (.ok cfg, w') ∧ (11 * cfg.pMinusInv + 1) % 2 ^ 4 = 0 := by
  obtain ⟨ic, w1, e1, a1, hcr, o1⟩ := intConfig_ok (r := 0) (n := 8) (WFw.of_reachable start_reachable) rfl (Nat.le_refl _) (by decide)
  obtain ⟨cfg, w2, e2, _⟩ := fpConfig_ok a1.wf (a1.keeps.circ 0 _ trivial rfl) a1.length o1 fits11
  exact ⟨cfg, w2, ic, w1, e2, (C39_config e2 (by decide) (by decide)).2.2.1⟩

/-! ## C38: Montgomery reduction -/

/-- the number computed before the final subtraction is exact and its residue is right -/
theorem mont_quotient {p k T : Nat} (hp : p % 2 = 1) (hk : 1 ≤ k) :
    let m := T * (2 ^ k - modInv p (2 ^ k)) % 2 ^ k
    (T + m * p) / 2 ^ k * 2 ^ k = T + m * p := by
  intro m
  apply Nat.div_mul_cancel
  obtain ⟨_, h2, _, _⟩ := C39_constant (p := p) hp hk
  show 2 ^ k ∣ T + T * (2 ^ k - modInv p (2 ^ k)) % 2 ^ k * p
  clear m
  generalize 2 ^ k - modInv p (2 ^ k) = pi at h2
  apply Nat.dvd_of_mod_eq_zero
  have e1 : (T + T * pi % 2 ^ k * p) % 2 ^ k = (T + T * pi * p) % 2 ^ k := by
    rw [Nat.add_mod, Nat.mul_mod, Nat.mod_mod, ← Nat.mul_mod, ← Nat.add_mod]
  rw [e1, show T + T * pi * p = T * (p * pi + 1) by ring, Nat.mul_mod, h2, Nat.mul_zero, Nat.zero_mod]

/-- C38 up to the sign of the last step: for an odd `p`, `R = 2^r_exp` and room for `2pR`, the module maps every `T < pR`
to the canonical representative `q` of `T / R` modulo `p`, or to `−q` in two's complement. Which of the two happens
depends on whether the unreduced quotient `(T + m·p) / R` is at least `p`. -/
theorem C38_montRed_partial (hm : Made (fieldOver r n p rExp) cfg w0 w1 w) (hf : FieldFits n p rExp) (hp : p % 2 = 1)
    (hk : 1 ≤ rExp) (hroom : 2 * (p * 2 ^ rExp) ≤ 2 ^ (n - 1)) {gs : List GateId} (lg : gs.length = n) :
    Gives r w (CC.module r cfg.montRedMid gs) fun zs w' => zs.length = n ∧
      ∀ ins T, Num w r ins gs T → T < p * 2 ^ rExp →
        ∃ q, Quotient p (2 ^ rExp) T q ∧
          Num w' r ins zs (if p * 2 ^ rExp ≤ T + (T * cfg.pMinusInv % 2 ^ rExp) * p then q else (2 ^ n - q) % 2 ^ n) := by
  obtain ⟨c, h⟩ := field_session hm.reachable hm.made hm.since hf
  refine RunsW.gives (RunsW.module h.wf h.circ h.lt h.ok.mont gs) ?_
  rintro zs w' ⟨h1, h2⟩
  refine ⟨h1, ?_⟩
  rintro ins _ ⟨a, ha, rfl⟩ hT
  have hw8 := hf.width
  have hla : a.length = n := by have := ha.1; omega
  have k := h2 ins a (denotes_iff.mp ha) hla
  have ea := bvOf_toNat hla
  have hv := fpMontV_val (pi := 2 ^ rExp - modInv p (2 ^ rExp)) (v := bvOf n a) (by omega) hroom (by omega)
  rw [ea, ← h.ok.pi] at hv
  have hq := mont_quotient (T := bitsVal a) hp hk
  simp only [← h.ok.pi] at hq
  simp only at hv
  have hR : 0 < 2 ^ rExp := Nat.two_pow_pos _
  generalize hmm : bitsVal a * cfg.pMinusInv % 2 ^ rExp = m at hq hv
  have hml : m < 2 ^ rExp := by rw [← hmm]; exact Nat.mod_lt _ hR
  generalize htt : (bitsVal a + m * p) / 2 ^ rExp = t at hq hv
  have hcond : p * 2 ^ rExp ≤ bitsVal a + m * p ↔ p ≤ t := by
    rw [← htt, Nat.le_div_iff_mul_le hR]
  have hmp : m * p + p ≤ p * 2 ^ rExp := by
    rw [← Nat.succ_mul, Nat.mul_comm p]; exact Nat.mul_le_mul_right _ hml
  have ht2 : t < 2 * p := by
    rw [← htt, Nat.div_lt_iff_lt_mul hR, Nat.mul_assoc]; omega
  have hres : t * 2 ^ rExp % p = bitsVal a % p := by rw [hq, Nat.add_mul_mod_self_right]
  refine ⟨if p ≤ t then t - p else t, ⟨?_, ?_⟩, _, denotes_iff.mpr k, ?_⟩
  · split <;> omega
  · split
    · rw [← hres]
      conv_rhs => rw [show t = (t - p) + p by omega, Nat.add_mul, Nat.add_mul_mod_self_left]
    · exact hres
  · show bitsVal (lift1 _ a) = _
    unfold lift1
    rw [bitsVal_bvBits, ← h.ok.pi, hv]
    by_cases hc : p ≤ t
    · rw [if_pos hc, if_pos (hcond.mpr hc), if_pos hc]
    · rw [if_neg hc, if_neg (fun e => hc (hcond.mp e)), if_neg hc]

/-- 8 bits, as in the test of `mod.rs` (`N = 2 * REXP`), are not enough room; 16 are -/
theorem fits11w : FieldFits 16 11 4 := ⟨by decide, by decide, by decide⟩

/-- `T = 175`: `m = 3` and the unreduced quotient is `208 / 16 = 13`, so the result is canonical: `2 * 16 = 175 (mod 11)` -/
example : ∃ w gs mid, Gives 0 w (CC.module 0 mid gs) fun zs w' => Num w' 0 (bitsOf 16 175 ++ bitsOf 16 0) zs 2 := by
  obtain ⟨cfg, w1, w, x, y, hm, hx, hy, lx, ly, hv⟩ := demo_field fits11w
  obtain ⟨c, hc⟩ := field_session hm.reachable hm.made hm.since fits11w
  obtain ⟨z, w', e1, e2, _, h⟩ := C38_montRed_partial hm fits11w (by decide) (by decide) (by decide) lx
  obtain ⟨q, hq, hn⟩ := h _ 175 (hv 175 0 (by decide) (by decide)).1 (by decide)
  rw [hc.ok.pi, const11, if_pos (by decide)] at hn
  have : ∀ q < 11, q * 2 ^ 4 % 11 = 175 % 11 → q = 2 := by decide
  rw [this q hq.1 hq.2] at hn
  exact ⟨w, _, _, z, w', e1, e2, hn⟩

/-- C38 as stated is false for every odd `p ≥ 3`: `T = R` is mapped to a word that is not below `p`, whatever the width -/
theorem C38_full_false (hp : p % 2 = 1) (hp3 : 3 ≤ p) (hk : 1 ≤ rExp) (hf : FieldFits n p rExp)
    (hroom : 2 * (p * 2 ^ rExp) ≤ 2 ^ (n - 1)) :
    ∃ cfg w1 w ins gs, Made (fieldOver 0 n p rExp) cfg start w1 w ∧ Num w 0 ins gs (2 ^ rExp) ∧ 2 ^ rExp < p * 2 ^ rExp ∧
      Gives 0 w (CC.module 0 cfg.montRedMid gs) fun zs w' => ∀ v, Num w' 0 ins zs v → ¬ Quotient p (2 ^ rExp) (2 ^ rExp) v := by
  obtain ⟨cfg, w1, w, x, y, hm, hx, hy, lx, ly, hv⟩ := demo_field hf
  obtain ⟨z, w', e1, e2, _, h⟩ := C38_montRed_partial hm hf hp hk hroom lx
  have hw8 := hf.width
  have hh := pow_half (n := n) (by omega)
  have hR : 0 < 2 ^ rExp := Nat.two_pow_pos _
  have h3 : 3 * 2 ^ rExp ≤ p * 2 ^ rExp := Nat.mul_le_mul_right _ hp3
  have hpR : p ≤ p * 2 ^ rExp := Nat.le_mul_of_pos_right _ hR
  obtain ⟨ha, _⟩ := hv (2 ^ rExp) 0 (by omega) (by omega)
  obtain ⟨q, ⟨hq1, hq2⟩, hn⟩ := h _ _ ha (by omega)
  rw [Nat.mul_mod_right, Nat.zero_mul, Nat.add_zero, if_neg (by omega)] at hn
  have hq0 : q ≠ 0 := by
    rintro rfl
    rw [Nat.zero_mul, Nat.zero_mod] at hq2
    have hd : p ∣ 2 ^ rExp := Nat.dvd_of_mod_eq_zero hq2.symm
    have hc : Nat.Coprime p (2 ^ rExp) := Nat.Coprime.pow_right _ (odd_coprime_two hp)
    have := hc.eq_one_of_dvd hd
    omega
  rw [Nat.mod_eq_of_lt (by omega)] at hn
  refine ⟨cfg, w1, w, _, _, hm, ha, by omega, z, w', e1, e2, fun v hv' hquo => ?_⟩
  rw [num_det hv' hn] at hquo
  have := hquo.1
  omega

example : ∃ n p rExp, p % 2 = 1 ∧ 3 ≤ p ∧ 1 ≤ rExp ∧ FieldFits n p rExp ∧ 2 * (p * 2 ^ rExp) ≤ 2 ^ (n - 1) :=
  ⟨16, 11, 4, by decide, by decide, by decide, fits11w, by decide⟩

end

end CC.Props
