import Verif.Proofs.Mult64
import Verif.Proofs.Udiv64
import Verif.Proofs.Div64
import Verif.Props.Bundled

/-!
# C48–C50: the bundled 64-bit multiplier and dividers

The texts of the files are part of the model. The kernel checks, with a certificate that says which lines form which cell, that
the lines are rows of adders or subtractors; that the rows compose to a product or a quotient is proved for all operands.
-/

namespace CC.Props
open CC Spec Spec.Bristol CC.Bristol CC.Bundled

theorem append_get {xs ys : List Bool} {m i : Nat} (hx : xs.length = m) : (xs ++ ys)[m + i]? = ys[i]? := by
  rw [List.getElem?_append_right (by omega)]
  congr 1; omega

/-- the wires that carry the bits of a number -/
theorem wires_eq {W : Nat → Bool} {ins : List Bool} {s n a : Nat} (ha : a < 2 ^ n)
    (hW : ∀ i, i < n → ins[s + i]? = some (W (s + i))) (hi : ∀ i, i < n → ins[s + i]? = some (a.testBit i)) :
    wnum W (List.range' s n) = a := by
  apply wnum_range'_eq W ha
  intro i h
  have := (hW i h).symm.trans (hi i h)
  exact Option.some.inj this

theorem halves {p l h : Nat} (e : p = l + 2 ^ 64 * h) (hl : l < 2 ^ 64) : p / 2 ^ 64 = h ∧ p % 2 ^ 64 = l := by omega

theorem mult64_output {a b : Nat} (ha : a < 2 ^ 64) (hb : b < 2 ^ 64) {i : Nat} (hi : i < 128) :
    mult64File.output (bitsOf 64 a ++ bitsOf 64 b) i = (bitsOf 64 (a * b / 2 ^ 64) ++ bitsOf 64 (a * b % 2 ^ 64))[i]? := by
  obtain ⟨W, h1, h2, h3⟩ := mult64_packed.wires (ins := bitsOf 64 a ++ bitsOf 64 b) (by simp; rfl)
  have hin : ∀ i, i < 128 → (bitsOf 64 a ++ bitsOf 64 b)[i]? = some (W i) := h1
  have hA : wnum W (List.range' 0 64) = a := wires_eq ha (fun i hi => hin _ (by omega)) fun i hi => by
    rw [Nat.zero_add]; exact (pair_get hi).1
  have hB : wnum W (List.range' 64 64) = b := wires_eq hb (fun i hi => hin _ (by omega)) fun i hi => (pair_get hi).2
  have hm := mul_sound h2 mult64_mul
  rw [hA, hB] at hm
  have hlo := wnum_lt W (List.range' 28096 64)
  rw [List.length_range'] at hlo
  rw [h3 i hi]
  show some (W (28032 + i)) = _
  by_cases h : i < 64
  · rw [List.getElem?_append_left (by simpa using h), bitsOf_get h, ← wnum_range' W h]
    rw [(halves hm hlo).1]
  · obtain ⟨j, rfl⟩ : ∃ j, i = 64 + j := ⟨i - 64, by omega⟩
    rw [append_get (by simp), bitsOf_get (by omega), show 28032 + (64 + j) = 28096 + j by omega,
      ← wnum_range' W (s := 28096) (n := 64) (by omega)]
    rw [(halves hm hlo).2]

/-- C48: `build_mult2_64` on a new circuit succeeds, and evaluating the circuit multiplies: the first 64 outputs are the
upper half of the product, the other 64 the lower half. -/
theorem C48_mult64 {w : World} (h : Reachable w) {r : Ref} (hr : New w r) : ∃ w', buildMult64 r w = (.ok (), w') ∧
    ∃ F, ∀ fuel ≥ F, ∀ a b : Nat, a < 2 ^ 64 → b < 2 ^ 64 →
      evalOutput w' fuel r (bitsOf 64 a ++ bitsOf 64 b) = .ok (bitsOf 64 (a * b / 2 ^ 64) ++ bitsOf 64 (a * b % 2 ^ 64)) := by
  obtain ⟨s, hc⟩ := hr
  obtain ⟨w', h1, F, h2⟩ := eval_of_output mult64_text mult64_packed.valid mult64_packed.unread h hc
  refine ⟨w', h1, F, fun fuel hf a b ha hb => h2 fuel hf _ _ ?_ ?_ ?_⟩
  · simp; rfl
  · simp; rfl
  · exact fun i hi => mult64_output ha hb hi

/-- C48, in the middle of a larger circuit: building into any circuit `r` adds 128 inputs and 128 outputs, and the new outputs
have the bits of the product. -/
theorem C48_into {w : World} (h : Reachable w) {r : Ref} {c : Circuit} (hc : w.circs[r]? = some c) :
    ∃ w' c', buildMult64 r w = (.ok (), w') ∧ w'.circs[r]? = some c' ∧ c'.inputLen = c.inputLen + 128 ∧
      c'.outputLen = c.outputLen + 128 ∧ ∀ (pre : List Bool) (a b : Nat), pre.length = c.inputLen → a < 2 ^ 64 → b < 2 ^ 64 →
      ∀ i, i < 64 → ∃ o o', c'.outputMap (c.outputLen + i) = some o ∧ c'.outputMap (c.outputLen + (64 + i)) = some o' ∧
        Val w' r (pre ++ (bitsOf 64 a ++ bitsOf 64 b)) o ((a * b).testBit (64 + i)) ∧
        Val w' r (pre ++ (bitsOf 64 a ++ bitsOf 64 b)) o' ((a * b).testBit i) := by
  obtain ⟨w', c', h1, h2, h3, h4, h5⟩ := val_of_output mult64_text mult64_packed.valid h hc
  refine ⟨w', c', h1, h2, h3, h4, fun pre a b hp ha hb i hi => ?_⟩
  have h6 := h5 pre (bitsOf 64 a ++ bitsOf 64 b) (bitsOf 64 (a * b / 2 ^ 64) ++ bitsOf 64 (a * b % 2 ^ 64)) hp (by simp; rfl)
    fun i hi => mult64_output ha hb hi
  obtain ⟨o, v, k1, k2, k3⟩ := h6 i (Nat.lt_trans hi (by decide))
  obtain ⟨o', v', k1', k2', k3'⟩ := h6 (64 + i) (Nat.add_lt_add_left hi 64)
  rw [List.getElem?_append_left (by simpa using hi), bitsOf_get hi] at k2
  rw [append_get (by simp), bitsOf_get hi] at k2'
  cases k2; cases k2'
  refine ⟨o, o', k1, k1', ?_, ?_⟩
  · rw [Nat.testBit_div_two_pow] at k3
    rw [Nat.add_comm]; exact k3
  · rw [Nat.testBit_mod_two_pow] at k3'
    simpa [hi] using k3'

/-! ### division -/

theorem udiv64_output {a b : Nat} (ha : a < 2 ^ 64) (hb : b < 2 ^ 64) {i : Nat} (hi : i < 64) :
    udiv64File.output (bitsOf 64 a ++ bitsOf 64 b) i = (bitsOf 64 (quotient a b))[i]? := by
  obtain ⟨W, h1, h2, h3⟩ := udiv64_packed.wires (ins := bitsOf 64 a ++ bitsOf 64 b) (by simp; rfl)
  have hin : ∀ i, i < 128 → (bitsOf 64 a ++ bitsOf 64 b)[i]? = some (W i) := h1
  have hA : wnum W (List.range' 0 64) = a := wires_eq ha (fun i hi => hin _ (by omega)) fun i hi => by
    rw [Nat.zero_add]; exact (pair_get hi).1
  have hB : wnum W (List.range' 64 64) = b := wires_eq hb (fun i hi => hin _ (by omega)) fun i hi => (pair_get hi).2
  have hm := udiv_sound h2 udiv64_udiv
  rw [hA, hB] at hm
  rw [h3 i hi]
  show some (W (17016 + i)) = _
  rw [bitsOf_get hi, ← wnum_range' W hi, hm]

theorem udiv64_eval {w : World} (h : Reachable w) {r : Ref} (hr : New w r) : ∃ w', buildUdiv64 r w = (.ok (), w') ∧
    ∃ F, ∀ fuel ≥ F, ∀ a b : Nat, a < 2 ^ 64 → b < 2 ^ 64 →
      evalOutput w' fuel r (bitsOf 64 a ++ bitsOf 64 b) = .ok (bitsOf 64 (quotient a b)) := by
  obtain ⟨s, hc⟩ := hr
  obtain ⟨w', h1, F, h2⟩ := eval_of_output udiv64_text udiv64_packed.valid udiv64_packed.unread h hc
  refine ⟨w', h1, F, fun fuel hf a b ha hb => h2 fuel hf _ _ ?_ ?_ ?_⟩
  · simp; rfl
  · simp; rfl
  · exact fun i hi => udiv64_output ha hb hi

/-- C49: `build_divide_unsigned_64` on a new circuit succeeds, and evaluating the circuit divides; the quotient by zero is
`2^64 - 1`. -/
theorem C49_udiv64 {w : World} (h : Reachable w) {r : Ref} (hr : New w r) : ∃ w', buildUdiv64 r w = (.ok (), w') ∧
    ∃ F, ∀ fuel ≥ F, ∀ a b : Nat, a < 2 ^ 64 → b < 2 ^ 64 →
      (b ≠ 0 → evalOutput w' fuel r (bitsOf 64 a ++ bitsOf 64 b) = .ok (bitsOf 64 (a / b))) ∧
      (b = 0 → evalOutput w' fuel r (bitsOf 64 a ++ bitsOf 64 b) = .ok (List.replicate 64 true)) := by
  obtain ⟨w', h1, F, h2⟩ := udiv64_eval h hr
  refine ⟨w', h1, F, fun fuel hf a b ha hb => ⟨fun h0 => ?_, fun h0 => ?_⟩⟩
  · rw [h2 fuel hf a b ha hb, quotient, if_neg h0]
  · rw [h2 fuel hf a b ha hb, quotient, if_pos h0]
    rfl

/-- C49, in the middle of a larger circuit: building into any circuit `r` adds 128 inputs and 64 outputs, and the new outputs
have the bits of the quotient. -/
theorem C49_into {w : World} (h : Reachable w) {r : Ref} {c : Circuit} (hc : w.circs[r]? = some c) :
    ∃ w' c', buildUdiv64 r w = (.ok (), w') ∧ w'.circs[r]? = some c' ∧ c'.inputLen = c.inputLen + 128 ∧
      c'.outputLen = c.outputLen + 64 ∧ ∀ (pre : List Bool) (a b : Nat), pre.length = c.inputLen → a < 2 ^ 64 → b < 2 ^ 64 →
      ∀ i, i < 64 → ∃ o, c'.outputMap (c.outputLen + i) = some o ∧
        Val w' r (pre ++ (bitsOf 64 a ++ bitsOf 64 b)) o (if b = 0 then true else (a / b).testBit i) := by
  obtain ⟨w', c', h1, h2, h3, h4, h5⟩ := val_of_output udiv64_text udiv64_packed.valid h hc
  refine ⟨w', c', h1, h2, h3, h4, fun pre a b hp ha hb i hi => ?_⟩
  obtain ⟨o, v, k1, k2, k3⟩ := h5 pre (bitsOf 64 a ++ bitsOf 64 b) (bitsOf 64 (quotient a b)) hp (by simp; rfl)
    (fun i hi => udiv64_output ha hb hi) i hi
  rw [bitsOf_get hi] at k2
  cases k2
  refine ⟨o, k1, ?_⟩
  have : (quotient a b).testBit i = if b = 0 then true else (a / b).testBit i := by
    unfold quotient
    split
    · rw [Nat.testBit_two_pow_sub_one]; simpa using hi
    · rfl
  rw [← this]; exact k3

/-! ### signed division -/

/-- two's complement, 64 bits -/
def sbits (x : Int) : List Bool := bitsOf 64 (x % 2 ^ 64).toNat

theorem sbits_mag {x : Int} (h1 : -2 ^ 63 ≤ x) (h2 : x < 2 ^ 63) : (x % 2 ^ 64).toNat < 2 ^ 64 ∧
    mag (x % 2 ^ 64).toNat = x.natAbs ∧ (2 ^ 63 ≤ (x % 2 ^ 64).toNat ↔ x < 0) := by
  unfold mag
  refine ⟨by omega, ?_, by omega⟩
  split <;> omega

/-- the value of the circuit: the quotient rounded towards zero; division by zero gives -1, 1 or 2 -/
def signedQuotient (x y : Int) : Int :=
  if y = 0 then (if 0 ≤ x then -1 else if x = -2 ^ 63 then 2 else 1) else x.tdiv y

theorem tdiv_abs (x y : Int) : x.tdiv y = if decide (x < 0) = decide (y < 0) then ((x.natAbs / y.natAbs : Nat) : Int)
    else -((x.natAbs / y.natAbs : Nat) : Int) := by
  by_cases hx : x < 0 <;> by_cases hy : y < 0
  · obtain ⟨m, rfl⟩ : ∃ m : Nat, x = -(m : Int) := ⟨x.natAbs, by omega⟩
    obtain ⟨k, rfl⟩ : ∃ m : Nat, y = -(m : Int) := ⟨y.natAbs, by omega⟩
    rw [if_pos (by rw [decide_eq_decide]; omega), Int.neg_tdiv, Int.tdiv_neg, Int.neg_neg, Int.natAbs_neg, Int.natAbs_neg]
    rfl
  · obtain ⟨m, rfl⟩ : ∃ m : Nat, x = -(m : Int) := ⟨x.natAbs, by omega⟩
    obtain ⟨k, rfl⟩ : ∃ m : Nat, y = (m : Int) := ⟨y.natAbs, by omega⟩
    rw [if_neg (by rw [decide_eq_decide]; omega), Int.neg_tdiv, Int.natAbs_neg]
    rfl
  · obtain ⟨m, rfl⟩ : ∃ m : Nat, x = (m : Int) := ⟨x.natAbs, by omega⟩
    obtain ⟨k, rfl⟩ : ∃ m : Nat, y = -(m : Int) := ⟨y.natAbs, by omega⟩
    rw [if_neg (by rw [decide_eq_decide]; omega), Int.tdiv_neg, Int.natAbs_neg]
    rfl
  · obtain ⟨m, rfl⟩ : ∃ m : Nat, x = (m : Int) := ⟨x.natAbs, by omega⟩
    obtain ⟨k, rfl⟩ : ∃ m : Nat, y = (m : Int) := ⟨y.natAbs, by omega⟩
    rw [if_pos (by rw [decide_eq_decide]; omega)]
    rfl

theorem signed_value {x y : Int} (h1 : -2 ^ 63 ≤ x) (h2 : x < 2 ^ 63) (h3 : -2 ^ 63 ≤ y) (h4 : y < 2 ^ 63) :
    (if decide (2 ^ 63 ≤ (x % 2 ^ 64).toNat) = decide (2 ^ 63 ≤ (y % 2 ^ 64).toNat) then
      uquot (mag (x % 2 ^ 64).toNat) (mag (y % 2 ^ 64).toNat)
      else (2 ^ 64 - uquot (mag (x % 2 ^ 64).toNat) (mag (y % 2 ^ 64).toNat)) % 2 ^ 64) =
    (signedQuotient x y % 2 ^ 64).toNat := by
  obtain ⟨_, m1, s1⟩ := sbits_mag h1 h2
  obtain ⟨_, m2, s2⟩ := sbits_mag h3 h4
  have e1 : decide (2 ^ 63 ≤ (x % 2 ^ 64).toNat) = decide (x < 0) := decide_eq_decide.mpr s1
  have e2 : decide (2 ^ 63 ≤ (y % 2 ^ 64).toNat) = decide (y < 0) := decide_eq_decide.mpr s2
  rw [m1, m2, e1, e2]
  unfold uquot signedQuotient
  by_cases hy : y = 0
  · subst hy
    rw [Int.natAbs_zero, if_pos (Eq.refl (0 : Nat)), if_pos (Eq.refl (0 : Int)), show decide ((0 : Int) < 0) = false from rfl]
    by_cases hx : x < 0
    · rw [if_neg (show ¬ decide (x < 0) = false by simpa using hx), if_neg (show ¬ 0 ≤ x by omega)]
      by_cases hm : x = -2 ^ 63
      · subst hm; decide
      · rw [if_neg (show ¬ x.natAbs = 2 ^ 63 by omega), if_neg hm]; decide
    · rw [if_pos (show decide (x < 0) = false by simpa using hx), if_pos (show 0 ≤ x by omega),
        if_neg (show ¬ x.natAbs = 2 ^ 63 by omega)]
      decide
  · rw [if_neg (show ¬ y.natAbs = 0 by omega), if_neg hy, tdiv_abs]
    have hq : x.natAbs / y.natAbs ≤ x.natAbs := Nat.div_le_self _ _
    generalize x.natAbs / y.natAbs = q at *
    by_cases hs : decide (x < 0) = decide (y < 0)
    · rw [if_pos hs, if_pos hs]; omega
    · rw [if_neg hs, if_neg hs]; omega

theorem div64_output {x y : Int} (h1 : -2 ^ 63 ≤ x) (h2 : x < 2 ^ 63) (h3 : -2 ^ 63 ≤ y) (h4 : y < 2 ^ 63) {i : Nat}
    (hi : i < 64) : div64File.output (sbits x ++ sbits y) i = (sbits (signedQuotient x y))[i]? := by
  unfold sbits
  have ha := (sbits_mag h1 h2).1
  have hb := (sbits_mag h3 h4).1
  have hv := signed_value h1 h2 h3 h4
  rw [← hv]
  generalize (x % 2 ^ 64).toNat = a at *
  generalize (y % 2 ^ 64).toNat = b at *
  obtain ⟨W, h1, h2, h3⟩ := div64_packed.wires (ins := bitsOf 64 a ++ bitsOf 64 b) (by simp; rfl)
  have hin : ∀ i, i < 128 → (bitsOf 64 a ++ bitsOf 64 b)[i]? = some (W i) := h1
  have hA : wnum W (List.range' 0 64) = a := wires_eq ha (fun i hi => hin _ (by omega)) fun i hi => by
    rw [Nat.zero_add]; exact (pair_get hi).1
  have hB : wnum W (List.range' 64 64) = b := wires_eq hb (fun i hi => hin _ (by omega)) fun i hi => (pair_get hi).2
  have hm := sdiv_sound h2 div64_sdiv
  simp only [] at hm
  rw [hA, hB] at hm
  rw [h3 i hi]
  show some (W (29990 + i)) = _
  rw [bitsOf_get hi, ← wnum_range' W hi, hm]

theorem length_sbits (x : Int) : (sbits x).length = 64 := by simp [sbits]

/-- C50: `build_divide_signed_64` on a new circuit succeeds, and evaluating the circuit divides signed numbers, rounding towards
zero (`-2^63 / -1` wraps around). Division by zero gives `-1` for a nonnegative dividend, `2` for `-2^63` and `1` for the
other negative numbers. -/
theorem C50_div64 {w : World} (h : Reachable w) {r : Ref} (hr : New w r) : ∃ w', buildDiv64 r w = (.ok (), w') ∧
    ∃ F, ∀ fuel ≥ F, ∀ x y : Int, -2 ^ 63 ≤ x → x < 2 ^ 63 → -2 ^ 63 ≤ y → y < 2 ^ 63 →
      (y ≠ 0 → evalOutput w' fuel r (sbits x ++ sbits y) = .ok (sbits (x.tdiv y))) ∧
      (y = 0 → evalOutput w' fuel r (sbits x ++ sbits y) =
        .ok (sbits (if 0 ≤ x then -1 else if x = -2 ^ 63 then 2 else 1))) := by
  obtain ⟨s, hc⟩ := hr
  obtain ⟨w', k1, F, k2⟩ := eval_of_output div64_text div64_packed.valid div64_packed.unread h hc
  refine ⟨w', k1, F, fun fuel hf x y h1 h2 h3 h4 => ?_⟩
  have k3 := k2 fuel hf (sbits x ++ sbits y) (sbits (signedQuotient x y)) (by rw [List.length_append, length_sbits, length_sbits]; rfl)
    (by rw [length_sbits]; rfl) (fun i hi => div64_output h1 h2 h3 h4 hi)
  refine ⟨fun h0 => ?_, fun h0 => ?_⟩
  · rw [k3, signedQuotient, if_neg h0]
  · rw [k3, signedQuotient, if_pos h0]

/-- C50, in the middle of a larger circuit; division by zero included -/
theorem C50_into {w : World} (h : Reachable w) {r : Ref} {c : Circuit} (hc : w.circs[r]? = some c) :
    ∃ w' c', buildDiv64 r w = (.ok (), w') ∧ w'.circs[r]? = some c' ∧ c'.inputLen = c.inputLen + 128 ∧
      c'.outputLen = c.outputLen + 64 ∧ ∀ (pre : List Bool) (x y : Int), pre.length = c.inputLen →
      -2 ^ 63 ≤ x → x < 2 ^ 63 → -2 ^ 63 ≤ y → y < 2 ^ 63 → ∀ i, i < 64 →
      ∃ o b, c'.outputMap (c.outputLen + i) = some o ∧
        (sbits (if y ≠ 0 then x.tdiv y else if 0 ≤ x then -1 else if x = -2 ^ 63 then 2 else 1))[i]? = some b ∧
        Val w' r (pre ++ (sbits x ++ sbits y)) o b := by
  obtain ⟨w', c', k1, k2, k3, k4, k5⟩ := val_of_output div64_text div64_packed.valid h hc
  refine ⟨w', c', k1, k2, k3, k4, fun pre x y hp h1 h2 h3 h4 i hi => ?_⟩
  obtain ⟨o, v, j1, j2, j3⟩ := k5 pre (sbits x ++ sbits y) (sbits (signedQuotient x y)) hp
    (by rw [List.length_append, length_sbits, length_sbits]; rfl) (fun i hi => div64_output h1 h2 h3 h4 hi) i hi
  refine ⟨o, v, j1, ?_, j3⟩
  rw [← j2, signedQuotient]
  by_cases h0 : y = 0
  · rw [if_neg (by simpa using h0), if_pos h0]
  · rw [if_pos h0, if_neg h0]

/-! ### the hypotheses are satisfiable -/

/-- a heap with another circuit and a new one -/
example : Reachable (run (nested ++ [.newCircuit 0])) ∧ New (run (nested ++ [.newCircuit 0])) 2 :=
  ⟨run_reachable _, 0, rfl⟩

/-- the multiplier at `2^64 - 1` squared, the divider at `2^64 - 1` and 10 -/
example : ∃ w', buildMult64 2 (run (nested ++ [.newCircuit 0])) = (.ok (), w') ∧ ∃ fuel, evalOutput w' fuel 2
    (List.replicate 128 true) = .ok ((false :: List.replicate 63 true) ++ (true :: List.replicate 63 false)) := by
  obtain ⟨w', h1, F, h2⟩ := C48_mult64 (run_reachable (nested ++ [.newCircuit 0])) (r := 2) ⟨0, rfl⟩
  refine ⟨w', h1, F, ?_⟩
  have h3 := h2 F (Nat.le_refl F) (2 ^ 64 - 1) (2 ^ 64 - 1) (by decide) (by decide)
  rw [show bitsOf 64 (2 ^ 64 - 1) ++ bitsOf 64 (2 ^ 64 - 1) = List.replicate 128 true by decide +kernel] at h3
  rw [h3]
  congr 1

example : ∃ w', buildUdiv64 2 (run (nested ++ [.newCircuit 0])) = (.ok (), w') ∧ ∃ fuel, evalOutput w' fuel 2
    (List.replicate 64 true ++ bitsOf 64 10) = .ok (bitsOf 64 1844674407370955161) := by
  obtain ⟨w', h1, F, h2⟩ := C49_udiv64 (run_reachable (nested ++ [.newCircuit 0])) (r := 2) ⟨0, rfl⟩
  refine ⟨w', h1, F, ?_⟩
  have h3 := (h2 F (Nat.le_refl F) (2 ^ 64 - 1) 10 (by decide) (by decide)).1 (by decide)
  rw [show bitsOf 64 (2 ^ 64 - 1) = List.replicate 64 true by decide +kernel] at h3
  exact h3
/-- `-7 / 2 = -3` and `-2^63 / 0 = 2` -/
example : ∃ w', buildDiv64 2 (run (nested ++ [.newCircuit 0])) = (.ok (), w') ∧ ∃ fuel,
    evalOutput w' fuel 2 (sbits (-7) ++ sbits 2) = .ok (sbits (-3)) ∧
    evalOutput w' fuel 2 (sbits (-2 ^ 63) ++ sbits 0) = .ok (sbits 2) := by
  obtain ⟨w', h1, F, h2⟩ := C50_div64 (run_reachable (nested ++ [.newCircuit 0])) (r := 2) ⟨0, rfl⟩
  exact ⟨w', h1, F, (h2 F (Nat.le_refl F) (-7) 2 (by decide) (by decide) (by decide) (by decide)).1 (by decide),
    (h2 F (Nat.le_refl F) (-2 ^ 63) 0 (by decide) (by decide) (by decide) (by decide)).2 rfl⟩

end CC.Props
