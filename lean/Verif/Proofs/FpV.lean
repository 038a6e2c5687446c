import Verif.Proofs.FpC

/-!
# The word functions of the field modules as functions on numbers
-/

namespace CC

theorem toNat_bvBit {n : Nat} (hn : 1 ≤ n) (b : Bool) : (bvBit n b).toNat = b.toNat := by
  unfold bvBit
  rw [BitVec.toNat_ofNat]
  apply Nat.mod_eq_of_lt
  have : 2 ^ 1 ≤ 2 ^ n := Nat.pow_le_pow_right (by decide) hn
  have := Bool.toNat_le b
  omega

theorem bvBit_true_mul {n : Nat} (hn : 1 ≤ n) (x : BitVec n) : bvBit n true * x = x := by
  apply BitVec.eq_of_toNat_eq
  rw [BitVec.toNat_mul, toNat_bvBit hn]
  simp [Nat.mod_eq_of_lt x.isLt]

theorem bvBit_false_mul {n : Nat} (x : BitVec n) : bvBit n false * x = 0 := by
  unfold bvBit
  apply BitVec.eq_of_toNat_eq
  simp

theorem pow_half {n : Nat} (hn : 1 ≤ n) : 2 ^ n = 2 * 2 ^ (n - 1) := by
  obtain ⟨k, rfl⟩ : ∃ k, n = k + 1 := ⟨n - 1, by omega⟩
  rw [Nat.pow_succ, Nat.add_sub_cancel, Nat.mul_comm]

/-- the addition module by cases -/
theorem fpAddV_cases {n : Nat} (hn : 1 ≤ n) (P s a b : BitVec n) (hs : a + b = s) :
    fpAddV P a b =
      (if (s - P).msb || s == P then 0 else s - P) + (if s.msb then s + P else 0) +
      (if !((s - P).msb || s == P) || s.msb then 0 else s) := by
  subst hs
  have h0 : (a + b - -(0 : BitVec n)).msb = (a + b).msb := by
    have : a + b - -(0 : BitVec n) = a + b := by
      apply BitVec.eq_of_toNat_eq; simp
    rw [this]
  unfold fpAddV
  simp only [h0]
  cases ((a + b - P).msb || a + b == P) <;> cases (a + b).msb <;>
    simp [bvBit_true_mul hn, bvBit_false_mul]

theorem fpAddV_pos {n p : Nat} {s a b : BitVec n} (hn : 1 ≤ n) (hs : a + b = s) (hp : 2 * p ≤ 2 ^ (n - 1)) (hlt : s.toNat < 2 * p) :
    (fpAddV (BitVec.ofNat n p) a b).toNat = if p < s.toNat then s.toNat - p else s.toNat := by
  have hh := pow_half hn
  have hP : (BitVec.ofNat n p).toNat = p := by rw [BitVec.toNat_ofNat, Nat.mod_eq_of_lt (by omega)]
  have hsm : s.msb = false := by rw [BitVec.msb_eq_decide, decide_eq_false (by omega)]
  rw [fpAddV_cases hn _ s a b hs, hsm]
  have hd : (s - BitVec.ofNat n p).toNat = if p ≤ s.toNat then s.toNat - p else 2 ^ n + s.toNat - p := by
    rw [BitVec.toNat_sub, hP]
    split
    · rw [show 2 ^ n - p + s.toNat = s.toNat - p + 2 ^ n by omega, Nat.add_mod_right, Nat.mod_eq_of_lt (by omega)]
    · rw [Nat.mod_eq_of_lt (by omega)]; omega
  have hdm : (s - BitVec.ofNat n p).msb = decide (s.toNat < p) := by
    rw [BitVec.msb_eq_decide, hd]
    split <;> (congr 1; rw [eq_iff_iff]; omega)
  have heq : (s == BitVec.ofNat n p) = decide (s.toNat = p) := by
    rw [Bool.eq_iff_iff]
    simp only [beq_iff_eq, decide_eq_true_eq]
    exact ⟨fun e => by rw [e, hP], fun e => BitVec.eq_of_toNat_eq (by rw [e, hP])⟩
  rw [hdm, heq]
  by_cases h1 : p < s.toNat
  · rw [if_pos h1, decide_eq_false (show ¬ s.toNat < p by omega), decide_eq_false (show ¬ s.toNat = p by omega)]
    simp only [Bool.or_self, Bool.false_eq_true, if_false, Bool.not_false, Bool.true_or, if_true]
    rw [show s - BitVec.ofNat n p + 0 + 0 = s - BitVec.ofNat n p by simp, hd, if_pos (by omega)]
  · rw [if_neg h1]
    have : (decide (s.toNat < p) || decide (s.toNat = p)) = true := by
      rw [Bool.or_eq_true]; simp only [decide_eq_true_eq]; omega
    rw [this]
    simp

theorem fpAddV_neg {n p k : Nat} {s a b : BitVec n} (hn : 1 ≤ n) (hs : a + b = s) (hp : 2 * p ≤ 2 ^ (n - 1)) (hk : k < p) (hk0 : 0 < k)
    (hlt : s.toNat = 2 ^ n - k) : (fpAddV (BitVec.ofNat n p) a b).toNat = p - k := by
  have hh := pow_half hn
  have hP : (BitVec.ofNat n p).toNat = p := by rw [BitVec.toNat_ofNat, Nat.mod_eq_of_lt (by omega)]
  have hsm : s.msb = true := by rw [BitVec.msb_eq_decide, decide_eq_true (by omega)]
  rw [fpAddV_cases hn _ s a b hs, hsm]
  have hd : (s - BitVec.ofNat n p).toNat = 2 ^ n - k - p := by
    rw [BitVec.toNat_sub, hP, hlt, show 2 ^ n - p + (2 ^ n - k) = (2 ^ n - k - p) + 2 ^ n by omega, Nat.add_mod_right,
      Nat.mod_eq_of_lt (by omega)]
  have hdm : (s - BitVec.ofNat n p).msb = true := by
    rw [BitVec.msb_eq_decide, hd, decide_eq_true (by omega)]
  rw [hdm]
  simp only [Bool.true_or, if_true, Bool.not_true, Bool.or_true]
  rw [show (0 : BitVec n) + (s + BitVec.ofNat n p) + 0 = s + BitVec.ofNat n p by simp, BitVec.toNat_add, hP, hlt,
    show 2 ^ n - k + p = (p - k) + 2 ^ n by omega, Nat.add_mod_right, Nat.mod_eq_of_lt (by omega)]

theorem fpAddV_add {n p : Nat} {a b : BitVec n} (hn : 1 ≤ n) (hp : 2 * p ≤ 2 ^ (n - 1)) (ha : a.toNat < p) (hb : b.toNat < p) :
    (fpAddV (BitVec.ofNat n p) a b).toNat = if p < a.toNat + b.toNat then a.toNat + b.toNat - p else a.toNat + b.toNat := by
  have hh := pow_half hn
  have hs : (a + b).toNat = a.toNat + b.toNat := by rw [BitVec.toNat_add, Nat.mod_eq_of_lt (by omega)]
  rw [fpAddV_pos hn rfl hp (by omega), hs]

theorem fpAddV_sub {n p : Nat} {a b : BitVec n} (hn : 1 ≤ n) (hp : 2 * p ≤ 2 ^ (n - 1)) (ha : a.toNat < p) (hb : b.toNat < p) :
    (fpAddV (BitVec.ofNat n p) a (-b)).toNat = (a.toNat + (p - b.toNat)) % p := by
  have hh := pow_half hn
  have hsub : (a + -b).toNat = (2 ^ n - b.toNat + a.toNat) % 2 ^ n := by
    rw [BitVec.add_neg_eq_sub, BitVec.toNat_sub]
  by_cases h : b.toNat ≤ a.toNat
  · have hs : (a + -b).toNat = a.toNat - b.toNat := by
      rw [hsub, show 2 ^ n - b.toNat + a.toNat = (a.toNat - b.toNat) + 2 ^ n by omega, Nat.add_mod_right,
        Nat.mod_eq_of_lt (by omega)]
    rw [fpAddV_pos hn rfl hp (by omega), hs, if_neg (by omega),
      show a.toNat + (p - b.toNat) = (a.toNat - b.toNat) + p by omega, Nat.add_mod_right, Nat.mod_eq_of_lt (by omega)]
  · have hs : (a + -b).toNat = 2 ^ n - (b.toNat - a.toNat) := by
      rw [hsub, Nat.mod_eq_of_lt (by omega)]; omega
    rw [fpAddV_neg hn rfl hp (by omega) (by omega) hs, Nat.mod_eq_of_lt (by omega)]; omega

/-- the last step of the reduction: `t − p` if `t ≥ p`, else `0 − t` -/
theorem mont_last {n : Nat} (hn : 1 ≤ n) (P t : BitVec n) :
    bvBit n (!(t - P).msb) * (t - P) - (1 - bvBit n (!(t - P).msb)) * t = if (t - P).msb then -t else t - P := by
  have h1 : (1 : BitVec n) - bvBit n true = 0 := by
    have : bvBit n true = 1 := rfl
    rw [this]; simp
  have h0 : (1 : BitVec n) - bvBit n false = bvBit n true := by
    have : bvBit n false = 0 := rfl
    rw [this]; simp [bvBit]
  cases (t - P).msb
  · rw [Bool.not_false, h1, bvBit_true_mul hn]; simp
  · rw [Bool.not_true, h0, bvBit_true_mul hn, bvBit_false_mul]; simp

theorem fpMontV_val {n p pi k : Nat} {v : BitVec n} (hn : 1 ≤ n) (hroom : 2 * (p * 2 ^ k) ≤ 2 ^ (n - 1))
    (hv : v.toNat < p * 2 ^ k) :
    (fpMontV (BitVec.ofNat n p) (BitVec.ofNat n pi) k v).toNat =
      let t := (v.toNat + (v.toNat * pi % 2 ^ k) * p) / 2 ^ k
      if p ≤ t then t - p else (2 ^ n - t) % 2 ^ n := by
  have hh := pow_half hn
  have hk : 1 ≤ 2 ^ k := Nat.one_le_two_pow
  have hpk : p ≤ p * 2 ^ k := Nat.le_mul_of_pos_right _ (by omega)
  have hp0 : 0 < p := by
    rcases Nat.eq_zero_or_pos p with h | h
    · subst h; omega
    · exact h
  have hkn : k ≤ n := by
    apply Nat.le_of_not_lt
    intro hlt
    have h2 : 2 ^ n ≤ 2 ^ k := Nat.pow_le_pow_right (by decide) (by omega)
    have h3 : 2 ^ k ≤ p * 2 ^ k := Nat.le_mul_of_pos_left _ hp0
    omega
  have hdvd : 2 ^ k ∣ 2 ^ n := Nat.pow_dvd_pow 2 hkn
  have hP : (BitVec.ofNat n p).toNat = p := by rw [BitVec.toNat_ofNat, Nat.mod_eq_of_lt (by omega)]
  have hm : (v * BitVec.ofNat n pi).toNat % 2 ^ k = v.toNat * pi % 2 ^ k := by
    rw [BitVec.toNat_mul, BitVec.toNat_ofNat, Nat.mod_mod_of_dvd _ hdvd, Nat.mul_mod, Nat.mod_mod_of_dvd _ hdvd,
      ← Nat.mul_mod]
  unfold fpMontV
  simp only
  rw [hm, mont_last hn]
  have hml : v.toNat * pi % 2 ^ k < 2 ^ k := Nat.mod_lt _ (by omega)
  generalize v.toNat * pi % 2 ^ k = m at hml
  have hmp : m * p ≤ 2 ^ k * p := Nat.mul_le_mul_right _ (by omega)
  have hmp' : m * p + p ≤ 2 ^ k * p := by
    rw [← Nat.succ_mul]; exact Nat.mul_le_mul_right _ hml
  rw [Nat.mul_comm (2 ^ k) p] at hmp hmp'
  have hmm : m ≤ m * p := Nat.le_mul_of_pos_right _ hp0
  have hsum : (v + BitVec.ofNat n m * BitVec.ofNat n p).toNat = v.toNat + m * p := by
    rw [BitVec.toNat_add, BitVec.toNat_mul, hP, BitVec.toNat_ofNat, Nat.mod_eq_of_lt (show m < 2 ^ n by omega),
      Nat.mod_eq_of_lt (show m * p < 2 ^ n by omega), Nat.mod_eq_of_lt (by omega)]
  have hmsb : (v + BitVec.ofNat n m * BitVec.ofNat n p).msb = false := by
    rw [BitVec.msb_eq_decide, hsum, decide_eq_false (by omega)]
  generalize v + BitVec.ofNat n m * BitVec.ofNat n p = S at hsum hmsb
  have ht : (S.sshiftRight k).toNat = (v.toNat + m * p) / 2 ^ k := by
    rw [BitVec.sshiftRight_eq_of_msb_false hmsb, BitVec.toNat_ushiftRight, hsum, Nat.shiftRight_eq_div_pow]
  have htl : (v.toNat + m * p) / 2 ^ k < 2 * p := by
    rw [Nat.div_lt_iff_lt_mul (by omega), Nat.mul_assoc]; omega
  generalize (v.toNat + m * p) / 2 ^ k = t at ht htl
  have hd : (S.sshiftRight k - BitVec.ofNat n p).toNat = if p ≤ t then t - p else 2 ^ n + t - p := by
    rw [BitVec.toNat_sub, hP, ht]
    split
    · rw [show 2 ^ n - p + t = t - p + 2 ^ n by omega, Nat.add_mod_right, Nat.mod_eq_of_lt (by omega)]
    · rw [Nat.mod_eq_of_lt (by omega)]; omega
  have hdm : (S.sshiftRight k - BitVec.ofNat n p).msb = decide (t < p) := by
    rw [BitVec.msb_eq_decide, hd]
    split <;> (congr 1; rw [eq_iff_iff]; omega)
  rw [hdm]
  by_cases h : p ≤ t
  · rw [if_pos h, decide_eq_false (by omega)]
    simp only [Bool.false_eq_true, if_false]
    rw [hd, if_pos h]
  · rw [if_neg h, decide_eq_true (by omega), if_pos rfl, BitVec.toNat_neg, ht]

theorem fpMontV_zero {n p pi k : Nat} (hn : 1 ≤ n) (hp : 1 ≤ p) (hp2 : p ≤ 2 ^ (n - 1)) :
    fpMontV (BitVec.ofNat n p) (BitVec.ofNat n pi) k 0 = 0 := by
  have hh := pow_half hn
  have hP : (BitVec.ofNat n p).toNat = p := by rw [BitVec.toNat_ofNat, Nat.mod_eq_of_lt (by omega)]
  unfold fpMontV
  simp only
  rw [mont_last hn]
  have e1 : (0 : BitVec n) * BitVec.ofNat n pi = 0 := by simp
  rw [e1]
  have e2 : BitVec.ofNat n ((0 : BitVec n).toNat % 2 ^ k) = 0 := by simp
  rw [e2]
  have e3 : ((0 : BitVec n) + 0 * BitVec.ofNat n p).sshiftRight k = 0 := by simp
  rw [e3]
  have hm : ((0 : BitVec n) - BitVec.ofNat n p).msb = true := by
    rw [BitVec.msb_eq_decide, BitVec.toNat_sub, hP]
    simp only [BitVec.ofNat_eq_ofNat, BitVec.toNat_ofNat, Nat.zero_mod, Nat.add_zero]
    rw [Nat.mod_eq_of_lt (by omega), decide_eq_true (by omega)]
  rw [hm]; simp

theorem fpMulV_zero {n p pi k : Nat} (hn : 1 ≤ n) (hp : 1 ≤ p) (hp2 : p ≤ 2 ^ (n - 1)) (a b : BitVec n) :
    fpMulV (BitVec.ofNat n p) (BitVec.ofNat n pi) k 0 a b = 0 := by
  unfold fpMulV
  have : ∀ x : BitVec n, x * BitVec.ofNat n 0 = 0 := by intro x; simp
  rw [this, fpMontV_zero hn hp hp2]

end CC
