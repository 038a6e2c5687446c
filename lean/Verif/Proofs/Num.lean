import Verif.Spec.Bits

/-! # Bit lists and numbers -/

namespace CC
open Spec

theorem bitsVal_lt : ∀ bs : List Bool, bitsVal bs < 2 ^ bs.length
  | [] => by simp [bitsVal]
  | b :: bs => by
    have := bitsVal_lt bs
    have hb : b.toNat ≤ 1 := by cases b <;> simp
    simp only [bitsVal, List.length_cons, Nat.pow_succ]
    omega

theorem bitsVal_app (a b : List Bool) : bitsVal (a ++ b) = bitsVal a + 2 ^ a.length * bitsVal b := by
  induction a with
  | nil => simp [bitsVal]
  | cons x xs ih =>
    simp only [List.cons_append, bitsVal, List.length_cons, Nat.pow_succ, ih]
    rw [Nat.mul_add, Nat.mul_comm (2 ^ xs.length) 2, Nat.mul_assoc]; omega

theorem bitsVal_testBit : ∀ (bs : List Bool) (i : Nat), (bitsVal bs).testBit i = bs[i]?.getD false
  | [], i => by simp [bitsVal]
  | b :: bs, 0 => by
    simp only [bitsVal, Nat.testBit_zero, List.getElem?_cons_zero, Option.getD_some]
    cases b
    · simp
    · simp [Nat.add_mod]
  | b :: bs, i + 1 => by
    rw [Nat.testBit_add_one]
    have : (bitsVal (b :: bs)) / 2 = bitsVal bs := by
      have hb : b.toNat ≤ 1 := by cases b <;> simp
      simp only [bitsVal]; omega
    rw [this, bitsVal_testBit bs i]
    simp

@[simp] theorem length_bitsOf (n v : Nat) : (bitsOf n v).length = n := by simp [bitsOf]

theorem bitsOf_get {n v i : Nat} (h : i < n) : (bitsOf n v)[i]? = some (v.testBit i) := by
  simp [bitsOf, List.getElem?_range h]

theorem bitsVal_bitsOf (n v : Nat) : bitsVal (bitsOf n v) = v % 2 ^ n := by
  apply Nat.eq_of_testBit_eq
  intro i
  rw [bitsVal_testBit, Nat.testBit_mod_two_pow]
  by_cases h : i < n
  · rw [bitsOf_get h]; simp [h]
  · rw [List.getElem?_eq_none (by simp; omega)]; simp [h]

theorem bitsOf_bitsVal {n : Nat} {bs : List Bool} (h : bs.length = n) : bitsOf n (bitsVal bs) = bs := by
  subst h
  apply List.ext_getElem?
  intro i
  by_cases h : i < bs.length
  · rw [bitsOf_get h, bitsVal_testBit, List.getElem?_eq_getElem h]; simp
  · rw [List.getElem?_eq_none (by simp; omega), List.getElem?_eq_none (by omega)]

theorem bitsOf_mod (n v : Nat) : bitsOf n (v % 2 ^ n) = bitsOf n v := by
  rw [← bitsVal_bitsOf, bitsOf_bitsVal (by simp)]

theorem bitsOf_congr {n u v : Nat} (h : u % 2 ^ n = v % 2 ^ n) : bitsOf n u = bitsOf n v := by
  rw [← bitsOf_mod, h, bitsOf_mod]

theorem bitsOf_inj {n u v : Nat} (h : bitsOf n u = bitsOf n v) : u % 2 ^ n = v % 2 ^ n := by
  rw [← bitsVal_bitsOf, h, bitsVal_bitsOf]

theorem bitsOf_add_split (n k v : Nat) : bitsOf (n + k) v = bitsOf n v ++ bitsOf k (v / 2 ^ n) := by
  apply List.ext_getElem?
  intro i
  by_cases h : i < n
  · rw [bitsOf_get (by omega), List.getElem?_append_left (by simpa using h), bitsOf_get h]
  · by_cases h2 : i < n + k
    · rw [bitsOf_get h2, List.getElem?_append_right (by simp; omega), length_bitsOf, bitsOf_get (by omega),
        Nat.testBit_div_two_pow]
      congr 2; omega
    · rw [List.getElem?_eq_none (by simp; omega), List.getElem?_eq_none (by simp; omega)]

theorem bitsOf_zero (n : Nat) : bitsOf n 0 = List.replicate n false := by
  apply List.ext_getElem?
  intro i
  by_cases h : i < n
  · rw [bitsOf_get h, List.getElem?_replicate, if_pos h]; simp
  · rw [List.getElem?_eq_none (by simp; omega), List.getElem?_eq_none (by simp; omega)]

theorem bitsVal_replicate_false (k : Nat) : bitsVal (List.replicate k false) = 0 := by
  rw [← bitsOf_zero, bitsVal_bitsOf]; simp

/-- zero extension -/
theorem bitsOf_extend {bs : List Bool} {n : Nat} (h : bs.length ≤ n) :
    bs ++ List.replicate (n - bs.length) false = bitsOf n (bitsVal bs) := by
  rw [← bitsOf_bitsVal (n := n) (bs := bs ++ List.replicate (n - bs.length) false) (by simp; omega), bitsVal_app,
    bitsVal_replicate_false]
  simp

/-- the bit that moves into position `i` when adding `a` and `b` -/
def carry (a b i : Nat) : Bool := decide (2 ^ i ≤ a % 2 ^ i + b % 2 ^ i)

theorem carry_zero (a b : Nat) : carry a b 0 = false := by simp [carry, Nat.mod_one]

theorem mod_succ_bit (a i : Nat) : a % 2 ^ (i + 1) = a % 2 ^ i + 2 ^ i * (a.testBit i).toNat := by
  rw [Nat.mod_pow_succ, Nat.toNat_testBit]

theorem carry_succ (a b i : Nat) :
    carry a b (i + 1) = ((a.testBit i && b.testBit i) || ((a.testBit i || b.testBit i) && carry a b i)) := by
  unfold carry
  rw [mod_succ_bit, mod_succ_bit, Nat.pow_succ]
  have h1 : a % 2 ^ i < 2 ^ i := Nat.mod_lt _ (Nat.two_pow_pos i)
  have h2 : b % 2 ^ i < 2 ^ i := Nat.mod_lt _ (Nat.two_pow_pos i)
  cases a.testBit i <;> cases b.testBit i <;> simp <;> omega

theorem testBit_sum (a b i : Nat) : (a + b).testBit i = ((a.testBit i != b.testBit i) != carry a b i) := by
  have h := BitVec.getLsbD_add (w := i + 1) (i := i) (by omega) (BitVec.ofNat (i + 1) a) (BitVec.ofNat (i + 1) b)
  rw [← BitVec.ofNat_add] at h
  simp only [BitVec.getLsbD_ofNat, Nat.lt_add_one, decide_true, Bool.true_and] at h
  rw [h]
  unfold BitVec.carry carry
  simp only [BitVec.toNat_ofNat, Bool.toNat_false, Nat.add_zero]
  rw [Nat.mod_mod_of_dvd _ (Nat.pow_dvd_pow 2 (by omega)), Nat.mod_mod_of_dvd _ (Nat.pow_dvd_pow 2 (by omega))]
  simp only [ge_iff_le]
  cases a.testBit i <;> cases b.testBit i <;> cases decide (2 ^ i ≤ a % 2 ^ i + b % 2 ^ i) <;> rfl

/-- flipping all bits -/
theorem bitsVal_not : ∀ bs : List Bool, bitsVal (bs.map (!·)) + bitsVal bs + 1 = 2 ^ bs.length
  | [] => by simp [bitsVal]
  | b :: bs => by
    have := bitsVal_not bs
    simp only [List.map_cons, bitsVal, List.length_cons, Nat.pow_succ]
    cases b <;> simp <;> omega

theorem bitsOf_one {n : Nat} (h : 1 ≤ n) : bitsOf n 1 = [true] ++ List.replicate (n - 1) false := by
  have := bitsOf_extend (bs := [true]) (n := n) (by simpa using h)
  simpa [bitsVal] using this.symm

theorem sign_bit {n v : Nat} (h : v < 2 ^ (n + 1)) : v.testBit n = decide (2 ^ n ≤ v) := by
  rw [Nat.testBit_eq_decide_div_mod_eq]
  rw [Nat.pow_succ] at h
  have hp := Nat.two_pow_pos n
  congr 1
  apply propext
  constructor
  · intro h1
    apply Decidable.byContradiction
    intro h2
    rw [Nat.div_eq_of_lt (by omega)] at h1
    omega
  · intro h1
    have : v / 2 ^ n = 1 := by
      apply Nat.div_eq_of_lt_le <;> omega
    rw [this]

/-- the signed value of the bits of a number -/
theorem signedVal_bitsOf {n v : Nat} (hn : 1 ≤ n) (hv : v < 2 ^ n) :
    signedVal (bitsOf n v) = if 2 ^ (n - 1) ≤ v then (v : Int) - 2 ^ n else v := by
  obtain ⟨m, rfl⟩ : ∃ m, n = m + 1 := ⟨n - 1, by omega⟩
  unfold signedVal
  rw [bitsVal_bitsOf, Nat.mod_eq_of_lt hv, length_bitsOf]
  have : (bitsOf (m + 1) v).getLast? = some (v.testBit m) := by
    rw [List.getLast?_eq_getElem?, length_bitsOf]; exact bitsOf_get (by omega)
  rw [this, sign_bit hv]
  simp

end CC
