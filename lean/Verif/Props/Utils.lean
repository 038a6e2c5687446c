import Verif.Model.Utils
import Verif.Spec.Bits
import Mathlib.Tactic.Ring
import Mathlib.Tactic.LinearCombination
import Mathlib.Data.Nat.Bitwise
import Mathlib.Data.Int.GCD
import Mathlib.Algebra.Order.Group.Unbundled.Int

/-!
# Properties of `src/utils.rs`: C40 – C43
-/

namespace CC.Props
open CC.Utils CC.Spec

/-! ## C40: ext_gcd -/

/-- the defining equation of the model function, for the proofs below -/
theorem extGcd_eq (a b : Int) : extGcd a b =
    if b = 0 then (1, 0, a)
    else ((extGcd b (a.tmod b)).2.1, (extGcd b (a.tmod b)).1 - a.tdiv b * (extGcd b (a.tmod b)).2.1,
      (extGcd b (a.tmod b)).2.2) := by
  rw [extGcd]
  by_cases h : b = 0 <;> simp [h]

/-- **C40** (Bezout): `ext_gcd(a, b) = (x, y, d)` satisfies `a*x + b*y = d`. -/
theorem C40_bezout (a b : Int) :
    a * (extGcd a b).1 + b * (extGcd a b).2.1 = (extGcd a b).2.2 := by
  induction h : b.natAbs using Nat.strong_induction_on generalizing a b with
  | _ n ih =>
    rw [extGcd_eq]
    by_cases hb : b = 0
    · simp [hb]
    · simp only [hb, if_false]
      have hlt : (a.tmod b).natAbs < n := by
        rw [Int.natAbs_tmod, ← h]; exact Nat.mod_lt _ (Int.natAbs_pos.mpr hb)
      have := ih _ hlt b (a.tmod b) rfl
      rw [← this]
      have hd := Int.mul_tdiv_add_tmod a b
      linear_combination (extGcd b (a.tmod b)).2.1 * (-hd)

/-- **C40** (gcd): the third component is, up to sign, the greatest common divisor. -/
theorem C40_gcd (a b : Int) : (extGcd a b).2.2.natAbs = Int.gcd a b := by
  induction h : b.natAbs using Nat.strong_induction_on generalizing a b with
  | _ n ih =>
    rw [extGcd_eq]
    by_cases hb : b = 0
    · simp [hb]
    · simp only [hb, if_false]
      have hlt : (a.tmod b).natAbs < n := by
        rw [Int.natAbs_tmod, ← h]; exact Nat.mod_lt _ (Int.natAbs_pos.mpr hb)
      rw [ih _ hlt b (a.tmod b) rfl]
      simp only [Int.gcd, Int.natAbs_tmod]
      rw [Nat.gcd_comm, ← Nat.gcd_rec, Nat.gcd_comm]

/-- **C40** (common divisor): the third component divides both arguments. -/
theorem C40_dvd (a b : Int) : (extGcd a b).2.2 ∣ a ∧ (extGcd a b).2.2 ∣ b := by
  have h := C40_gcd a b
  constructor
  · rw [← Int.natAbs_dvd_natAbs, h]; exact Nat.gcd_dvd_left _ _
  · rw [← Int.natAbs_dvd_natAbs, h]; exact Nat.gcd_dvd_right _ _

/-- **C40** (sign): for nonnegative arguments the third component is the nonnegative gcd. -/
theorem C40_nonneg (a b : Int) (ha : 0 ≤ a) (hb : 0 ≤ b) : (extGcd a b).2.2 = Int.gcd a b := by
  have key : 0 ≤ (extGcd a b).2.2 := by
    induction h : b.natAbs using Nat.strong_induction_on generalizing a b with
    | _ n ih =>
      rw [extGcd_eq]
      by_cases hb0 : b = 0
      · simp [hb0, ha]
      · simp only [hb0, if_false]
        have hlt : (a.tmod b).natAbs < n := by
          rw [Int.natAbs_tmod, ← h]; exact Nat.mod_lt _ (Int.natAbs_pos.mpr hb0)
        exact ih _ hlt b (a.tmod b) hb (Int.tmod_nonneg b ha) rfl
  rw [← C40_gcd, Int.natAbs_of_nonneg key]

/-- non-vacuity: a concrete run (the values of the crate's own test, `utils.rs` line 106) -/
example : extGcd 111 30 = (3, -11, 3) := by
  simp [extGcd_eq]

/-- non-vacuity: negative arguments; the sign of `d` then follows the code's truncating remainder -/
example : (extGcd (-6) 4).2.2 = -2 := by
  simp [extGcd_eq]

/-! ## C41: bit/byte conversions are mutually inverse -/

theorem byteLe_all : ∀ b : Fin 256,
    byteOfChunkLe ((List.range 8).map fun i => (b.val >>> i) &&& 1 == 1) = .ok b.val := by decide +kernel

theorem byteBe_all : ∀ b : Fin 256,
    byteOfChunkBe ((List.range 8).map fun i => (b.val >>> (7 - i)) &&& 1 == 1) = .ok b.val := by
  decide +kernel

theorem range8 (f : Nat → Bool) :
    (List.range 8).map f = [f 0, f 1, f 2, f 3, f 4, f 5, f 6, f 7] := rfl

/-- **C41**: `bits2bytes_le(bytes2bits_le(x)) = x` for every byte string. -/
theorem C41_bytes_bits_bytes_le (x : List Nat) (hx : ∀ b ∈ x, b < 256) :
    bits2bytesLe (bytes2bitsLe x) = .ok x := by
  induction x with
  | nil => rfl
  | cons b bs ih =>
    have hb := byteLe_all ⟨b, hx b (by simp)⟩
    have ih := ih (fun c hc => hx c (by simp [hc]))
    simp only [bits2bytesLe, bytes2bitsLe, List.flatMap_cons, range8] at ih hb ⊢
    simp only [List.cons_append, List.nil_append, mapChunks]
    rw [hb, ih]
    rfl

/-- **C41**: `bits2bytes_be(bytes2bits_be(x)) = x` for every byte string. -/
theorem C41_bytes_bits_bytes_be (x : List Nat) (hx : ∀ b ∈ x, b < 256) :
    bits2bytesBe (bytes2bitsBe x) = .ok x := by
  induction x with
  | nil => rfl
  | cons b bs ih =>
    have hb := byteBe_all ⟨b, hx b (by simp)⟩
    have ih := ih (fun c hc => hx c (by simp [hc]))
    simp only [bits2bytesBe, bytes2bitsBe, List.flatMap_cons, range8] at ih hb ⊢
    simp only [List.cons_append, List.nil_append, mapChunks]
    rw [hb, ih]
    rfl

example : bits2bytesLe (bytes2bitsLe [200, 7, 255]) = .ok [200, 7, 255] :=
  C41_bytes_bits_bytes_le _ (by decide)

theorem chunkLe_all (b0 b1 b2 b3 b4 b5 b6 b7 : Bool) :
    ∃ n < 256, byteOfChunkLe [b0, b1, b2, b3, b4, b5, b6, b7] = .ok n ∧
      bytes2bitsLe [n] = [b0, b1, b2, b3, b4, b5, b6, b7] := by
  refine ⟨_, ?_, rfl, ?_⟩ <;>
  (revert b0 b1 b2 b3 b4 b5 b6 b7; decide +kernel)

theorem chunkBe_all (b0 b1 b2 b3 b4 b5 b6 b7 : Bool) :
    ∃ n < 256, byteOfChunkBe [b0, b1, b2, b3, b4, b5, b6, b7] = .ok n ∧
      bytes2bitsBe [n] = [b0, b1, b2, b3, b4, b5, b6, b7] := by
  refine ⟨_, ?_, rfl, ?_⟩ <;>
  (revert b0 b1 b2 b3 b4 b5 b6 b7; decide +kernel)

/-- **C41**: for every bit string whose length is a multiple of 8, `bits2bytes_le` succeeds with one byte per
8 bits and `bytes2bits_le` gives the bits back. -/
theorem C41_bits_bytes_bits_le (k : Nat) (bits : List Bool) (h : bits.length = 8 * k) :
    ∃ x, bits2bytesLe bits = .ok x ∧ x.length = k ∧ (∀ b ∈ x, b < 256) ∧ bytes2bitsLe x = bits := by
  induction k generalizing bits with
  | zero =>
    have : bits = [] := List.length_eq_zero_iff.mp (by omega)
    subst this
    exact ⟨[], rfl, rfl, by simp, rfl⟩
  | succ k ih =>
    match bits, h with
    | b0 :: b1 :: b2 :: b3 :: b4 :: b5 :: b6 :: b7 :: rest, h =>
      obtain ⟨x, hx, hlen, hlt, hxb⟩ := ih rest (by simp at h; omega)
      obtain ⟨n, hn, hc, hb⟩ := chunkLe_all b0 b1 b2 b3 b4 b5 b6 b7
      refine ⟨n :: x, ?_, by simp [hlen], ?_, ?_⟩
      · simp only [bits2bytesLe, mapChunks] at hx ⊢
        rw [hc, hx]; rfl
      · intro b hb; rcases List.mem_cons.mp hb with rfl | hb
        · exact hn
        · exact hlt _ hb
      · have : bytes2bitsLe (n :: x) = bytes2bitsLe [n] ++ bytes2bitsLe x := by
          simp [bytes2bitsLe]
        rw [this, hb, hxb]; rfl
    | [], h | [_], h | [_, _], h | [_, _, _], h | [_, _, _, _], h | [_, _, _, _, _], h
    | [_, _, _, _, _, _], h | [_, _, _, _, _, _, _], h => simp at h <;> omega

/-- **C41**: the same for the big-endian pair. -/
theorem C41_bits_bytes_bits_be (k : Nat) (bits : List Bool) (h : bits.length = 8 * k) :
    ∃ x, bits2bytesBe bits = .ok x ∧ x.length = k ∧ (∀ b ∈ x, b < 256) ∧ bytes2bitsBe x = bits := by
  induction k generalizing bits with
  | zero =>
    have : bits = [] := List.length_eq_zero_iff.mp (by omega)
    subst this
    exact ⟨[], rfl, rfl, by simp, rfl⟩
  | succ k ih =>
    match bits, h with
    | b0 :: b1 :: b2 :: b3 :: b4 :: b5 :: b6 :: b7 :: rest, h =>
      obtain ⟨x, hx, hlen, hlt, hxb⟩ := ih rest (by simp at h; omega)
      obtain ⟨n, hn, hc, hb⟩ := chunkBe_all b0 b1 b2 b3 b4 b5 b6 b7
      refine ⟨n :: x, ?_, by simp [hlen], ?_, ?_⟩
      · simp only [bits2bytesBe, mapChunks] at hx ⊢
        rw [hc, hx]; rfl
      · intro b hb; rcases List.mem_cons.mp hb with rfl | hb
        · exact hn
        · exact hlt _ hb
      · have : bytes2bitsBe (n :: x) = bytes2bitsBe [n] ++ bytes2bitsBe x := by
          simp [bytes2bitsBe]
        rw [this, hb, hxb]; rfl
    | [], h | [_], h | [_, _], h | [_, _, _], h | [_, _, _, _], h | [_, _, _, _, _], h
    | [_, _, _, _, _, _], h | [_, _, _, _, _, _, _], h => simp at h <;> omega

/-- **C41**: a bit string whose length is not a multiple of 8 makes both conversions panic (index out of
bounds). -/
theorem C41_bad_length (bits : List Bool) (h : bits.length % 8 ≠ 0) :
    bits2bytesLe bits = .error (.panic .indexOutOfBounds) ∧
    bits2bytesBe bits = .error (.panic .indexOutOfBounds) := by
  induction hn : bits.length using Nat.strong_induction_on generalizing bits with
  | _ n ih =>
    match bits, h, hn with
    | b0 :: b1 :: b2 :: b3 :: b4 :: b5 :: b6 :: b7 :: rest, h, hn =>
      have hr : rest.length % 8 ≠ 0 := by simp at h; omega
      obtain ⟨h1, h2⟩ := ih rest.length (by simp at hn; omega) rest hr rfl
      obtain ⟨n, _, hc, _⟩ := chunkLe_all b0 b1 b2 b3 b4 b5 b6 b7
      obtain ⟨m, _, hd, _⟩ := chunkBe_all b0 b1 b2 b3 b4 b5 b6 b7
      simp only [bits2bytesLe, bits2bytesBe, mapChunks] at h1 h2 ⊢
      rw [hc, h1, hd, h2]; exact ⟨rfl, rfl⟩
    | [], h, hn => simp at h
    | [_], _, _ | [_, _], _, _ | [_, _, _], _, _ | [_, _, _, _], _, _ | [_, _, _, _, _], _, _
    | [_, _, _, _, _, _], _, _ | [_, _, _, _, _, _, _], _, _ => exact ⟨rfl, rfl⟩

/-- **C41**: `bytes2bits_*` gives 8 bits per byte. -/
theorem C41_lengths (x : List Nat) :
    (bytes2bitsLe x).length = 8 * x.length ∧ (bytes2bitsBe x).length = 8 * x.length := by
  induction x with
  | nil => exact ⟨rfl, rfl⟩
  | cons b bs ih =>
    simp only [bytes2bitsLe, bytes2bitsBe, List.flatMap_cons, List.length_append, List.length_map,
      List.length_range, List.length_cons] at ih ⊢
    omega

example : bits2bytesLe [true, false, true] = .error (.panic .indexOutOfBounds) :=
  (C41_bad_length _ (by decide)).1

/-! ## C42: positional value -/

theorem bit_eq (b i : Nat) : ((b >>> i) &&& 1 == 1) = b.testBit i := by
  rw [Nat.testBit, Nat.and_comm]
  have : 1 &&& (b >>> i) = (b >>> i) % 2 := by rw [Nat.and_comm, Nat.and_one_is_mod]
  rw [this]
  rcases Nat.mod_two_eq_zero_or_one (b >>> i) with h | h <;> simp [h]

theorem getElem_flat8 (f : Nat → Nat → Bool) (x : List Nat) (i j : Nat) (hj : j < 8) :
    (x.flatMap fun b => (List.range 8).map (f b))[8 * i + j]? = (x[i]?).map fun b => f b j := by
  induction x generalizing i with
  | nil => simp
  | cons b bs ih =>
    rw [List.flatMap_cons]
    cases i with
    | zero =>
      rw [List.getElem?_append_left (by simp; omega)]
      simp [hj]
    | succ i =>
      rw [List.getElem?_append_right (by simp; omega)]
      have : 8 * (i + 1) + j - ((List.range 8).map (f b)).length = 8 * i + j := by simp; omega
      rw [this, ih]; simp

/-- **C42**: bit `8*i+j` of `bytes2bits_le(x)` is bit `j` of byte `i`. -/
theorem C42_le_positions (x : List Nat) (i j : Nat) (hj : j < 8) :
    (bytes2bitsLe x)[8 * i + j]? = (x[i]?).map fun b => b.testBit j := by
  unfold bytes2bitsLe
  rw [getElem_flat8 (fun b i => (b >>> i) &&& 1 == 1) x i j hj]
  simp only [bit_eq]

/-- **C42**: bit `8*i+j` of `bytes2bits_be(x)` is bit `7-j` of byte `i`: each byte is listed from its most
significant bit. -/
theorem C42_be_positions (x : List Nat) (i j : Nat) (hj : j < 8) :
    (bytes2bitsBe x)[8 * i + j]? = (x[i]?).map fun b => b.testBit (7 - j) := by
  unfold bytes2bitsBe
  rw [getElem_flat8 (fun b i => (b >>> (7 - i)) &&& 1 == 1) x i j hj]
  simp only [bit_eq]

theorem bitsVal_append (a b : List Bool) : bitsVal (a ++ b) = bitsVal a + 2 ^ a.length * bitsVal b := by
  induction a with
  | nil => simp [bitsVal]
  | cons x xs ih => simp only [List.cons_append, bitsVal, ih, List.length_cons, pow_succ]; ring

theorem byteVal_all : ∀ b : Fin 256,
    bitsVal ((List.range 8).map fun i => (b.val >>> i) &&& 1 == 1) = b.val := by decide +kernel

/-- **C42**: the little-endian value of `bytes2bits_le(x)` is `Σ byte_i * 256^i`. -/
theorem C42_le_value (x : List Nat) (hx : ∀ b ∈ x, b < 256) : bitsVal (bytes2bitsLe x) = bytesVal x := by
  induction x with
  | nil => rfl
  | cons b bs ih =>
    have hb := byteVal_all ⟨b, hx b (by simp)⟩
    have ih := ih (fun c hc => hx c (by simp [hc]))
    simp only [bytes2bitsLe, List.flatMap_cons] at ih ⊢
    rw [bitsVal_append, ih, bytesVal]
    simp only [List.length_map, List.length_range]
    rw [hb]; norm_num

/-- **C42**: `bytes2bits_be(x)` read from its last bit is the little-endian form of the reversed byte string,
so its value (most significant bit first) is the big-endian value of `x`. -/
theorem C42_be_value (x : List Nat) (hx : ∀ b ∈ x, b < 256) :
    bitsVal (bytes2bitsBe x).reverse = bytesVal x.reverse := by
  have hrev : ∀ b : Nat, ((List.range 8).map fun i => (b >>> (7 - i)) &&& 1 == 1).reverse
      = (List.range 8).map fun i => (b >>> i) &&& 1 == 1 := fun b => rfl
  have : (bytes2bitsBe x).reverse = bytes2bitsLe x.reverse := by
    clear hx
    induction x with
    | nil => rfl
    | cons b bs ih =>
      simp only [bytes2bitsBe, bytes2bitsLe, List.flatMap_cons, List.reverse_append,
        List.reverse_cons, List.flatMap_append, hrev] at ih ⊢
      rw [ih]; simp
  rw [this, C42_le_value]
  simpa using hx

example : bitsVal (bytes2bitsLe [2, 1]) = 258 := C42_le_value _ (by decide)

/-- **C42**: conversely, the bytes `bits2bytes_le` returns have the little-endian value of the bits. -/
theorem C42_le_bytes {bits : List Bool} {x : List Nat} (h : bits2bytesLe bits = .ok x) : bytesVal x = bitsVal bits := by
  have hl : bits.length % 8 = 0 := by
    by_contra hn
    rw [(C41_bad_length bits hn).1] at h
    cases h
  obtain ⟨y, hy, -, hb, hr⟩ := C41_bits_bytes_bits_le (bits.length / 8) bits (by omega)
  obtain rfl : y = x := Except.ok.inj (hy.symm.trans h)
  rw [← C42_le_value y hb, hr]

example : bytesVal [2, 1] = bitsVal [false, true, false, false, false, false, false, false, true, false, false, false, false,
    false, false, false] := C42_le_bytes rfl

/-- **C42**: the bytes `bits2bytes_be` returns have, read from the last, the value of the bits read from the last. -/
theorem C42_be_bytes {bits : List Bool} {x : List Nat} (h : bits2bytesBe bits = .ok x) :
    bytesVal x.reverse = bitsVal bits.reverse := by
  have hl : bits.length % 8 = 0 := by
    by_contra hn
    rw [(C41_bad_length bits hn).2] at h
    cases h
  obtain ⟨y, hy, -, hb, hr⟩ := C41_bits_bytes_bits_be (bits.length / 8) bits (by omega)
  obtain rfl : y = x := Except.ok.inj (hy.symm.trans h)
  rw [← C42_be_value y hb, hr]

example : bytesVal [128, 3].reverse = bitsVal [true, false, false, false, false, false, false, false, false, false, false, false,
    false, false, true, true].reverse := C42_be_bytes rfl

/-! ## C43: hex -/

/-- spec: the sixteen lower-case digits, in order of value -/
def lowerDigits : List Char := "0123456789abcdef".toList

/-- spec: the sixteen digits with upper-case letters -/
def upperDigits : List Char := "0123456789ABCDEF".toList

/-- spec: `c` is a digit (either case) of value `v` -/
def IsHex (c : Char) (v : Nat) : Prop := lowerDigits[v]? = some c ∨ upperDigits[v]? = some c

theorem hexVal_of_isHex {c : Char} {v : Nat} (h : IsHex c v) : hexVal c = some v := by
  have h1 : ∀ v : Fin 16, ∀ c, lowerDigits[v.val]? = some c → hexVal c = some v.val := by decide +kernel
  have h2 : ∀ v : Fin 16, ∀ c, upperDigits[v.val]? = some c → hexVal c = some v.val := by decide +kernel
  rcases h with h | h
  · obtain ⟨hl, _⟩ := List.getElem?_eq_some_iff.mp h
    exact h1 ⟨v, hl⟩ c h
  · obtain ⟨hl, _⟩ := List.getElem?_eq_some_iff.mp h
    exact h2 ⟨v, hl⟩ c h

theorem isHex_of_hexVal {c : Char} {v : Nat} (h : hexVal c = some v) : IsHex c v := by
  have hc : c = Char.ofNat c.toNat := (Char.ofNat_toNat c).symm
  simp only [hexVal] at h
  have h1 : ∀ n : Fin 58, 48 ≤ n.val → lowerDigits[n.val - 48]? = some (Char.ofNat n.val) := by
    decide +kernel
  have h2 : ∀ n : Fin 103, 97 ≤ n.val → lowerDigits[n.val - 87]? = some (Char.ofNat n.val) := by
    decide +kernel
  have h3 : ∀ n : Fin 71, 65 ≤ n.val → upperDigits[n.val - 55]? = some (Char.ofNat n.val) := by
    decide +kernel
  rw [hc]
  split at h
  · next hh => cases h; exact Or.inl (h1 ⟨c.toNat, by omega⟩ hh.1)
  · split at h
    · next hh => cases h; exact Or.inl (h2 ⟨c.toNat, by omega⟩ hh.1)
    · split at h
      · next hh => cases h; exact Or.inr (h3 ⟨c.toNat, by omega⟩ hh.1)
      · cases h

theorem hexVal_iff (c : Char) (v : Nat) : hexVal c = some v ↔ IsHex c v :=
  ⟨isHex_of_hexVal, hexVal_of_isHex⟩

theorem isHex_lt {c : Char} {v : Nat} (h : IsHex c v) : v < 16 := by
  rcases h with h | h <;> exact (List.getElem?_eq_some_iff.mp h).1

theorem hexDigit_lower : ∀ n : Fin 16, lowerDigits[n.val]? = some (hexDigit n.val) := by decide +kernel

/-- **C43**: `bytes2hex` writes two lower-case digits per byte, high nibble first. -/
theorem C43_encode (x : List Nat) (hx : ∀ b ∈ x, b < 256) :
    (bytes2hex x).length = 2 * x.length ∧
    ∀ i b, x[i]? = some b →
      (bytes2hex x)[2 * i]? = lowerDigits[b / 16]? ∧ (bytes2hex x)[2 * i + 1]? = lowerDigits[b % 16]? := by
  constructor
  · clear hx
    induction x with
    | nil => rfl
    | cons b bs ih =>
      simp only [bytes2hex, List.flatMap_cons, List.length_append, List.length_cons, List.length_nil] at ih ⊢
      omega
  · intro i b hib
    induction x generalizing i with
    | nil => simp at hib
    | cons c bs ih =>
      cases i with
      | zero =>
        simp only [List.getElem?_cons_zero, Option.some.injEq] at hib
        subst hib
        have hc := hx c (by simp)
        rw [hexDigit_lower ⟨c / 16, by omega⟩, hexDigit_lower ⟨c % 16, by omega⟩]
        simp [bytes2hex]
      | succ i =>
        have := ih (fun c hc => hx c (by simp [hc])) i (by simpa using hib)
        have e1 : 2 * (i + 1) = 2 * i + 1 + 1 := by ring
        simpa [bytes2hex, e1] using this

theorem hexPairs_encode (x : List Nat) (hx : ∀ b ∈ x, b < 256) (i : Nat) :
    hexPairs i (bytes2hex x) = .ok x := by
  induction x generalizing i with
  | nil => rfl
  | cons b bs ih =>
    have hb := hx b (by simp)
    have ih := ih (fun c hc => hx c (by simp [hc])) (i + 2)
    simp only [bytes2hex, List.flatMap_cons, List.cons_append, List.nil_append, hexPairs] at ih ⊢
    rw [hexVal_of_isHex (Or.inl (hexDigit_lower ⟨b / 16, by omega⟩)),
      hexVal_of_isHex (Or.inl (hexDigit_lower ⟨b % 16, by omega⟩))]
    simp only [ih]
    have : b / 16 * 16 + b % 16 = b := by omega
    simp [this, bind, Except.bind]

/-- **C43**: `hex2bytes(bytes2hex(x)) = x` for every byte string. -/
theorem C43_round_trip (x : List Nat) (hx : ∀ b ∈ x, b < 256) : hex2bytes (bytes2hex x) = .ok x := by
  have hl := (C43_encode x hx).1
  unfold hex2bytes
  rw [if_neg (by omega), hexPairs_encode x hx]

/-- **C43**: a string of odd length is rejected. -/
theorem C43_odd (s : List Char) (h : s.length % 2 = 1) : hex2bytes s = .error .hexOddLength := by
  unfold hex2bytes; rw [if_pos (by omega)]

theorem hexPairs_ok (s : List Char) (k : Nat) (hs : s.length = 2 * k) (i : Nat) (bs : List Nat) :
    hexPairs i s = .ok bs ↔ bs.length = k ∧ ∀ j < k, ∃ h l hv lv, s[2 * j]? = some h ∧
      s[2 * j + 1]? = some l ∧ IsHex h hv ∧ IsHex l lv ∧ bs[j]? = some (16 * hv + lv) := by
  induction k generalizing s i bs with
  | zero =>
    have : s = [] := List.length_eq_zero_iff.mp (by omega)
    subst this
    simp only [hexPairs, Except.ok.injEq]
    constructor
    · rintro rfl; simp
    · rintro ⟨h, -⟩; exact (List.length_eq_zero_iff.mp h).symm
  | succ k ih =>
    match s, hs with
    | h :: l :: rest, hs =>
      have hr : rest.length = 2 * k := by simp at hs; omega
      simp only [hexPairs]
      constructor
      · intro hh
        cases e1 : hexVal h with
        | none => simp [e1] at hh
        | some hv =>
          cases e2 : hexVal l with
          | none => simp [e1, e2] at hh
          | some lv =>
            simp only [e1, e2] at hh
            cases e3 : hexPairs (i + 2) rest with
            | error e => simp [e3, bind, Except.bind] at hh
            | ok bs' =>
              simp only [e3, bind, Except.bind, Except.ok.injEq] at hh
              obtain ⟨hlen, hall⟩ := (ih rest hr (i + 2) bs').mp e3
              subst hh
              refine ⟨by simp [hlen], ?_⟩
              intro j hj
              cases j with
              | zero =>
                exact ⟨h, l, hv, lv, by simp, by simp, isHex_of_hexVal e1, isHex_of_hexVal e2,
                  by simp [Nat.mul_comm]⟩
              | succ j =>
                have e : 2 * (j + 1) = 2 * j + 1 + 1 := by ring
                simpa [e] using hall j (by omega)
      · rintro ⟨hlen, hall⟩
        match bs, hlen with
        | b :: bs', hlen =>
          obtain ⟨h', l', hv, lv, q1, q2, q3, q4, q5⟩ := hall 0 (by omega)
          simp only [Nat.mul_zero, List.getElem?_cons_zero, Option.some.injEq, Nat.zero_add,
            List.getElem?_cons_succ] at q1 q2 q5
          subst q1 q2
          have := (ih rest hr (i + 2) bs').mpr ⟨by simpa using hlen, fun j hj => by
            have e : 2 * (j + 1) = 2 * j + 1 + 1 := by ring
            simpa [e] using hall (j + 1) (by omega)⟩
          rw [hexVal_of_isHex q3, hexVal_of_isHex q4]
          simp [this, bind, Except.bind, q5, Nat.mul_comm]

/-- **C43** (exact decoding): an even-length string decodes to `bs` iff `bs` has one byte per character pair
and byte `j` is `16 *` (value of character `2j`) `+` (value of character `2j+1`), digits of either case.
In particular decoding fails as soon as one character is not a hex digit. -/
theorem C43_decode (s : List Char) (k : Nat) (hs : s.length = 2 * k) (bs : List Nat) :
    hex2bytes s = .ok bs ↔ bs.length = k ∧ ∀ j < k, ∃ h l hv lv, s[2 * j]? = some h ∧
      s[2 * j + 1]? = some l ∧ IsHex h hv ∧ IsHex l lv ∧ bs[j]? = some (16 * hv + lv) := by
  unfold hex2bytes
  rw [if_neg (by omega)]
  exact hexPairs_ok s k hs 0 bs

theorem hexPairs_bad (s : List Char) (k : Nat) (hs : s.length = 2 * k) (i0 i : Nat) (c : Char)
    (hc : s[i]? = some c) (hbad : ∀ v, ¬ IsHex c v)
    (hpre : ∀ j < i, ∀ d, s[j]? = some d → ∃ v, IsHex d v) :
    hexPairs i0 s = .error (.hexInvalidChar c (i0 + i)) := by
  induction k generalizing s i0 i with
  | zero =>
    have : s = [] := List.length_eq_zero_iff.mp (by omega)
    subst this; simp at hc
  | succ k ih =>
    match s, hs with
    | h :: l :: rest, hs =>
      have hr : rest.length = 2 * k := by simp at hs; omega
      have none_of : hexVal c = none := by
        cases e : hexVal c with
        | none => rfl
        | some v => exact absurd (isHex_of_hexVal e) (hbad v)
      simp only [hexPairs]
      match i, hc, hpre with
      | 0, hc, _ =>
        simp only [List.getElem?_cons_zero, Option.some.injEq] at hc; subst hc
        rw [none_of]; rfl
      | 1, hc, hpre =>
        simp only [List.getElem?_cons_succ, List.getElem?_cons_zero, Option.some.injEq] at hc; subst hc
        obtain ⟨v, hv⟩ := hpre 0 (by omega) h (by simp)
        rw [hexVal_of_isHex hv, none_of]
      | i + 2, hc, hpre =>
        obtain ⟨v, hv⟩ := hpre 0 (by omega) h (by simp)
        obtain ⟨v', hv'⟩ := hpre 1 (by omega) l (by simp)
        rw [hexVal_of_isHex hv, hexVal_of_isHex hv']
        have := ih rest hr (i0 + 2) i (by simpa using hc) (fun j hj d hd =>
          hpre (j + 2) (by omega) d (by simpa using hd))
        simp only [this, bind, Except.bind]
        congr 2; omega

/-- **C43** (rejection): the first character that is not a hex digit is reported with its position. -/
theorem C43_bad_char (s : List Char) (hs : s.length % 2 = 0) (i : Nat) (c : Char)
    (hc : s[i]? = some c) (hbad : ∀ v, ¬ IsHex c v)
    (hpre : ∀ j < i, ∀ d, s[j]? = some d → ∃ v, IsHex d v) :
    hex2bytes s = .error (.hexInvalidChar c i) := by
  unfold hex2bytes
  rw [if_neg (by omega)]
  simpa using hexPairs_bad s (s.length / 2) (by omega) 0 i c hc hbad hpre

example : hex2bytes "fF07".toList = .ok [255, 7] := by decide +kernel
example : bytes2hex [255, 7] = "ff07".toList := by decide +kernel
example : hex2bytes ['0', 'g'] = .error (.hexInvalidChar 'g' 1) := by
  refine C43_bad_char _ (by decide) 1 'g' rfl ?_ ?_
  · intro v hv
    have h1 := hexVal_of_isHex hv
    have h2 : hexVal 'g' = none := by decide
    rw [h2] at h1; cases h1
  · intro j hj d hd
    have : j = 0 := by omega
    subst this
    have : d = '0' := by simpa using hd.symm
    subst this
    exact ⟨0, Or.inl (by decide)⟩

end CC.Props
