import Verif.Proofs.ArithB

/-!
# Signed numbers, comparison and shifts
-/

namespace CC
open Spec

theorem two_pow_pred {n : Nat} (hn : 1 ≤ n) : 2 ^ n = 2 * 2 ^ (n - 1) := by
  obtain ⟨k, rfl⟩ : ∃ k, n = k + 1 := ⟨n - 1, by omega⟩
  rw [Nat.add_sub_cancel, Nat.pow_succ]; omega

theorem signedVal_eq {n : Nat} {bs : List Bool} (hn : 1 ≤ n) (hl : bs.length = n) :
    signedVal bs = if 2 ^ (n - 1) ≤ bitsVal bs then (bitsVal bs : Int) - 2 ^ n else bitsVal bs := by
  have h := bitsVal_lt bs
  rw [hl] at h
  have := signedVal_bitsOf hn h
  rw [bitsOf_bitsVal hl] at this
  exact this

theorem lessF_eq {n : Nat} (hn : 1 ≤ n) (xs ys : List Bool) :
    lessF n xs ys = decide (2 ^ (n - 1) ≤ (bitsVal xs + (2 ^ n - bitsVal ys)) % 2 ^ n) := by
  unfold lessF
  have h : (bitsVal xs + (2 ^ n - bitsVal ys)) % 2 ^ n < 2 ^ (n - 1 + 1) := by
    rw [show n - 1 + 1 = n by omega]; exact Nat.mod_lt _ (Nat.two_pow_pos n)
  rw [← sign_bit h, Nat.testBit_mod_two_pow]
  simp; omega

theorem sub_mod_int {m a b : Nat} (hb : b ≤ m) :
    (((a + (m - b)) % m : Nat) : Int) = ((a : Int) - b) % m := by
  rw [Int.natCast_emod, Int.natCast_add, Int.natCast_sub hb]
  rw [show (a : Int) + (m - b) = (a - b) + m by omega, Int.add_emod_right]

theorem subF_val {n : Nat} {xs ys : List Bool} (hy : ys.length = n) :
    bitsVal (subF n xs ys) = (((bitsVal xs : Int) - bitsVal ys) % 2 ^ n).toNat := by
  have h := bitsVal_lt ys
  rw [hy] at h
  unfold subF
  rw [bitsVal_bitsOf]
  have := sub_mod_int (m := 2 ^ n) (a := bitsVal xs) (Nat.le_of_lt h)
  rw [← Int.toNat_natCast ((bitsVal xs + (2 ^ n - bitsVal ys)) % 2 ^ n), this]
  congr 2

theorem less_signed {n : Nat} (hn : 1 ≤ n) {xs ys : List Bool} (hx : xs.length = n) (hy : ys.length = n)
    (h1 : -(2 : Int) ^ (n - 1) ≤ signedVal xs - signedVal ys) (h2 : signedVal xs - signedVal ys < 2 ^ (n - 1)) :
    lessF n xs ys = decide (signedVal xs < signedVal ys) := by
  rw [lessF_eq hn]
  have hA := bitsVal_lt xs
  have hB := bitsVal_lt ys
  rw [hx] at hA
  rw [hy] at hB
  rw [signedVal_eq hn hx, signedVal_eq hn hy] at h1 h2 ⊢
  have e := two_pow_pred hn
  have ei : (2 : Int) ^ n = ((2 ^ n : Nat) : Int) := by push_cast; rfl
  have ei' : (2 : Int) ^ (n - 1) = ((2 ^ (n - 1) : Nat) : Int) := by push_cast; rfl
  rw [ei, ei'] at h1 h2
  rw [ei]
  generalize 2 ^ (n - 1) = H at *
  generalize 2 ^ n = W at *
  generalize bitsVal xs = A at *
  generalize bitsVal ys = B at *
  apply decide_eq_decide.mpr
  have hm : (A + (W - B)) % W = if A + (W - B) < W then A + (W - B) else A + (W - B) - W := by
    split
    · next h => exact Nat.mod_eq_of_lt h
    · rw [Nat.mod_eq_sub_mod (by omega), Nat.mod_eq_of_lt (by omega)]
  rw [hm]
  subst e
  by_cases p1 : H ≤ A <;> by_cases p2 : H ≤ B <;> by_cases p3 : A + (2 * H - B) < 2 * H <;>
    simp only [p1, p2, p3, if_true, if_false] at h1 h2 ⊢ <;> omega

theorem bitsVal_replicate (b : Bool) (k : Nat) : bitsVal (List.replicate k b) = if b then 2 ^ k - 1 else 0 := by
  cases b with
  | false => simp [bitsVal_replicate_false]
  | true =>
    simp only [if_true]
    induction k with
    | zero => rfl
    | succ k ih =>
      rw [List.replicate_succ, bitsVal, ih]
      have := Nat.two_pow_pos k
      simp [Nat.pow_succ]
      omega

theorem shl_val {n k : Nat} (hk : k ≤ n) {xs : List Bool} (hl : xs.length = n) :
    bitsVal (List.replicate k false ++ xs.take (n - k)) = bitsVal xs * 2 ^ k % 2 ^ n := by
  rw [bitsVal_app, bitsVal_replicate_false, List.length_replicate, Nat.zero_add]
  have hs : xs = xs.take (n - k) ++ xs.drop (n - k) := (List.take_append_drop _ _).symm
  have hlt : (xs.take (n - k)).length = n - k := by simp; omega
  have hv : bitsVal xs = bitsVal (xs.take (n - k)) + 2 ^ (n - k) * bitsVal (xs.drop (n - k)) := by
    conv => lhs; rw [hs]
    rw [bitsVal_app, hlt]
  have hb := bitsVal_lt (xs.take (n - k))
  rw [hlt] at hb
  have hp : 2 ^ n = 2 ^ (n - k) * 2 ^ k := by rw [← Nat.pow_add]; congr 1; omega
  rw [hv, hp, Nat.mul_mod_mul_right, Nat.add_mul_mod_self_left, Nat.mod_eq_of_lt hb, Nat.mul_comm]

theorem shr_signed {n k : Nat} (hn : 1 ≤ n) (hk : k ≤ n) {xs : List Bool} (hl : xs.length = n) {s : Bool}
    (hs : xs[n - 1]? = some s) :
    signedVal (xs.drop k ++ List.replicate k s) = signedVal xs / 2 ^ k := by
  have hA := bitsVal_lt (xs.take k)
  have hC := bitsVal_lt (xs.drop k)
  have htl : (xs.take k).length = k := by simp; omega
  have hdl : (xs.drop k).length = n - k := by simp; omega
  rw [htl] at hA
  rw [hdl] at hC
  have hv : bitsVal xs = bitsVal (xs.take k) + 2 ^ k * bitsVal (xs.drop k) := by
    conv => lhs; rw [← List.take_append_drop k xs]
    rw [bitsVal_app, htl]
  have hlast : xs.getLast? = some s := by rw [List.getLast?_eq_getElem?, hl]; exact hs
  have hlast2 : (xs.drop k ++ List.replicate k s).getLast? = some s := by
    cases k with
    | zero => simpa using hlast
    | succ k =>
      rw [List.getLast?_append]
      simp [List.getLast?_replicate]
  have hlen : (xs.drop k ++ List.replicate k s).length = n := by simp; omega
  have hp : 2 ^ n = 2 ^ (n - k) * 2 ^ k := by rw [← Nat.pow_add]; congr 1; omega
  unfold signedVal
  rw [hlast, hlast2, hlen, hl, bitsVal_app, bitsVal_replicate, hdl, hv]
  have ei : (2 : Int) ^ n = ((2 ^ n : Nat) : Int) := by push_cast; rfl
  have ei' : (2 : Int) ^ k = ((2 ^ k : Nat) : Int) := by push_cast; rfl
  have hpos := Nat.two_pow_pos k
  rw [ei, ei', hp]
  generalize 2 ^ k = K at *
  generalize 2 ^ (n - k) = W at *
  generalize bitsVal (xs.take k) = A at *
  generalize bitsVal (xs.drop k) = C at *
  cases s with
  | false =>
    simp
    rw [Int.add_mul_ediv_left _ _ (by omega), Int.ediv_eq_zero_of_lt (by omega) (by omega)]
    omega
  | true =>
    simp
    have e1 : ((A : Int) + K * C - W * K) = A + K * (C - W) := by
      rw [Int.mul_sub, Int.mul_comm (W : Int)]; omega
    rw [e1, Int.add_mul_ediv_left _ _ (by omega), Int.ediv_eq_zero_of_lt (by omega) (by omega)]
    rw [Int.natCast_sub (by omega), Int.mul_sub]
    omega

end CC
