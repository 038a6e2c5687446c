import Verif.Model.Mult64
import Verif.Proofs.Mult64Cert

/-!
# `mult2_64.txt` multiplies

The circuit adds the partial products row by row.
-/

namespace CC.Bundled

noncomputable section
open CC Spec Spec.Bristol CC.Bristol

/-- partial products of bits `i, i + 1, …` (wires `i, i + 1, …`) with the bit of wire `b` -/
def products (d : List Nat) (n b : Nat) : Nat → Nat → Nat → (List (Option Nat) → Nat → Bool) → Bool
  | 0, _, c, k => k [] c
  | l + 1, i, c, k => field c fun p c => withLine d n p fun x => parts x fun op u v o =>
      Nat.beq op 1 && (((Nat.beq u i && Nat.beq v b) || (Nat.beq u b && Nat.beq v i)) &&
        force (i + 1) fun i' => products d n b l i' c fun ys c => k (some o :: ys) c)

/-- rows `j, j + 1, …`; `xs` is the sum so far, `lo` are the wires of the lower half of the product, `hi` those of the upper -/
def mulRows (d : List Nat) (n lo hi : Nat) : List Nat → Nat → List (Option Nat) → Bool
  | [], _, xs => xs == (List.range' hi 64).map some
  | c :: cs, j, xs => products d n (64 + j) 64 0 c fun ys c => row d n xs ys none c fun ss o _ =>
      match ss with
      | [] => false
      | s :: ss => Nat.beq s (lo + j) && mulRows d n lo hi cs (j + 1) (ss.map some ++ [o])

def mul? (d : List Nat) (n lo hi : Nat) (cs : List Nat) : Bool :=
  match cs with
  | [] => false
  | c :: cs => Nat.beq cs.length 63 && products d n 64 64 0 c fun ys _ =>
      match ys with
      | [] => false
      | y :: ys => y == some lo && mulRows d n lo hi cs 1 (ys ++ [none])

section
variable {W : Nat → Bool} {d : List Nat} {n : Nat}

theorem products_sound (hd : SatAll W d n) {b : Nat} : ∀ {l i c : Nat} {k : List (Option Nat) → Nat → Bool},
    products d n b l i c k = true → ∃ ys c', k ys c' = true ∧ ys.length = l ∧
      onum W ys = wnum W (List.range' i l) * (W b).toNat
  | 0, i, c, k, h => ⟨[], c, h, rfl, by simp [onum, wnum]⟩
  | l + 1, i, c, k, h => by
    obtain ⟨p, c1, h⟩ := field_sound h
    obtain ⟨hp, h⟩ := withLine_sound h
    rw [parts_eq, Bool.and_eq_true, Bool.and_eq_true, force_eq, Bool.or_eq_true, Bool.and_eq_true, Bool.and_eq_true,
      Nat.beq_eq, Nat.beq_eq, Nat.beq_eq, Nat.beq_eq, Nat.beq_eq] at h
    obtain ⟨h1, h2, h⟩ := h
    obtain ⟨ys, c2, h, hl, h3⟩ := products_sound hd h
    refine ⟨_, c2, h, by simp [hl], ?_⟩
    have hs := hd p hp
    unfold Sat at hs
    rw [h1] at hs
    have : W (lineO (lineAt d p)) = (W i && W b) := by
      rcases h2 with ⟨e1, e2⟩ | ⟨e1, e2⟩
      · simp only [e1, e2] at hs; exact hs
      · simp only [e1, e2] at hs; rw [hs, Bool.and_comm]
    rw [List.range'_succ]
    simp only [onum, obit, wnum, this, h3]
    cases W i <;> cases W b <;> simp

theorem mulRows_sound (hd : SatAll W d n) {lo hi : Nat} : ∀ {cs : List Nat} {j : Nat} {xs : List (Option Nat)},
    mulRows d n lo hi cs j xs = true → xs.length = 64 →
    onum W xs + wnum W (List.range' 0 64) * wnum W (List.range' (64 + j) cs.length) =
      wnum W (List.range' (lo + j) cs.length) + 2 ^ cs.length * wnum W (List.range' hi 64)
  | [], j, xs, h, hx => by
    unfold mulRows at h
    rw [beq_iff_eq] at h
    rw [h, onum_some]
    simp [wnum]
  | c :: cs, j, xs, h, hx => by
    unfold mulRows at h
    obtain ⟨ys, c1, h, hl, h1⟩ := products_sound hd h
    obtain ⟨ss, o, c2, h, hls, h2⟩ := row_sound hd h
    cases ss with
    | nil => cases h
    | cons s ss =>
      simp only [Bool.and_eq_true, Nat.beq_eq] at h
      obtain ⟨h3, h⟩ := h
      have hlen : ss.length = 63 := by simp only [List.length_cons] at hls; omega
      have ih := mulRows_sound hd h (by simp [hlen])
      rw [onum_append, onum_some, List.length_map, hlen] at ih
      have e : onum W [o] = obit W o := by simp [onum]
      rw [e] at ih
      have e0 : obit W none = 0 := rfl
      rw [h1, hx, e0] at h2
      generalize wnum W (List.range' 0 64) = A at *
      generalize wnum W (List.range' hi 64) = H at *
      simp only [List.length_cons, List.range'_succ, wnum, ← h3, Nat.pow_succ] at h2 ⊢
      have e1 : 64 + (j + 1) = 64 + j + 1 := by omega
      have e2 : lo + (j + 1) = s + 1 := by omega
      rw [e1, e2] at ih
      generalize wnum W (List.range' (64 + j + 1) cs.length) = B at *
      generalize wnum W (List.range' (s + 1) cs.length) = L at *
      generalize 2 ^ cs.length = P at *
      have e3 : P * 2 * H = 2 * (P * H) := by rw [Nat.mul_comm P 2, Nat.mul_assoc]
      rw [e3, Nat.mul_add, Nat.mul_left_comm]
      omega

theorem mul_sound (hd : SatAll W d n) {lo hi : Nat} {cs : List Nat} (h : mul? d n lo hi cs = true) :
    wnum W (List.range' 0 64) * wnum W (List.range' 64 64) =
      wnum W (List.range' lo 64) + 2 ^ 64 * wnum W (List.range' hi 64) := by
  unfold mul? at h
  cases cs with
  | nil => cases h
  | cons c cs =>
    simp only [Bool.and_eq_true, Nat.beq_eq] at h
    obtain ⟨hlen, h⟩ := h
    obtain ⟨ys, c1, h, hl, h1⟩ := products_sound hd h
    cases ys with
    | nil => cases h
    | cons y ys =>
      simp only [Bool.and_eq_true, beq_iff_eq] at h
      obtain ⟨h2, h⟩ := h
      simp only [List.length_cons] at hl
      have := mulRows_sound hd h (by simp; omega)
      rw [hlen, onum_append] at this
      have e : onum W [none] = 0 := rfl
      rw [e, Nat.mul_zero, Nat.add_zero] at this
      have e1 : ∀ s, List.range' s 64 = s :: List.range' (s + 1) 63 := fun s => List.range'_succ
      rw [e1 64, e1 lo]
      subst h2
      simp only [onum, obit, wnum] at h1 ⊢
      generalize wnum W (List.range' 0 64) = A at *
      generalize wnum W (List.range' (64 + 1) 63) = B at *
      generalize wnum W (List.range' (lo + 1) 63) = L at *
      generalize wnum W (List.range' hi 64) = H at *
      rw [Nat.mul_add, Nat.mul_left_comm]
      have e2 : (2 : Nat) ^ 64 = 2 * 2 ^ 63 := by decide
      rw [e2, Nat.mul_assoc]
      omega

end

/-! ### the file -/

def mult64File : File :=
  { numGate := 28032, numWire := 28160, ins := [64, 64], outs := [64, 64], gates := (packed 28032 mult64Data).map gline }

set_option maxRecDepth 1000000 in
theorem mult64_packed : IsPacked mult64File 28032 mult64Data := ⟨rfl, by decide, by decide, by decide +kernel⟩

set_option maxRecDepth 1000000 in
theorem mult64_mul : mul? mult64Data 28032 28096 28032 mult64Cert = true := by decide +kernel

theorem mult64_text : Text mult64File mult64Text := by
  unfold mult64Text
  exact packed_text (k := 2) (f := mult64File) (by decide +kernel) mult64_packed.gates

end

end CC.Bundled
