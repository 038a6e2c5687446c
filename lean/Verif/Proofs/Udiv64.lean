import Verif.Model.Udiv64
import Verif.Proofs.Udiv64Cert

/-!
# `udivide64.txt` divides

A restoring divider: each row shifts the next bit of the dividend into the remainder and subtracts the divisor if that is
possible. The rows have as many cells as the remainder has bits; the upper bits of the divisor are combined by disjunctions.
-/

namespace CC.Bundled

noncomputable section
open CC Spec Spec.Bristol CC.Bristol

/-- disjunctions of the bits `j, …, 63` of the divisor, for `j` down to 1 -/
def highs (d : List Nat) (n : Nat) : Nat → List Nat → Nat → (List Nat → Bool) → Bool
  | 0, hs, _, k => k hs
  | j + 1, hs, c, k =>
    match hs with
    | [] => false
    | h :: hs => orCell d n h (64 + (j + 1)) c fun o c => highs d n j (o :: h :: hs) c k

/-- rows `k, k + 1, …`; `R` is the remainder so far -/
def divRows (d : List Nat) (n out : Nat) : List Nat → List Nat → Nat → List Nat → Bool
  | [], _, _, _ => true
  | c :: cs, hs, k, R => subRow d n ((63 - k) :: R) (List.range' 64 (k + 1)) none c fun ds o c =>
    match o with
    | none => false
    | some bo =>
      match hs with
      | [] => Nat.beq k 63 && muxRow d n bo ((63 - k) :: R) ds c fun R c => invCell d n bo c fun q c =>
          cell d n 0xFF 2 (tab2 q 0) 0xAA c fun o _ => Nat.beq o (out + (63 - k)) && divRows d n out cs [] (k + 1) R
      | h :: hs => orCell d n bo h c fun nb c => muxRow d n nb ((63 - k) :: R) ds c fun R c =>
          invCell d n nb c fun q c =>
          cell d n 0xFF 2 (tab2 q 0) 0xAA c fun o _ => Nat.beq o (out + (63 - k)) && divRows d n out cs hs (k + 1) R

def udiv? (d : List Nat) (n out c : Nat) (cs : List Nat) : Bool :=
  Nat.beq cs.length 64 && highs d n 62 [127] c fun hs => divRows d n out cs hs 0 []

/-- the wires `hs` are the disjunctions of the bits from `j` on -/
def HighOk (W : Nat → Bool) : List Nat → Nat → Prop
  | [], _ => True
  | h :: hs, j => (W h = true ↔ 0 < wnum W (List.range' (64 + j) (64 - j))) ∧ HighOk W hs (j + 1)

section
variable {W : Nat → Bool} {d : List Nat} {n : Nat}

theorem highs_sound (hd : SatAll W d n) : ∀ {j : Nat} {hs : List Nat} {c : Nat} {k : List Nat → Bool}, j < 63 →
    highs d n j hs c k = true → HighOk W hs (j + 1) → ∃ hs', k hs' = true ∧ HighOk W hs' 1
  | 0, hs, c, k, _, h, hh => ⟨hs, h, hh⟩
  | j + 1, hs, c, k, hj, h, hh => by
    unfold highs at h
    cases hs with
    | nil => cases h
    | cons x hs =>
      obtain ⟨o, c1, h, ho⟩ := orCell_sound hd h
      refine highs_sound hd (by omega) h ⟨?_, hh⟩
      obtain ⟨m, hm⟩ : ∃ m, 64 - (j + 1) = m + 1 := ⟨62 - j, by omega⟩
      have hx := hh.1
      rw [show 64 - (j + 1 + 1) = m by omega, show 64 + (j + 1 + 1) = 64 + (j + 1) + 1 by omega] at hx
      rw [hm, List.range'_succ, ho, Bool.or_eq_true, hx]
      simp only [wnum]
      cases W (64 + (j + 1)) <;> simp <;> omega

/-- the arithmetic of a row -/
theorem row_arith {D B X P bo Hi : Nat} {nb : Bool} (h : D + B = X + P * bo) (hD : D < P) (hX : X < P) (hbo : bo < 2)
    (hnb : nb = true ↔ bo = 1 ∨ 0 < Hi) :
    ((if nb then X else D) + (!nb).toNat * (B + P * Hi) = X) ∧ (X < B + P * Hi → (if nb then X else D) = X) ∧
      (B + P * Hi ≤ X → nb = false) := by
  have hH : 0 < Hi → P ≤ P * Hi := fun h => Nat.le_mul_of_pos_right P h
  cases nb with
  | true =>
    refine ⟨by simp, by simp, fun h1 => ?_⟩
    rcases hnb.1 rfl with h2 | h2
    · subst h2; have : 0 ≤ P * Hi := Nat.zero_le _; omega
    · have := hH h2; omega
  | false =>
    have h1 : ¬ (bo = 1 ∨ 0 < Hi) := fun h => by simpa using hnb.2 h
    have h2 : bo = 0 := by omega
    have h3 : Hi = 0 := by omega
    subst h2 h3
    simp only [Nat.mul_zero, Nat.add_zero] at h ⊢
    simp
    omega

/-- what remains to be divided after `64 - m` rows -/
def Rest (W : Nat → Bool) (out m v : Nat) : Prop := ∃ r, v * 2 ^ m + wnum W (List.range' 0 m) =
    wnum W (List.range' out m) * wnum W (List.range' 64 64) + r ∧
  (v < wnum W (List.range' 64 64) → r < wnum W (List.range' 64 64)) ∧
  (wnum W (List.range' 64 64) = 0 → wnum W (List.range' out m) = 2 ^ m - 1)

theorem rest_step {out m v v' : Nat} {q : Bool} (h : Rest W out m v')
    (e : v' + q.toNat * wnum W (List.range' 64 64) = (W m).toNat + 2 * v) (hq : W (out + m) = q)
    (h0 : wnum W (List.range' 64 64) = 0 → q = true)
    (hlt : v < wnum W (List.range' 64 64) → v' < wnum W (List.range' 64 64)) : Rest W out (m + 1) v := by
  obtain ⟨r, h1, h2, h3⟩ := h
  refine ⟨r, ?_, fun h => h2 (hlt h), fun hb => ?_⟩
  · rw [wnum_range'_succ, wnum_range'_succ, hq, Nat.zero_add]
    generalize wnum W (List.range' 64 64) = B at *
    have e1 : v * 2 ^ (m + 1) + 2 ^ m * (W m).toNat = 2 ^ m * (v' + q.toNat * B) := by
      rw [e, Nat.pow_succ]; grind
    have e2 : 2 ^ m * (v' + q.toNat * B) = v' * 2 ^ m + 2 ^ m * q.toNat * B := by grind
    rw [Nat.add_mul]
    omega
  · rw [wnum_range'_succ, h3 hb, hq, h0 hb, Nat.pow_succ]
    have := Nat.pow_pos (n := m) (show 0 < 2 by decide)
    simp only [Bool.toNat_true]
    omega

theorem copy_sound (hd : SatAll W d n) {l x c : Nat} {k : Nat → Nat → Bool} (h : cell d n 0xFF l (tab2 x 0) 0xAA c k = true) :
    ∃ q c', k q c' = true ∧ W q = W x := by
  obtain ⟨q, c', h, hq⟩ := cell_sound hd h (idx_full _ _ _) (right2 W x 0)
  refine ⟨q, c', h, ?_⟩
  rw [hq]
  cases W x <;> cases W 0 <;> decide

/-- one row -/
theorem row_rest {out k m bo : Nat} {R ds R' : List Nat} {nb : Bool} (hk : k + (m + 1) = 64) (hR : R.length = k)
    (hsub : wnum W ds + wnum W (List.range' 64 (k + 1)) + obit W none =
      wnum W ((63 - k) :: R) + 2 ^ ((63 - k) :: R).length * obit W (some bo))
    (hds : ds.length = ((63 - k) :: R).length)
    (hnb : nb = true ↔ W bo = true ∨ 0 < wnum W (List.range' (64 + (k + 1)) (64 - (k + 1))))
    (hR' : wnum W R' = if nb then wnum W ((63 - k) :: R) else wnum W ds)
    (ho : W (out + (63 - k)) = !nb) (h : Rest W out m (wnum W R')) : Rest W out (m + 1) (wnum W R) := by
  have hX := wnum_lt W ((63 - k) :: R)
  have hD := wnum_lt W ds
  rw [hds] at hD
  have hlen : ((63 - k) :: R).length = k + 1 := by simp [hR]
  rw [hlen] at hsub hX hD
  have e63 : 63 - k = m := by omega
  have e64 : 64 - (k + 1) = m := by omega
  have hB : wnum W (List.range' 64 64) =
      wnum W (List.range' 64 (k + 1)) + 2 ^ (k + 1) * wnum W (List.range' (64 + (k + 1)) m) := by
    have : List.range' 64 64 = List.range' 64 (k + 1) ++ List.range' (64 + (k + 1)) m := by
      rw [List.range'_append_1]; congr 1; omega
    rw [this, wnum_append, List.length_range']
  have e0 : obit W none = 0 := rfl
  have e1 : obit W (some bo) = (W bo).toNat := rfl
  rw [e0, e1, Nat.add_zero] at hsub
  rw [e64] at hnb
  have ha := row_arith (nb := nb) (Hi := wnum W (List.range' (64 + (k + 1)) m)) hsub hD hX (Bool.toNat_lt _) (by rw [hnb]; cases W bo <;> simp)
  rw [← hB, ← hR'] at ha
  have hX2 : wnum W ((63 - k) :: R) = (W m).toNat + 2 * wnum W R := by rw [e63]; rfl
  rw [hX2] at ha
  rw [e63] at ho
  obtain ⟨a1, a2, a3⟩ := ha
  refine rest_step h a1 ho (fun hb => ?_) fun hv => ?_
  · rw [a3 (by omega)]; rfl
  · generalize wnum W (List.range' 64 64) = B at *
    have : (W m).toNat < 2 := Bool.toNat_lt _
    by_cases hx : (W m).toNat + 2 * wnum W R < B
    · rw [a2 hx]; exact hx
    · rw [a3 (by omega)] at a1
      simp only [Bool.not_false, Bool.toNat_true, Nat.one_mul] at a1
      omega

theorem divRows_sound (hd : SatAll W d n) {out : Nat} : ∀ {cs hs : List Nat} {k : Nat} {R : List Nat},
    divRows d n out cs hs k R = true → k + cs.length = 64 → R.length = k → HighOk W hs (k + 1) →
    Rest W out cs.length (wnum W R)
  | [], hs, k, R, h, hk, hR, hh => ⟨wnum W R, by simp [wnum], id, fun _ => by simp [wnum]⟩
  | c :: cs, hs, k, R, h, hk, hR, hh => by
    unfold divRows at h
    obtain ⟨ds, o, c1, h, hl, h1⟩ := subRow_sound hd h
    simp only [List.length_cons] at hk ⊢
    cases o with
    | none => cases h
    | some bo =>
      cases hs with
      | nil =>
        simp only [Bool.and_eq_true, Nat.beq_eq] at h
        obtain ⟨h63, h⟩ := h
        obtain ⟨R', c2, h, hl', h2⟩ := muxRow_sound hd h
        obtain ⟨q, c3, h, h3⟩ := invCell_sound hd h
        obtain ⟨o, c4, h, h4⟩ := copy_sound hd h
        rw [Bool.and_eq_true, Nat.beq_eq] at h
        have ih := divRows_sound hd h.2 (by omega) (by simp [hl', hR]) trivial
        refine row_rest hk hR h1 hl (nb := W bo) ?_ h2 (by rw [← h.1, h4, h3]) ih
        subst h63
        simp [wnum]
      | cons x hs =>
        obtain ⟨nb, c2, h, h0⟩ := orCell_sound hd h
        obtain ⟨R', c2, h, hl', h2⟩ := muxRow_sound hd h
        obtain ⟨q, c3, h, h3⟩ := invCell_sound hd h
        obtain ⟨o, c4, h, h4⟩ := copy_sound hd h
        rw [Bool.and_eq_true, Nat.beq_eq] at h
        have ih := divRows_sound hd h.2 (by omega) (by simp [hl', hR]) hh.2
        refine row_rest hk hR h1 hl (nb := W nb) ?_ h2 (by rw [← h.1, h4, h3]) ih
        rw [h0, Bool.or_eq_true, hh.1]

/-- quotient; by zero all ones -/
def quotient (a b : Nat) : Nat := if b = 0 then 2 ^ 64 - 1 else a / b

theorem udiv_sound (hd : SatAll W d n) {out c : Nat} {cs : List Nat} (h : udiv? d n out c cs = true) :
    wnum W (List.range' out 64) = quotient (wnum W (List.range' 0 64)) (wnum W (List.range' 64 64)) := by
  unfold udiv? at h
  rw [Bool.and_eq_true, Nat.beq_eq] at h
  obtain ⟨hl, h⟩ := h
  obtain ⟨hs, h, hh⟩ := highs_sound hd (by decide) h ⟨by simp [wnum]; cases W 127 <;> simp, trivial⟩
  obtain ⟨r, h1, h2, h3⟩ := divRows_sound hd h (by omega) rfl hh
  rw [hl] at h1 h3
  have e : wnum W [] = 0 := rfl
  rw [e] at h1 h2
  rw [Nat.zero_mul, Nat.zero_add] at h1
  unfold quotient
  generalize wnum W (List.range' out 64) = q at *
  generalize wnum W (List.range' 64 64) = b at *
  generalize wnum W (List.range' 0 64) = a at *
  split
  · exact h3 (by assumption)
  · rename_i hb
    have := h2 (by omega)
    rw [h1, Nat.mul_comm, Nat.mul_add_div (by omega), Nat.div_eq_of_lt this, Nat.add_zero]

end

/-! ### the file -/

def udiv64File : File :=
  { numGate := 16952, numWire := 17080, ins := [64, 64], outs := [64], gates := (packed 16952 udiv64Data).map gline }

set_option maxRecDepth 1000000 in
theorem udiv64_packed : IsPacked udiv64File 16952 udiv64Data := ⟨rfl, by decide, by decide, by decide +kernel⟩

set_option maxRecDepth 1000000 in
theorem udiv64_udiv : udiv? udiv64Data 16952 17016 udiv64Highs udiv64Cert = true := by decide +kernel

theorem udiv64_text : Text udiv64File udiv64Text := by
  unfold udiv64Text
  exact packed_text_end (n := 16951) (f := udiv64File) (by decide +kernel) udiv64_packed.gates

end

end CC.Bundled
