import Verif.Spec.Bristol

/-!
# Lines, tokens and numbers: the functions of the standard library compute the parts of a text
-/

namespace CC.Bristol
open CC CC.Spec CC.Spec.Bristol

/-! ### numbers -/

theorem char_le {a c : Char} : a ≤ c ↔ a.toNat ≤ c.toNat := by
  rw [Char.le_def, UInt32.le_iff_toNat_le]; rfl

theorem digitVal_eq {c : Char} : digitVal c = if '0' ≤ c ∧ c ≤ '9' then some (c.toNat - '0'.toNat) else none := by
  unfold digitVal
  have h1 : (48 ≤ c.toNat ∧ c.toNat ≤ 57) ↔ ('0' ≤ c ∧ c ≤ '9') := by
    rw [char_le, char_le]; rfl
  simp only [h1]
  rfl

theorem parseDigits_some {ds : Str} : ∀ {acc : Nat}, (∀ c ∈ ds, '0' ≤ c ∧ c ≤ '9') →
    parseDigits acc ds = some (ds.foldl (fun a c => 10 * a + (c.toNat - '0'.toNat)) acc) := by
  induction ds with
  | nil => intro acc _; rfl
  | cons c cs ih =>
    intro acc h
    unfold parseDigits
    rw [digitVal_eq, if_pos (h c (by simp))]
    simp only [List.foldl_cons]
    rw [ih (fun d hd => h d (by simp [hd])), Nat.mul_comm acc 10]

theorem parseDigits_none {ds : Str} : ∀ {acc : Nat}, ¬ (∀ c ∈ ds, '0' ≤ c ∧ c ≤ '9') → parseDigits acc ds = none := by
  induction ds with
  | nil => intro acc h; exact absurd (by simp) h
  | cons c cs ih =>
    intro acc h
    unfold parseDigits
    rw [digitVal_eq]
    by_cases hc : '0' ≤ c ∧ c ≤ '9'
    · rw [if_pos hc]
      refine ih (fun hcs => h ?_)
      intro d hd
      rcases List.mem_cons.mp hd with rfl | hd
      · exact hc
      · exact hcs d hd
    · rw [if_neg hc]

/-- the digits after the optional plus sign -/
def unsigned : Str → Str
  | '+' :: cs => cs
  | cs => cs

theorem parseUsize_eq (t : Str) : parseUsize t =
    if unsigned t ≠ [] ∧ (∀ c ∈ unsigned t, '0' ≤ c ∧ c ≤ '9') ∧ digitsVal (unsigned t) < 2 ^ 64 then
      .ok (digitsVal (unsigned t)) else .error .parseInt := by
  have h0 : parseUsize t =
      if (unsigned t).isEmpty then .error .parseInt
      else match parseDigits 0 (unsigned t) with
        | none => .error .parseInt
        | some n => if n < 2 ^ 64 then .ok n else .error .parseInt := by
    unfold parseUsize unsigned
    rfl
  rw [h0]
  by_cases he : unsigned t = []
  · rw [he]; simp
  · rw [if_neg (by simpa using he)]
    by_cases hd : ∀ c ∈ unsigned t, '0' ≤ c ∧ c ≤ '9'
    · rw [parseDigits_some hd]
      show (if digitsVal (unsigned t) < 2 ^ 64 then Except.ok (digitsVal (unsigned t)) else _) = _
      by_cases hl : digitsVal (unsigned t) < 2 ^ 64
      · rw [if_pos hl, if_pos ⟨he, hd, hl⟩]
      · rw [if_neg hl, if_neg (fun h => hl h.2.2)]
    · rw [parseDigits_none hd, if_neg (fun h => hd h.2.1)]

theorem unsigned_digits {ds : Str} (h : ∀ c ∈ ds, '0' ≤ c ∧ c ≤ '9') : unsigned ds = ds := by
  unfold unsigned
  split
  · have := h '+' (by simp)
    exact absurd this (by decide)
  · rfl

theorem unsigned_cases (t : Str) : t = unsigned t ∨ t = '+' :: unsigned t := by
  unfold unsigned
  split
  · exact .inr rfl
  · exact .inl rfl

theorem numeral_iff {t : Str} {n : Nat} : Numeral t n ↔ unsigned t ≠ [] ∧ (∀ c ∈ unsigned t, '0' ≤ c ∧ c ≤ '9') ∧
    digitsVal (unsigned t) < 2 ^ 64 ∧ digitsVal (unsigned t) = n := by
  constructor
  · rintro ⟨ds, ht, h1, h2, h3, h4⟩
    have : unsigned t = ds := by
      rcases ht with rfl | rfl
      · exact unsigned_digits h2
      · rfl
    rw [this]
    exact ⟨h1, h2, by omega, h3⟩
  · rintro ⟨h1, h2, h3, h4⟩
    exact ⟨unsigned t, unsigned_cases t, h1, h2, h4, by omega⟩

theorem parseUsize_ok {t : Str} {n : Nat} : parseUsize t = .ok n ↔ Numeral t n := by
  rw [parseUsize_eq, numeral_iff]
  split
  · next h =>
    constructor
    · intro e; cases e; exact ⟨h.1, h.2.1, h.2.2, rfl⟩
    · rintro ⟨_, _, _, rfl⟩; rfl
  · next h =>
    constructor
    · intro e; cases e
    · rintro ⟨h1, h2, h3, _⟩; exact absurd ⟨h1, h2, h3⟩ h

theorem parseUsize_error {t : Str} {e : Err} : parseUsize t = .error e ↔ e = .parseInt ∧ NotNumeral t := by
  constructor
  · intro h
    have hn : NotNumeral t := fun n hn => by rw [parseUsize_ok.mpr hn] at h; cases h
    refine ⟨?_, hn⟩
    rw [parseUsize_eq] at h
    split at h <;> cases h
    rfl
  · rintro ⟨rfl, hn⟩
    cases h : parseUsize t with
    | ok n => exact absurd (parseUsize_ok.mp h) (hn n)
    | error e =>
      rw [parseUsize_eq] at h
      split at h <;> cases h
      rfl

theorem _root_.CC.Spec.Bristol.Numeral.det {t : Str} {n m : Nat} (h : Numeral t n) (k : Numeral t m) : n = m := by
  have := parseUsize_ok.mpr h
  rw [parseUsize_ok.mpr k] at this
  cases this; rfl

/-! ### tokens -/

theorem tokensAux_token {cur t : Str} : ∀ {rest : Str}, (∀ c ∈ t, isWhite c = false) →
    tokensAux cur (t ++ rest) = tokensAux (t.reverse ++ cur) rest := by
  induction t generalizing cur with
  | nil => intro rest _; rfl
  | cons c cs ih =>
    intro rest h
    simp only [List.cons_append]
    rw [tokensAux, if_neg (by simp [h c (by simp)]), ih (fun d hd => h d (by simp [hd]))]
    simp

theorem tokensAux_white {s : Str} : ∀ {rest : Str}, (∀ c ∈ s, isWhite c = true) →
    tokensAux [] (s ++ rest) = tokensAux [] rest := by
  induction s with
  | nil => intro rest _; rfl
  | cons c cs ih =>
    intro rest h
    simp only [List.cons_append]
    rw [tokensAux, if_pos (h c (by simp))]
    exact ih (fun d hd => h d (by simp [hd]))

theorem tokensOf_layout {ts : List Str} {l : Str} (h : Layout ts l) : tokensOf l = ts := by
  unfold tokensOf
  induction h with
  | nil h =>
    have := tokensAux_white (rest := []) h
    simpa [tokensAux] using this
  | @cons s t rest ts hs ht hnw hr _ ih =>
    rw [List.append_assoc, tokensAux_white hs, tokensAux_token hnw]
    cases rest with
    | nil =>
      simp only [tokensAux] at ih ⊢
      simp at ih
      subst ih
      simp [ht]
    | cons c cs =>
      have hc := hr c rfl
      rw [tokensAux, if_pos hc] at ih ⊢
      simp only [List.isEmpty_nil, if_true] at ih
      simp [ht, ih]

/-- a token under construction, reversed, and the rest of the line -/
theorem tokensAux_layout (l : Str) : ∀ cur : Str, (∀ c ∈ cur, isWhite c = false) →
    ∀ ts, tokensAux cur l = ts → Layout ts (cur.reverse ++ l) := by
  induction l with
  | nil =>
    intro cur hcur ts he
    rw [tokensAux] at he
    by_cases hn : cur = []
    · subst hn; simp at he; subst he; exact .nil (by simp)
    · rw [if_neg (by simpa using hn)] at he
      subst he
      have := Layout.cons (s := []) (t := cur.reverse) (rest := []) (ts := []) (by simp) (by simpa using hn)
        (by simpa using hcur) (by simp) (.nil (by simp))
      simpa using this
  | cons c cs ih =>
    intro cur hcur ts he
    rw [tokensAux] at he
    by_cases hc : isWhite c = true
    · rw [if_pos hc] at he
      have hl := ih [] (by simp) _ rfl
      simp only [List.reverse_nil, List.nil_append] at hl
      -- a white character in front of a laid-out line
      have hw : ∀ {ts} {l : Str}, Layout ts l → Layout ts (c :: l) := by
        intro ts l h
        cases h with
        | nil h => exact .nil (by simpa using ⟨hc, h⟩)
        | @cons s t rest ts' hs ht hnw hr hl =>
          have := Layout.cons (s := c :: s) (t := t) (rest := rest) (by simpa using ⟨hc, hs⟩) ht hnw hr hl
          simpa using this
      by_cases hn : cur = []
      · subst hn
        simp at he
        subst he
        simpa using hw hl
      · rw [if_neg (by simpa using hn)] at he
        subst he
        have := Layout.cons (s := []) (t := cur.reverse) (rest := c :: cs) (by simp) (by simpa using hn)
          (by simpa using hcur) (by intro d hd; simp at hd; subst hd; exact hc) (hw hl)
        simpa using this
    · rw [if_neg hc] at he
      have := ih (c :: cur) (by
        intro d hd
        rcases List.mem_cons.mp hd with rfl | hd
        · simpa using hc
        · exact hcur d hd) ts he
      simpa using this

theorem layout_iff {ts : List Str} {l : Str} : Layout ts l ↔ tokensOf l = ts :=
  ⟨tokensOf_layout, fun h => by simpa using tokensAux_layout l [] (by simp) ts h⟩

/-! ### lines -/

theorem linesAux_line {l : Str} : ∀ {cur rest : Str}, '\n' ∉ l →
    linesAux cur (l ++ rest) = linesAux (l.reverse ++ cur) rest := by
  induction l with
  | nil => intro cur rest _; rfl
  | cons c cs ih =>
    intro cur rest h
    simp only [List.cons_append]
    rw [linesAux, if_neg (by rintro rfl; exact h (by simp)), ih (fun hd => h (by simp [hd]))]
    simp

theorem linesAux_nl (cur rest : Str) : linesAux cur ('\n' :: rest) = (stripCR cur).reverse :: linesAux [] rest := by
  rw [linesAux, if_pos rfl]

theorem stripCR_ne {cur : Str} (h : cur.head? ≠ some '\r') : stripCR cur = cur := by
  unfold stripCR
  split
  · exact absurd rfl h
  · rfl

theorem linesOf_lines {ls : List Str} {text : Str} (h : Lines ls text) : linesOf text = ls := by
  unfold linesOf
  induction h with
  | nil => rfl
  | @last l hne hnl =>
    have := linesAux_line (cur := []) (rest := []) hnl
    rw [List.append_nil] at this
    rw [this, linesAux]
    simp [hne]
  | @lf l text ls hnl hcr _ ih =>
    rw [List.append_assoc, linesAux_line hnl]
    show linesAux _ ('\n' :: text) = _
    rw [linesAux_nl, ih, stripCR_ne (by simpa using hcr)]
    simp
  | @crlf l text ls hnl _ ih =>
    rw [List.append_assoc, linesAux_line hnl]
    show linesAux _ ('\r' :: '\n' :: text) = _
    rw [linesAux, if_neg (by decide), linesAux_nl, ih]
    simp [stripCR]

theorem linesAux_lines (text : Str) : ∀ cur : Str, '\n' ∉ cur →
    ∀ ls, linesAux cur text = ls → Lines ls (cur.reverse ++ text) := by
  induction text with
  | nil =>
    intro cur hcur ls he
    rw [linesAux] at he
    by_cases hn : cur = []
    · subst hn; simp at he; subst he; exact .nil
    · rw [if_neg (by simpa using hn)] at he
      subst he
      simpa using Lines.last (l := cur.reverse) (by simpa using hn) (by simpa using hcur)
  | cons c cs ih =>
    intro cur hcur ls he
    by_cases hc : c = '\n'
    · subst hc
      rw [linesAux_nl] at he
      have hl := ih [] (by simp) _ rfl
      simp only [List.reverse_nil, List.nil_append] at hl
      subst he
      by_cases hcr : cur.head? = some '\r'
      · obtain ⟨cur', rfl⟩ : ∃ cur', cur = '\r' :: cur' := by
          cases cur with
          | nil => simp at hcr
          | cons d ds => simp at hcr; subst hcr; exact ⟨ds, rfl⟩
        have := Lines.crlf (l := cur'.reverse) (by simpa using fun h => hcur (by simp [h])) hl
        simpa [stripCR] using this
      · rw [stripCR_ne hcr]
        have := Lines.lf (l := cur.reverse) (by simpa using hcur) (by simpa using hcr) hl
        simpa using this
    · rw [linesAux, if_neg hc] at he
      have := ih (c :: cur) (by simp; exact ⟨fun h => hc h.symm, hcur⟩) ls he
      simpa using this

theorem lines_iff {ls : List Str} {text : Str} : Lines ls text ↔ linesOf text = ls :=
  ⟨linesOf_lines, fun h => by simpa using linesAux_lines text [] (by simp) ls h⟩

/-! ### decimal printing -/

theorem digitsVal_append (a b : Str) : digitsVal (a ++ b) =
    b.foldl (fun a c => 10 * a + (c.toNat - '0'.toNat)) (digitsVal a) := by
  simp [digitsVal, List.foldl_append]

theorem digitChar_digit : ∀ d < 10, '0' ≤ Nat.digitChar d ∧ Nat.digitChar d ≤ '9' ∧
    (Nat.digitChar d).toNat - '0'.toNat = d := by decide

theorem dec_spec (n : Nat) : dec n ≠ [] ∧ (∀ c ∈ dec n, '0' ≤ c ∧ c ≤ '9') ∧ digitsVal (dec n) = n := by
  unfold dec
  induction n using Nat.strongRecOn with
  | _ n ih =>
    by_cases hn : n < 10
    · obtain ⟨h1, h2, h3⟩ := digitChar_digit n hn
      rw [Nat.toDigits_of_lt_base hn]
      refine ⟨by simp, ?_, ?_⟩
      · intro c hc; simp at hc; subst hc; exact ⟨h1, h2⟩
      · simp only [digitsVal, List.foldl_cons, List.foldl_nil, h3]; omega
    · obtain ⟨i1, i2, i3⟩ := ih (n / 10) (by omega)
      obtain ⟨h1, h2, h3⟩ := digitChar_digit (n % 10) (by omega)
      have e := Nat.toDigits_append_toDigits (b := 10) (n := n / 10) (d := n % 10) (by omega) (by omega) (by omega)
      rw [Nat.div_add_mod] at e
      rw [← e, Nat.toDigits_of_lt_base (by omega : n % 10 < 10)]
      refine ⟨by simp, ?_, ?_⟩
      · intro c hc
        rcases List.mem_append.mp hc with hc | hc
        · exact i2 c hc
        · simp at hc; subst hc; exact ⟨h1, h2⟩
      · rw [digitsVal_append, i3]
        simp only [List.foldl_cons, List.foldl_nil, h3]
        omega

theorem dec_numeral {n : Nat} (h : n < 2 ^ 64) : Numeral (dec n) n := by
  obtain ⟨h1, h2, h3⟩ := dec_spec n
  exact ⟨dec n, .inl rfl, h1, h2, h3, h⟩

theorem digit_not_white {c : Char} (h : '0' ≤ c ∧ c ≤ '9') : isWhite c = false := by
  have h1 : 48 ≤ c.toNat := char_le.mp h.1
  have h2 : c.toNat ≤ 57 := char_le.mp h.2
  unfold isWhite
  simp only [Bool.or_eq_false_iff, Bool.and_eq_false_iff, decide_eq_false_iff_not, beq_eq_false_iff_ne]
  omega

theorem dec_not_white (n : Nat) : ∀ c ∈ dec n, isWhite c = false := fun c hc =>
  digit_not_white ((dec_spec n).2.1 c hc)

end CC.Bristol
