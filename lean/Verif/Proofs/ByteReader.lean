import Verif.Model.ByteReader
import Verif.Spec.Utf8

/-!
# Reading bytes: UTF-8, lines, and agreement with the reader of texts
-/

namespace CC.Bristol.Bytes
open CC.Spec.Bristol

theorem char_range (c : Char) : c.toNat < 0xD800 ∨ (0xDFFF < c.toNat ∧ c.toNat < 0x110000) := c.valid

theorem charBytes_eq (c : Char) : charBytes c =
    if c.toNat ≤ 127 then [c.toNat]
    else if c.toNat ≤ 2047 then [c.toNat / 64 % 32 + 192, c.toNat % 64 + 128]
    else if c.toNat ≤ 65535 then [c.toNat / 4096 % 16 + 224, c.toNat / 64 % 64 + 128, c.toNat % 64 + 128]
    else [c.toNat / 262144 % 8 + 240, c.toNat / 4096 % 64 + 128, c.toNat / 64 % 64 + 128, c.toNat % 64 + 128] := by
  unfold charBytes String.utf8EncodeChar
  simp only [Char.toNat]
  split
  · have : c.toNat = c.val.toNat := rfl
    simp; omega
  · split
    · simp; omega
    · split
      · simp; omega
      · simp; omega

theorem decode_one (c : Char) (bs : List Nat) : decode (charBytes c ++ bs) = (decode bs).map (c :: ·) := by
  have hr := char_range c
  have hc : ∀ n, n = c.toNat → Char.ofNat n = c := by rintro n rfl; exact Char.ofNat_toNat c
  rw [charBytes_eq]
  generalize hv : c.toNat = v at hr hc ⊢
  split
  · next h =>
    rw [List.singleton_append, decode.eq_def]; simp only; rw [if_pos (by omega), hc v rfl]
  · split
    · next h1 h2 =>
      rw [List.cons_append, List.singleton_append, decode.eq_def]; simp only; rw [if_neg (by omega)]
      rw [if_pos ⟨by omega, by omega, by simp [isCont]; omega⟩, hc _ (by omega)]
    · split
      · next h1 h2 h3 =>
        rw [List.cons_append, List.cons_append, List.singleton_append, decode.eq_def]; simp only; rw [if_neg (by omega)]
        rw [if_neg (by omega), if_pos ⟨by simp [three, isCont]; omega, by simp [isCont]; omega⟩, hc _ (by omega)]
      · next h1 h2 h3 =>
        rw [List.cons_append, List.cons_append, List.cons_append, List.singleton_append, decode.eq_def]; simp only; rw [if_neg (by omega)]
        rw [if_neg (by omega), if_neg (by simp [three, isCont]; omega),
          if_pos ⟨by simp [four, isCont]; omega, by simp [isCont]; omega, by simp [isCont]; omega⟩, hc _ (by omega)]

theorem decode_textBytes : ∀ cs : List Char, decode (textBytes cs) = some cs
  | [] => rfl
  | c :: cs => by
    have : textBytes (c :: cs) = charBytes c ++ textBytes cs := rfl
    rw [this, decode_one, decode_textBytes cs]; rfl

theorem toNat_ofNat {n : Nat} (h : n < 0xD800 ∨ (0xDFFF < n ∧ n < 0x110000)) : (Char.ofNat n).toNat = n := by
  have hv : n.isValidChar := h
  simp [Char.ofNat, hv, Char.toNat, Char.ofNatAux]

theorem charBytes_ofNat {n : Nat} (h : n < 0xD800 ∨ (0xDFFF < n ∧ n < 0x110000)) : charBytes (Char.ofNat n) =
    if n ≤ 127 then [n]
    else if n ≤ 2047 then [n / 64 % 32 + 192, n % 64 + 128]
    else if n ≤ 65535 then [n / 4096 % 16 + 224, n / 64 % 64 + 128, n % 64 + 128]
    else [n / 262144 % 8 + 240, n / 4096 % 64 + 128, n / 64 % 64 + 128, n % 64 + 128] := by
  rw [charBytes_eq, toNat_ofNat h]

theorem decode_sound : ∀ (n : Nat) (bs : List Nat), bs.length ≤ n → ∀ cs, decode bs = some cs → bs = textBytes cs := by
  intro n
  induction n with
  | zero =>
    intro bs hn cs h
    obtain rfl : bs = [] := List.length_eq_zero_iff.mp (by omega)
    cases h; rfl
  | succ n ih =>
    intro bs hn cs h
    have fin : ∀ (v : Nat) (bs' pre : List Nat), bs'.length ≤ n → (decode bs').map (Char.ofNat v :: ·) = some cs →
        charBytes (Char.ofNat v) = pre → pre ++ bs' = textBytes cs := by
      intro v bs' pre hl h hp
      obtain ⟨cs', h1, rfl⟩ := Option.map_eq_some_iff.mp h
      rw [ih bs' hl cs' h1, ← hp]; rfl
    rw [decode.eq_def] at h
    split at h
    · cases h; rfl
    · next b0 bs =>
      simp only [List.length_cons] at hn
      split at h
      · next h0 =>
        refine fin b0 bs [b0] (by omega) h ?_
        rw [charBytes_ofNat (by omega), if_pos (by omega)]
      · next h0 =>
        split at h
        · cases h
        · next b1 bs =>
          simp only [List.length_cons] at hn
          split at h
          · next h1 =>
            simp only [isCont, Bool.and_eq_true, decide_eq_true_eq] at h1
            refine fin _ bs [b0, b1] (by omega) h ?_
            rw [charBytes_ofNat (by omega), if_neg (by omega), if_pos (by omega)]
            congr 1
            · omega
            · congr 1; omega
          · next h1 =>
            split at h
            · cases h
            · next b2 bs =>
              simp only [List.length_cons] at hn
              split at h
              · next h2 =>
                simp only [three, isCont, Bool.and_eq_true, Bool.or_eq_true, decide_eq_true_eq, beq_iff_eq] at h2
                refine fin _ bs [b0, b1, b2] (by omega) h ?_
                rw [charBytes_ofNat (by omega), if_neg (by omega), if_neg (by omega), if_pos (by omega)]
                congr 1
                · omega
                · congr 1
                  · omega
                  · congr 1; omega
              · next h2 =>
                split at h
                · cases h
                · next b3 bs =>
                  simp only [List.length_cons] at hn
                  split at h
                  · next h3 =>
                    simp only [four, isCont, Bool.and_eq_true, Bool.or_eq_true, decide_eq_true_eq, beq_iff_eq] at h3
                    refine fin _ bs [b0, b1, b2, b3] (by omega) h ?_
                    rw [charBytes_ofNat (by omega), if_neg (by omega), if_neg (by omega), if_neg (by omega)]
                    congr 1
                    · omega
                    · congr 1
                      · omega
                      · congr 1
                        · omega
                        · congr 1; omega
                  · cases h

theorem decode_iff (bs : List Nat) (cs : List Char) : decode bs = some cs ↔ bs = textBytes cs :=
  ⟨decode_sound _ bs (Nat.le_refl _) cs, by rintro rfl; exact decode_textBytes cs⟩

/-! ### lines -/

theorem textBytes_append (a b : List Char) : textBytes (a ++ b) = textBytes a ++ textBytes b := by
  simp [textBytes]

theorem charBytes_nl (c : Char) (h : c ≠ '\n') : 10 ∉ charBytes c := by
  have : c.toNat ≠ 10 := by
    intro e
    apply h
    have := congrArg Char.ofNat e
    rw [Char.ofNat_toNat] at this
    rw [this]
  rw [charBytes_eq]
  split
  · simp; omega
  · split
    · simp
    · split <;> simp

theorem charBytes_ne (c : Char) : charBytes c ≠ [] := by
  rw [charBytes_eq]; split
  · simp
  · split
    · simp
    · split <;> simp

theorem itemsAux_push : ∀ (bs cur : List Nat) (src : List (Option Nat)), 10 ∉ bs →
    itemsAux cur (bs.map some ++ src) = itemsAux (bs.reverse ++ cur) src
  | [], _, _, _ => rfl
  | b :: bs, cur, src, h => by
    have hb : b ≠ 10 := fun e => h (by simp [e])
    have : itemsAux cur ((b :: bs).map some ++ src) = itemsAux (b :: cur) (bs.map some ++ src) := by
      simp [itemsAux, hb]
    rw [this, itemsAux_push bs (b :: cur) src (fun hx => h (List.mem_cons_of_mem _ hx))]
    simp

theorem textBytes_isEmpty (cs : List Char) : (textBytes cs).reverse.isEmpty = cs.isEmpty := by
  cases cs with
  | nil => rfl
  | cons c cs =>
    have := charBytes_ne c
    cases e : charBytes c with
    | nil => exact absurd e this
    | cons b bs => simp [textBytes, e]

theorem itemsAux_text : ∀ (text cur : List Char),
    itemsAux (textBytes cur.reverse).reverse ((textBytes text).map some) = (linesAux cur text).map .ok
  | [], cur => by
    have h : itemsAux (textBytes cur.reverse).reverse ((textBytes []).map some) =
      if (textBytes cur.reverse).reverse.isEmpty then [] else [lineItem (textBytes cur.reverse).reverse.reverse] := rfl
    rw [h, textBytes_isEmpty, List.reverse_reverse, linesAux]
    have : cur.reverse.isEmpty = cur.isEmpty := by cases cur <;> simp
    rw [this]
    split
    · rfl
    · simp [lineItem, decode_textBytes]
  | c :: text, cur => by
    by_cases hc : c = '\n'
    · subst hc
      have e : (textBytes ('\n' :: text)).map some = some 10 :: (textBytes text).map some := by
        simp [textBytes, show charBytes '\n' = [10] by decide]
      rw [e, itemsAux, if_pos rfl, List.reverse_reverse, linesAux, if_pos rfl]
      have := itemsAux_text text []
      simp only [List.reverse_nil, show textBytes [] = [] from rfl] at this
      rw [this]
      simp [lineItemNl, decode_textBytes]
    · have e : (textBytes (c :: text)).map some = (charBytes c).map some ++ (textBytes text).map some := by
        simp [textBytes]
      rw [e, itemsAux_push _ _ _ (charBytes_nl c hc), linesAux, if_neg hc, ← itemsAux_text text (c :: cur)]
      congr 1
      simp [textBytes]

/-! ### agreement with the reader of texts -/

theorem of_bind {α β : Type} (x : M α) (f : α → M β) : B.of (x >>= f) = (B.of x >>= fun a => B.of (f a)) := by
  funext w
  simp only [bind, B.of]
  rcases x w with ⟨a | a, w'⟩ <;> rfl

theorem of_pure {α : Type} (a : α) : B.of (pure a : M α) = pure a := rfl

theorem of_throw {α : Type} (e : Err) : B.of (M.throw e : M α) = B.throw (.other e) := rfl

theorem nextLine_ok (n : Nat) (ls : List (List Char)) : nextLine n (ls.map .ok) =
    (B.of (lift (Bristol.nextLine n ls)) >>= fun p => pure (p.1, p.2.map .ok)) := by
  cases ls <;> rfl

theorem bind_assoc' {α β γ : Type} (x : B α) (f : α → B β) (g : β → B γ) : x >>= f >>= g = x >>= fun a => f a >>= g := by
  funext w
  simp only [bind]
  rcases x w with ⟨a | a, w'⟩ <;> rfl

theorem pure_bind' {α β : Type} (a : α) (f : α → B β) : (pure a : B α) >>= f = f a := rfl

theorem readGates_ok (r : Ref) : ∀ (ls : List (List Char)) (gow : GOW),
    readGates r gow (ls.map .ok) = B.of (Bristol.readGates r gow ls)
  | [], _ => rfl
  | l :: ls, gow => by
    have h1 : readGates r gow ((l :: ls).map .ok) = if l.isEmpty then pure gow else
      (B.of (lift (readGateTokens gow (tokensOf l))) >>= fun x => B.of (readGateOp r gow x.1 x.2.1 x.2.2) >>= fun gow =>
        readGates r gow (ls.map .ok)) := rfl
    have h2 : Bristol.readGates r gow (l :: ls) = if l.isEmpty then pure gow else
      (lift (readGateTokens gow (tokensOf l)) >>= fun x => readGateOp r gow x.1 x.2.1 x.2.2 >>= fun gow =>
        Bristol.readGates r gow ls) := rfl
    rw [h1, h2]
    split
    · rfl
    · simp only [of_bind, readGates_ok r ls]

theorem readItems_ok (r : Ref) (gow : GOW) (text : List Char) :
    readItems r gow ((linesOf text).map .ok) = B.of (Bristol.read r gow text) := by
  unfold readItems Bristol.read
  generalize linesOf text = ls
  simp only [of_bind, nextLine_ok, bind_assoc', pure_bind']
  congr 1; funext ⟨l1, ls⟩
  congr 1; funext ⟨_, ts⟩
  congr 1; funext ⟨numWire, _⟩
  congr 1; funext ⟨l2, ls⟩
  congr 1; funext ⟨numInput, ts⟩
  congr 1; funext gow
  congr 1; funext ⟨l3, ls⟩
  congr 1; funext ⟨numOutput, ts⟩
  congr 1; funext outSum
  have : skipLine 4 (ls.map .ok) = (B.of (lift (Bristol.nextLine 4 ls)) >>= fun p => pure (p.2.map .ok)) := by
    cases ls <;> rfl
  rw [this, bind_assoc']
  congr 1; funext ⟨_, ls⟩
  rw [pure_bind', readGates_ok]
  congr 1; funext gow
  simp only
  split
  · rfl
  · rw [of_bind]; rfl

theorem read_text (r : Ref) (gow : GOW) (text : List Char) :
    read r gow ((textBytes text).map some) = B.of (Bristol.read r gow text) := by
  rw [← readItems_ok]
  unfold read itemsOf linesOf
  rw [← itemsAux_text text []]
  rfl

/-! ### lines that cannot be read -/

/-- the run does not depend on the lines given, or it stops at the first of them if that is unreadable -/
def Stops (f : List Item → B GOW) (w : World) : Prop :=
  (∃ out, ∀ rest, f rest w = out) ∨ ∃ w', ∀ e rest, f (.error e :: rest) w = (.error e, w')

theorem Stops.bind {α : Type} {x : B α} {f : α → List Item → B GOW} {w : World}
    (h : ∀ a w', x w = (.ok a, w') → Stops (f a) w') : Stops (fun ls => x >>= fun a => f a ls) w := by
  rcases e : x w with ⟨a | a, w'⟩
  · exact .inl ⟨(.error a, w'), fun rest => by simp only [Bind.bind, e]⟩
  · rcases h a w' e with ⟨out, ho⟩ | ⟨w2, ho⟩
    · exact .inl ⟨out, fun rest => by simp only [Bind.bind, e]; exact ho rest⟩
    · exact .inr ⟨w2, fun er rest => by simp only [Bind.bind, e]; exact ho er rest⟩

theorem Stops.const {x : B GOW} {w : World} : Stops (fun _ => x) w := .inl ⟨x w, fun _ => rfl⟩

/-- what to do after a run -/
def andThen (g : GOW → B GOW) : Except BErr GOW × World → Except BErr GOW × World
  | (.ok a, w') => g a w'
  | (.error e, w') => (.error e, w')

/-- the bind of `f` with something that no longer looks at lines -/
theorem Stops.then {f : List Item → B GOW} {g : GOW → B GOW} {w : World} (h : Stops f w) :
    Stops (fun ls => f ls >>= g) w := by
  have hb : ∀ ls, (f ls >>= g) w = andThen g (f ls w) := fun ls => by
    simp only [Bind.bind, andThen]; rcases f ls w with ⟨a | a, w'⟩ <;> rfl
  rcases h with ⟨out, ho⟩ | ⟨w2, ho⟩
  · exact .inl ⟨andThen g out, fun rest => (hb rest).trans (by rw [ho])⟩
  · exact .inr ⟨w2, fun er rest => (hb _).trans (by rw [ho]; rfl)⟩

theorem nextLine_stops (n : Nat) (f : List Char × List Item → B GOW) (w : World) :
    Stops (fun ls => nextLine n ls >>= f) w := .inr ⟨w, fun _ _ => rfl⟩

theorem readGates_stops (r : Ref) : ∀ (pre : List (List Char)) (gow : GOW) (w : World),
    Stops (fun rest => readGates r gow (pre.map .ok ++ rest)) w
  | [], _, w => .inr ⟨w, fun _ _ => rfl⟩
  | l :: pre, gow, w => by
    simp only [List.map_cons, List.cons_append, readGates]
    split
    · exact .const
    · refine .bind fun x w' _ => ?_
      obtain ⟨gs, ws, op⟩ := x
      exact .bind fun gow' w2 _ => readGates_stops r pre gow' w2

theorem readItems_stops (r : Ref) (gow : GOW) (pre : List (List Char)) (hp : pre.length ≠ 3) (w : World) :
    Stops (fun rest => readItems r gow (pre.map .ok ++ rest)) w := by
  unfold readItems
  match pre, hp with
  | [], _ => exact .inr ⟨w, fun _ _ => rfl⟩
  | l1 :: pre, hp =>
    simp only [List.map_cons, List.cons_append, nextLine, pure_bind']
    refine .bind fun x w1 _ => ?_
    obtain ⟨_, ts⟩ := x
    refine .bind fun x w1 _ => ?_
    obtain ⟨numWire, _⟩ := x
    match pre, hp with
    | [], _ => exact .inr ⟨w1, fun _ _ => rfl⟩
    | l2 :: pre, hp =>
      simp only [List.map_cons, List.cons_append, pure_bind']
      refine .bind fun x w1 _ => ?_
      obtain ⟨numInput, ts⟩ := x
      refine .bind fun gow w1 _ => ?_
      match pre, hp with
      | [], _ => exact .inr ⟨w1, fun _ _ => rfl⟩
      | [l3], hp => exact absurd rfl hp
      | l3 :: l4 :: pre, hp =>
        simp only [List.map_cons, List.cons_append, pure_bind', skipLine]
        refine .bind fun x w1 _ => ?_
        obtain ⟨numOutput, ts⟩ := x
        refine .bind fun outSum w1 _ => ?_
        exact .then (readGates_stops r pre gow w1)

theorem readItems_fourth (r : Ref) (gow : GOW) (l1 l2 l3 x y : Item) (rest : List Item) :
    readItems r gow (l1 :: l2 :: l3 :: x :: rest) = readItems r gow (l1 :: l2 :: l3 :: y :: rest) := by
  cases l1 <;> cases l2 <;> cases l3 <;> rfl

theorem bind_okB {α β : Type} {x : B α} {f : α → B β} {w w' : World} {b : β} (h : (x >>= f) w = (.ok b, w')) :
    ∃ a w1, x w = (.ok a, w1) ∧ f a w1 = (.ok b, w') := by
  simp only [Bind.bind] at h
  rcases e : x w with ⟨a | a, w1⟩
  · rw [e] at h; cases h
  · rw [e] at h; exact ⟨a, w1, rfl, h⟩

theorem readGates_success (r : Ref) : ∀ (ls : List Item) (gow gow' : GOW) (w w' : World),
    readGates r gow ls w = (.ok gow', w') → ∀ (k : Nat) (e : BErr), ls[k]? = some (Except.error e) →
    ∃ j < k, ls[j]? = some (Except.ok [])
  | [], _, _, _, _, _, k, e, hk => by simp at hk
  | .error _ :: _, _, _, _, _, h, _, _, _ => by cases h
  | .ok l :: ls, gow, gow', w, w', h, k, e, hk => by
    cases k with
    | zero => simp at hk
    | succ k =>
      by_cases hl : l = []
      · subst hl; exact ⟨0, by omega, rfl⟩
      · have hne : l.isEmpty = false := by cases l with
          | nil => exact absurd rfl hl
          | cons => rfl
        simp only [readGates, hne] at h
        obtain ⟨⟨gs, ws, op⟩, w1, _, h⟩ := bind_okB h
        obtain ⟨gow1, w2, _, h⟩ := bind_okB h
        obtain ⟨j, hj, hjl⟩ := readGates_success r ls gow1 gow' w2 w' h k e (by simpa using hk)
        exact ⟨j + 1, by omega, by simpa using hjl⟩

theorem nextLine_some {n : Nat} {ls : List Item} {w w' : World} {p : List Char × List Item}
    (h : nextLine n ls w = (.ok p, w')) : ls = .ok p.1 :: p.2 := by
  match ls with
  | [] => cases h
  | .error _ :: _ => cases h
  | .ok l :: ls => cases h; rfl

theorem readItems_success (r : Ref) (gow gow' : GOW) (ls : List Item) (w w' : World)
    (h : readItems r gow ls w = (.ok gow', w')) (k : Nat) (e : BErr) (hk : ls[k]? = some (.error e)) :
    k = 3 ∨ ∃ j, 4 ≤ j ∧ j < k ∧ ls[j]? = some (.ok []) := by
  unfold readItems at h
  obtain ⟨⟨l1, ls1⟩, w1, h1, h⟩ := bind_okB h
  obtain ⟨⟨_, ts⟩, _, _, h⟩ := bind_okB h
  obtain ⟨⟨nw, _⟩, _, _, h⟩ := bind_okB h
  obtain ⟨⟨l2, ls2⟩, _, h2, h⟩ := bind_okB h
  obtain ⟨⟨ni, ts⟩, _, _, h⟩ := bind_okB h
  obtain ⟨gow1, _, _, h⟩ := bind_okB h
  obtain ⟨⟨l3, ls3⟩, _, h3, h⟩ := bind_okB h
  obtain ⟨⟨no, ts⟩, _, _, h⟩ := bind_okB h
  obtain ⟨os, _, _, h⟩ := bind_okB h
  obtain ⟨ls4, _, h4, h⟩ := bind_okB h
  obtain ⟨gow2, _, h5, h⟩ := bind_okB h
  have e1 := nextLine_some h1
  have e2 := nextLine_some h2
  have e3 := nextLine_some h3
  dsimp only at e1 e2 e3
  subst e1 e2 e3
  match ls3, h4 with
  | [], h4 => cases h4
  | x :: ls4', h4 =>
    cases h4
    match k, hk with
    | 0, hk => cases hk
    | 1, hk => cases hk
    | 2, hk => cases hk
    | 3, hk => exact .inl rfl
    | k + 4, hk =>
      obtain ⟨j, hj, hjl⟩ := readGates_success r _ _ _ _ _ h5 k e (by simpa using hk)
      exact .inr ⟨j + 4, by omega, by omega, by simpa using hjl⟩

end CC.Bristol.Bytes
