import Verif.Proofs.ByteReader
import Verif.Props.Writer

/-!
# C59: reading bytes

The reader takes any `BufRead`: reading may fail, and the bytes need not be UTF-8. C16–C18 and C22 speak about texts; here
is what they say about bytes, and what happens to bytes that are no text.
-/

namespace CC.Props
open CC CC.Spec CC.Bristol CC.Spec.Bristol
open CC.Bristol.Bytes (decode BErr Item itemsOf lineItem lineItemNl readItems)

/-- C59: `from_utf8` accepts exactly the encodings of texts (UTF-8 as in Lean's core library) and returns the text. -/
theorem C59_utf8 (bs : List Nat) (cs : List Char) : decode bs = some cs ↔ bs = textBytes cs := Bytes.decode_iff bs cs

/-- C59: reading the bytes of a text gives the result of reading the text, whatever the reader and the heap. -/
theorem C59_text (r : Ref) (gow : GOW) (text : List Char) (w : World) :
    Bytes.read r gow ((textBytes text).map some) w =
      ((Bristol.read r gow text w).1.mapError .other, (Bristol.read r gow text w).2) := by
  rw [Bytes.read_text]
  unfold Bytes.B.of
  rcases Bristol.read r gow text w with ⟨a | a, w'⟩ <;> rfl

/-- how a source is cut into lines, with the functions of the model -/
theorem items_lines (l : List Nat) (h : 10 ∉ l) (src : List (Option Nat)) :
    itemsOf [] = [] ∧
    itemsOf (l.map some ++ some 10 :: src) = lineItemNl l :: itemsOf src ∧
    itemsOf (l.map some ++ none :: src) = .error .io :: itemsOf src ∧
    (l ≠ [] → itemsOf (l.map some) = [lineItem l]) := by
  refine ⟨rfl, ?_, ?_, ?_⟩
  · simp [itemsOf, Bytes.itemsAux_push l [] _ h, Bytes.itemsAux]
  · simp [itemsOf, Bytes.itemsAux_push l [] _ h, Bytes.itemsAux]
  · intro hl
    have := Bytes.itemsAux_push l [] [] h
    rw [List.append_nil] at this
    unfold itemsOf
    rw [this]
    cases l with
    | nil => exact absurd rfl hl
    | cons b l => simp [Bytes.itemsAux]

theorem lineItem_text (cs : List Char) : lineItem (textBytes cs) = .ok cs := by
  unfold lineItem
  rw [(Bytes.decode_iff _ cs).mpr rfl]

theorem decode_none {l : List Nat} (h : ∀ cs, l ≠ textBytes cs) : decode l = none := by
  cases e : decode l with
  | none => rfl
  | some cs => exact absurd ((Bytes.decode_iff l cs).mp e) (h cs)

/-- C59: how a source is cut into lines. A line break ends a line and takes one carriage return before it; a last line need
not end with a line break. Bytes that are not the encoding of a text make the line unreadable, and so does a failing read. -/
theorem C59_lines (l : List Nat) (h : 10 ∉ l) (src : List (Option Nat)) :
    itemsOf [] = [] ∧
    (∀ cs, l = textBytes cs → cs.getLast? ≠ some '\r' → itemsOf (l.map some ++ some 10 :: src) = .ok cs :: itemsOf src) ∧
    (∀ cs, l = textBytes (cs ++ ['\r']) → itemsOf (l.map some ++ some 10 :: src) = .ok cs :: itemsOf src) ∧
    ((∀ cs, l ≠ textBytes cs) → itemsOf (l.map some ++ some 10 :: src) = .error .invalidUtf8 :: itemsOf src) ∧
    itemsOf (l.map some ++ none :: src) = .error .io :: itemsOf src ∧
    (l ≠ [] → (∀ cs, l = textBytes cs → itemsOf (l.map some) = [.ok cs]) ∧
      ((∀ cs, l ≠ textBytes cs) → itemsOf (l.map some) = [.error .invalidUtf8])) := by
  obtain ⟨h1, h2, h3, h4⟩ := items_lines l h src
  refine ⟨h1, ?_, ?_, ?_, h3, fun hl => ⟨?_, ?_⟩⟩
  · rintro cs rfl hcs
    rw [h2, lineItemNl, (Bytes.decode_iff _ cs).mpr rfl]
    rcases List.eq_nil_or_concat cs with rfl | ⟨ds, c, rfl⟩
    · rfl
    · have : c ≠ '\r' := by simpa using hcs
      simp [stripCR, this]
  · rintro cs rfl
    rw [h2, lineItemNl, (Bytes.decode_iff _ (cs ++ ['\r'])).mpr rfl]
    simp [stripCR]
  · intro hn
    rw [h2, lineItemNl, decode_none hn]
  · rintro cs rfl
    rw [h4 hl, lineItem_text]
  · intro hn
    rw [h4 hl, lineItem, decode_none hn]

example : (∀ cs, [255] ≠ textBytes cs) ∧ 10 ∉ [255] ∧ itemsOf [some 255] = [.error .invalidUtf8] ∧
    itemsOf [some 65, some 13, some 10, some 66] = [.ok ['A'], .ok ['B']] :=
  ⟨fun cs h => (by cases (Bytes.decode_iff [255] cs).mpr h), (by decide), rfl, rfl⟩

/-- C59: for any readable lines except three, followed by an unreadable one: either the reader does not look beyond the
readable lines, or it returns the error of the unreadable line, and nothing behind that line matters. -/
theorem C59_unreadable (r : Ref) (gow : GOW) (pre : List (List Char)) (hp : pre.length ≠ 3) (w : World) :
    (∃ out, ∀ rest, readItems r gow (pre.map .ok ++ rest) w = out) ∨
    ∃ w', ∀ e rest, readItems r gow (pre.map .ok ++ .error e :: rest) w = (.error e, w') :=
  Bytes.readItems_stops r gow pre hp w

theorem textBytes_append (a b : List Char) : textBytes (a ++ b) = textBytes a ++ textBytes b := by simp [textBytes]

theorem not_mem_textBytes {l : List Char} (h : '\n' ∉ l) : 10 ∉ textBytes l := by
  unfold textBytes
  rw [List.mem_flatMap]
  rintro ⟨c, hc, hm⟩
  exact Bytes.charBytes_nl c (fun e => h (e ▸ hc)) hm

theorem items_pre : ∀ pre : List (List Char), (∀ l ∈ pre, '\n' ∉ l) → ∃ ls : List (List Char), ls.length = pre.length ∧ ∀ src,
    itemsOf ((textBytes (pre.flatMap (· ++ ['\n']))).map some ++ src) = ls.map .ok ++ itemsOf src
  | [], _ => ⟨[], rfl, fun _ => rfl⟩
  | l :: pre, h => by
    obtain ⟨ls, h1, h2⟩ := items_pre pre fun x hx => h x (List.mem_cons_of_mem _ hx)
    refine ⟨(stripCR l.reverse).reverse :: ls, by simp [h1], fun src => ?_⟩
    have hl := not_mem_textBytes (h l List.mem_cons_self)
    have e := (items_lines _ hl ((textBytes (pre.flatMap (· ++ ['\n']))).map some ++ src)).2.1
    rw [lineItemNl, (Bytes.decode_iff _ l).mpr rfl, h2] at e
    rw [List.flatMap_cons, textBytes_append, textBytes_append, show textBytes ['\n'] = [10] by decide]
    simpa using e

/-- C59, from the source: after any lines except three, either the reader does not look at what follows, or a line in which a read fails
makes it return that error, a line that is not the encoding of a text makes it return that it is not UTF-8, and what follows does not matter. -/
theorem C59_source (r : Ref) (gow : GOW) (pre : List (List Char)) (hp : pre.length ≠ 3) (hn : ∀ l ∈ pre, '\n' ∉ l) (w : World) :
    (∃ out, ∀ rest, Bytes.read r gow ((textBytes (pre.flatMap (· ++ ['\n']))).map some ++ rest) w = out) ∨
    ∃ w', ∀ (l : List Nat), 10 ∉ l →
      (∀ rest, Bytes.read r gow ((textBytes (pre.flatMap (· ++ ['\n']))).map some ++ (l.map some ++ none :: rest)) w = (.error .io, w')) ∧
      ((∀ cs, l ≠ textBytes cs) →
        (∀ rest, Bytes.read r gow ((textBytes (pre.flatMap (· ++ ['\n']))).map some ++ (l.map some ++ some 10 :: rest)) w =
          (.error .invalidUtf8, w')) ∧
        Bytes.read r gow ((textBytes (pre.flatMap (· ++ ['\n']))).map some ++ l.map some) w = (.error .invalidUtf8, w')) := by
  obtain ⟨ls, h1, h2⟩ := items_pre pre hn
  simp only [Bytes.read, h2]
  rcases C59_unreadable r gow ls (by omega) w with ⟨out, ho⟩ | ⟨w', ho⟩
  · exact .inl ⟨out, fun rest => ho _⟩
  · refine .inr ⟨w', fun l hl => ⟨fun rest => ?_, fun hc => ⟨fun rest => ?_, ?_⟩⟩⟩
    · rw [(C59_lines l hl rest).2.2.2.2.1]; exact ho _ _
    · rw [(C59_lines l hl rest).2.2.2.1 hc]; exact ho _ _
    · have h0 : l ≠ [] := fun h => hc [] (by rw [h]; rfl)
      rw [((C59_lines l hl []).2.2.2.2.2 h0).2 hc]; exact ho _ _

/-- C59: the fourth line is not looked at, not even whether it could be read. -/
theorem C59_fourth (r : Ref) (gow : GOW) (l1 l2 l3 x y : Item) (rest : List Item) :
    readItems r gow (l1 :: l2 :: l3 :: x :: rest) = readItems r gow (l1 :: l2 :: l3 :: y :: rest) :=
  Bytes.readItems_fourth r gow l1 l2 l3 x y rest

/-- C59, the part that holds: if reading succeeds, every line that could not be read is the fourth or comes after the empty
line that ends the gates. -/
theorem C59_success_partial {r : Ref} {gow gow' : GOW} {src : List (Option Nat)} {w w' : World}
    (h : Bytes.read r gow src w = (.ok gow', w')) {k : Nat} {e : BErr} (hk : (itemsOf src)[k]? = some (.error e)) :
    k = 3 ∨ ∃ j, 4 ≤ j ∧ j < k ∧ (itemsOf src)[j]? = some (.ok []) :=
  Bytes.readItems_success r gow gow' _ w w' h k e hk

/-- a heap with one empty circuit -/
def blank : List Op := [.newStorage, .newCircuit 0]

/-- an AND of two inputs, with an error when the fourth line is read and a byte that is not UTF-8 in it -/
def badFourth : List (Option Nat) :=
  (textBytes (chars! "1 3\n2 1 1\n1 1\n")).map some ++ [some 255, none] ++ (textBytes (chars! "2 1 0 1 2 AND\n")).map some

/-- C59 is false of the code: reading succeeds although the source failed (and the bytes before are not UTF-8), because the
result of reading the fourth line is dropped. -/
theorem C59_full_false : none ∈ badFourth ∧ ∃ gow w', Bytes.read 0 Map.empty badFourth (run blank) = (.ok gow, w') ∧
    evalOutput w' 1 0 [true, true] = .ok [true] ∧ evalOutput w' 1 0 [true, false] = .ok [false] :=
  ⟨by decide, _, _, by rfl, by rfl, by rfl⟩

/-- in any other line the same bytes are an error -/
example : (Bytes.read 0 Map.empty ((textBytes (chars! "1 3\n2 1 1\n1 1\n\n")).map some ++ [some 255, some 10])
    (run blank)).1 = .error .invalidUtf8 := by rfl

example : (Bytes.read 0 Map.empty ((textBytes (chars! "1 3\n2 1 1\n1 1\n\n2 1 0 1 ")).map some ++ [none])
    (run blank)).1 = .error .io := by rfl

/-- behind the end of the gates nothing is read -/
example : ∃ gow w', Bytes.read 0 Map.empty ((textBytes (chars! "1 3\n2 1 1\n1 1\n\n2 1 0 1 2 AND\n\n")).map some ++ [some 255, none])
    (run blank) = (.ok gow, w') := ⟨_, _, by rfl⟩

/-- one-, two-, three- and four-byte characters; overlong forms, surrogates and too large values are rejected -/
example : decode [0x41, 0xC3, 0xA9, 0xE2, 0x82, 0xAC, 0xF0, 0x9F, 0x98, 0x80] = some ['A', 'é', '€', '😀'] ∧
    textBytes ['A', 'é', '€', '😀'] = [0x41, 0xC3, 0xA9, 0xE2, 0x82, 0xAC, 0xF0, 0x9F, 0x98, 0x80] ∧
    decode [0xC0, 0x80] = none ∧ decode [0xED, 0xA0, 0x80] = none ∧ decode [0xF4, 0x90, 0x80, 0x80] = none ∧
    decode [0xE2, 0x82] = none := by decide

end CC.Props
