import Verif.Proofs.BrSums
import Verif.Props.Bristol

/-!
# C63: what the reader does with any text

`Accepts`, `Rejects`, `Panics` and `Oversized` are defined in `Spec/Verdict.lean`. Surplus operands and output wires of a
gate line are ignored; missing ones make the reader panic, and so do too many outputs and outputs without a value.
-/

namespace CC.Props
open CC Spec Spec.Bristol CC.Bristol

/-! ### the three verdicts -/

/-- C63: an accepted text is read into any circuit of any reachable heap, with the meaning of C16. -/
theorem C63_accepts {w : World} (h : Reachable w) {r : Ref} {c : Circuit} (hc : w.circs[r]? = some c) {f : File} {text : Str}
    (ha : Accepts f text) : ∃ gow w' c', read r Map.empty text w = (.ok gow, w') ∧
      w'.circs[r]? = some c' ∧ c'.inputLen = c.inputLen + f.numIn ∧ c'.outputLen = c.outputLen + f.numOut ∧
      (∀ i, i < c.outputLen → c'.outputMap i = c.outputMap i) ∧
      ∀ pre ins : List Bool, pre.length = c.inputLen → ins.length = f.numIn → ∀ i, i < f.numOut →
        ∃ o b, c'.outputMap (c.outputLen + i) = some o ∧ f.output ins i = some b ∧ Val w' r (pre ++ ins) o b := by
  obtain ⟨gow, w', c', h1, h2⟩ := read_accepts (WFw.of_reachable h) hc ha
  exact ⟨gow, w', c', h1, h2.circ, h2.inputLen, h2.outputLen, h2.oldOut, h2.outs⟩

/-- C63: a rejected text gives the error that reports its first defect. -/
theorem C63_rejects {w : World} (h : Reachable w) {r : Ref} {c : Circuit} (hc : w.circs[r]? = some c) {text : Str} {e : Err}
    (hr : Rejects text e) : ∃ w', read r Map.empty text w = (.error e, w') :=
  read_rejects (WFw.of_reachable h) hc hr

/-- C63: the panics. -/
theorem C63_panics {w : World} (h : Reachable w) {r : Ref} {c : Circuit} (hc : w.circs[r]? = some c) {text : Str} {p : Panic}
    (hp : Panics text p) : ∃ w', read r Map.empty text w = (.error (.panic p), w') :=
  read_panics (WFw.of_reachable h) hc hp

/-- C63: every text is of one of the three kinds. -/
theorem C63_total (text : Str) : (∃ f, Accepts f text) ∨ (∃ e, Rejects text e) ∨ ∃ p, Panics text p := verdict_cases text

/-- C63: so the result of reading is determined by the text alone: it does not depend on the heap or the circuit. -/
theorem C63_result {w : World} (h : Reachable w) {r : Ref} {c : Circuit} (hc : w.circs[r]? = some c) (text : Str) :
    ((∃ gow w', read r Map.empty text w = (.ok gow, w')) ↔ ∃ f, Accepts f text) ∧
    (∀ e, (∀ p, e ≠ .panic p) → ((∃ w', read r Map.empty text w = (.error e, w')) ↔ Rejects text e)) ∧
    ∀ p, (∃ w', read r Map.empty text w = (.error (.panic p), w')) ↔ Panics text p := by
  refine ⟨⟨?_, ?_⟩, fun e he => ⟨?_, C63_rejects h hc⟩, fun p => ⟨?_, C63_panics h hc⟩⟩
  · rintro ⟨gow, w', h1⟩
    rcases C63_total text with ha | ⟨e, hr⟩ | ⟨p, hp⟩
    · exact ha
    · obtain ⟨w'', h2⟩ := C63_rejects h hc hr
      rw [h1] at h2; cases h2
    · obtain ⟨w'', h2⟩ := C63_panics h hc hp
      rw [h1] at h2; cases h2
  · rintro ⟨f, ha⟩
    obtain ⟨gow, w', c', h1, _⟩ := C63_accepts h hc ha
    exact ⟨gow, w', h1⟩
  · rintro ⟨w', h1⟩
    rcases C63_total text with ⟨f, ha⟩ | ⟨e, hr⟩ | ⟨p, hp⟩
    · obtain ⟨gow, w'', c', h2, _⟩ := C63_accepts h hc ha
      rw [h1] at h2; cases h2
    · obtain ⟨w'', h2⟩ := C63_rejects h hc hr
      rw [h1] at h2; cases h2; exact hr
    · obtain ⟨w'', h2⟩ := C63_panics h hc hp
      rw [h1] at h2; cases h2; exact absurd rfl (he p)
  · rintro ⟨w', h1⟩
    rcases C63_total text with ⟨f, ha⟩ | ⟨e, hr⟩ | ⟨p, hp⟩
    · obtain ⟨gow, w'', c', h2, _⟩ := C63_accepts h hc ha
      rw [h1] at h2; cases h2
    · obtain ⟨w'', h2⟩ := C63_rejects h hc hr
      rw [h1] at h2; cases h2; exact absurd rfl (rejects_not_panic hr p)
    · obtain ⟨w'', h2⟩ := C63_panics h hc hp
      rw [h1] at h2; cases h2; exact hp

/-- C63: a text is accepted as one file only, and that file is valid. Texts of valid files are accepted as these, and
malformed texts are rejected with the same error, so C16 and C17 are special cases. -/
theorem C63_extends {text : Str} : (∀ {f f' : File}, Accepts f text → Accepts f' text → f = f') ∧
    (∀ {f : File}, Accepts f text → f.Valid) ∧ (∀ {f : File}, Text f text → f.Valid → Accepts f text) ∧
    ∀ {e : Err}, Malformed text e → Rejects text e :=
  ⟨fun h k => parses_det h.parses k.parses, fun h => h.valid, accepts_of_valid, rejects_of_malformed⟩

section
private theorem lay {ts : List Str} {l : Str} (h : tokensOf l = ts) : Layout ts l := layout_iff.mpr h
private theorem lns {ls : List Str} {t : Str} (h : linesOf t = ls) : Lines ls t := lines_iff.mpr h

/-- one gate line with three operands and two output wires -/
def lenientText : Str := chars! "1 4\n1 2\n1 1\n\n3 2 0 1 0 3 2 XOR more\n"

def lenientFile : File := { numGate := 1, numWire := 4, ins := [2], outs := [1], gates := [⟨.xor, [0, 1], 3⟩] }

private theorem lenientRow : RowText (chars! "3 2 0 1 0 3 2 XOR more") ⟨.xor, [0, 1, 0], [3, 2]⟩ :=
  ⟨_, lay rfl, chars! "3", chars! "2", [chars! "0", chars! "1", chars! "0"], [chars! "3", chars! "2"], [chars! "more"], rfl,
    num?_some rfl, num?_some rfl, ⟨num?_some rfl, num?_some rfl, num?_some rfl, trivial⟩, ⟨num?_some rfl, num?_some rfl, trivial⟩⟩

private theorem lenientHeader : Header lenientText 1 4 [2] [1] ([chars! "3 2 0 1 0 3 2 XOR more"] ++ []) :=
  ⟨_, _, _, _, lns rfl, two?_some rfl, counted?_some rfl, counted?_some rfl⟩

/-- the surplus operand and the surplus output wire are ignored -/
theorem lenient_accepts : Accepts lenientFile lenientText := by
  refine ⟨⟨_, [], [⟨.xor, [0, 1, 0], [3, 2]⟩], lenientHeader, ⟨lenientRow, trivial⟩, ⟨⟨by decide, by decide⟩, ?_, trivial⟩,
    rfl, by simp⟩, by decide, ?_⟩
  · intro x hx
    simp at hx
    rcases hx with rfl | rfl | rfl <;> decide
  · intro x h1 h2
    have : x = 3 := by simp [lenientFile, File.numOut] at h1 h2; omega
    exact .inr ⟨_, List.mem_singleton.mpr rfl, this.symm⟩

/-- it is not a text of a file in the sense of C16 -/
example : ∀ f, ¬ Text f lenientText := by
  rintro f ⟨l1, l2, l3, l4, ls, tail, hls, _, _, _, hgs, ht⟩
  have := (lines_iff.mp hls).symm.trans (show linesOf lenientText = [_, _, _, _, _] from rfl)
  simp only [List.cons.injEq] at this
  obtain ⟨_, _, _, _, h⟩ := this
  cases ls with
  | nil =>
    rw [List.nil_append] at h; subst h
    exact absurd (ht _ rfl) (by decide)
  | cons l ls =>
    rw [List.cons_append] at h
    obtain ⟨rfl, _⟩ := List.cons.inj h
    match f.gates, hgs with
    | g :: gs, hgs =>
      have := rowText_det (gate_row hgs.1) lenientRow
      simp at this

/-- a text that is rejected because of its second line, although the first has surplus operands: wire 2 is no output
of the first line -/
example : Rejects (chars! "1 4\n1 2\n1 1\n\n3 2 0 1 0 3 2 XOR more\n1 1 2 3 INV") (.unknownWire 2) := by
  refine .gate (ls := [_]) (rest := []) (a := 1) (b := 4) (is := [2]) (os := [1]) ⟨_, _, _, _, lns rfl, two?_some rfl,
    counted?_some rfl, counted?_some rfl⟩ (rows := [⟨.xor, [0, 1, 0], [3, 2]⟩]) ⟨lenientRow, trivial⟩
    ⟨⟨by decide, by decide⟩, ?_, trivial⟩ (by decide) (lay rfl) ?_
  · intro x hx
    simp at hx
    rcases hx with rfl | rfl | rfl <;> decide
  · refine .operands (num?_some (n := 1) rfl) (num?_some (n := 1) rfl) (.unknown (num?_some rfl) ?_)
    simp [Defined, Row.line]

/-- the panics: too few operands, no output wire, an output without value, more outputs than wires -/
theorem panics_occur : Panics (chars! "1 3\n1 2\n1 1\n\n1 1 0 2 XOR\n") .indexOutOfBounds ∧
    Panics (chars! "1 3\n1 2\n1 1\n\n2 0 0 1 XOR\n") .indexOutOfBounds ∧
    Panics (chars! "1 3\n1 2\n1 1\n\n") .missingKey ∧ Panics (chars! "0 1\n1 1\n1 2\n\n") .underflow := by
  refine ⟨?_, ?_, ?_, ?_⟩
  · refine .row (ls := []) (l := chars! "1 1 0 2 XOR") (rest := []) (a := 1) (b := 3) (is := [2]) (os := [1])
      ⟨_, _, _, _, lns rfl, two?_some rfl, counted?_some rfl, counted?_some rfl⟩ (rows := []) trivial trivial
      (row := ⟨.xor, [0], [2]⟩) ⟨_, lay rfl, chars! "1", chars! "1", [chars! "0"], [chars! "2"], [], rfl, num?_some rfl,
        num?_some rfl, ⟨num?_some rfl, trivial⟩, num?_some rfl, trivial⟩ ?_ (by simp [Row.Enough, GOp.arity])
    intro x hx; simp at hx; subst hx; exact .inl (by decide)
  · refine .row (ls := []) (l := chars! "2 0 0 1 XOR") (rest := []) (a := 1) (b := 3) (is := [2]) (os := [1])
      ⟨_, _, _, _, lns rfl, two?_some rfl, counted?_some rfl, counted?_some rfl⟩ (rows := []) trivial trivial
      (row := ⟨.xor, [0, 1], []⟩) ⟨_, lay rfl, chars! "2", chars! "0", [chars! "0", chars! "1"], [], [], rfl, num?_some rfl,
        num?_some rfl, ⟨num?_some rfl, num?_some rfl, trivial⟩, trivial⟩ ?_ (by simp [Row.Enough])
    intro x hx; simp at hx; rcases hx with rfl | rfl <;> exact .inl (by decide)
  · exact .output (f := ⟨1, 3, [2], [1], []⟩) (x := 2) ⟨[], [], [], ⟨_, _, _, _, lns rfl, two?_some rfl, counted?_some rfl,
      counted?_some rfl⟩, trivial, trivial, rfl, by simp⟩ (by decide) (by decide) (by decide) (by simp [Defined, File.numIn])
  · exact .room (f := ⟨0, 1, [1], [2], []⟩) ⟨[], [], [], ⟨_, _, _, _, lns rfl, two?_some rfl, counted?_some rfl,
      counted?_some rfl⟩, trivial, trivial, rfl, by simp⟩ (by decide)

/-- C63_accepts, C63_panics and C63_result, for a circuit that is not empty -/
example : (∃ gow w' c', read 0 Map.empty lenientText (run nested) = (.ok gow, w') ∧ w'.circs[0]? = some c' ∧ c'.inputLen = 4 ∧
      c'.outputLen = 4) ∧
    (∃ w', read 0 Map.empty (chars! "1 3\n1 2\n1 1\n\n") (run nested) = (.error (.panic .missingKey), w')) ∧
    ∃ f, Accepts f lenientText := by
  obtain ⟨gow, w', c', h1, h2, h3, h4, _⟩ := C63_accepts nested_valid.reachable (r := 0) (c := (run nested).circs[0]) rfl lenient_accepts
  exact ⟨⟨gow, w', c', h1, h2, h3, h4⟩, C63_panics nested_valid.reachable (r := 0) rfl panics_occur.2.2.1,
    (C63_result nested_valid.reachable (r := 0) rfl lenientText).1.mp ⟨gow, w', h1⟩⟩

/-- what the reader makes of them -/
example : (read 0 Map.empty lenientText (run [.newStorage, .newCircuit 0])).1.isOk = true ∧
    (read 0 Map.empty (chars! "1 3\n1 2\n1 1\n\n1 1 0 2 XOR\n") (run [.newStorage, .newCircuit 0])).1.isOk = false := by
  decide

/-! ### sums beyond 64 bits -/

/-- C63: in debug and test builds the additions of the header are checked. If no sum of widths reaches `2^64` the reader
is as above; otherwise it panics. -/
theorem C63_debug {text : Str} (r : Ref) (gow : GOW) : (¬ Oversized text → readA .debug r gow text = read r gow text) ∧
    ∀ {w : World} {c : Circuit}, Oversized text → Reachable w → w.circs[r]? = some c →
      ∃ w', readA .debug r gow text w = (.error (.panic .overflow), w') :=
  ⟨fun h => readA_debug h gow, fun h hw hc => readA_over (WFw.of_reachable hw) hc h gow⟩

/-- C63: in release builds the arithmetic of the header wraps. If no sum of widths reaches `2^64` the reader is as above,
except that a text with more outputs than wires is read without any complaint. -/
theorem C63_release {text : Str} (h : ¬ Oversized text) (r : Ref) (gow : GOW) (w : World) :
    readA .release r gow text w = read r gow text w ∨
    ∃ w' gow', read r gow text w = (.error (.panic .underflow), w') ∧ readA .release r gow text w = (.ok gow', w') :=
  readA_release h gow w

/-- C63: such a text adds the inputs and the gates but not a single output, although it declares more outputs than it has
wires. -/
theorem C63_silent {w : World} (h : Reachable w) {r : Ref} {c : Circuit} (hc : w.circs[r]? = some c) {f : File} {text : Str}
    (hp : Parses f text) (hlt : f.numWire < f.numOut) (hs : ¬ Oversized text) :
    ∃ gow w' c', readA .release r Map.empty text w = (.ok gow, w') ∧ w'.circs[r]? = some c' ∧
      c'.inputLen = c.inputLen + f.numIn ∧ c'.outputLen = c.outputLen :=
  readA_silent (WFw.of_reachable h) hc hp hlt hs

/-- C63: if the sum of the output widths reaches `2^64`, a release build reads the text as if the sum were reduced modulo
`2^64`. -/
theorem C63_wraps {text text' : Str} {a a' b : Nat} {is os os' : List Nat} {ls : List Str} (h : Header text a b is os ls)
    (h' : Header text' a' b is os' ls) (hi : is.sum < 2 ^ 64) (hs : os.sum % 2 ^ 64 = os'.sum % 2 ^ 64) (r : Ref) (gow : GOW) :
    readA .release r gow text = readA .release r gow text' := readA_wraps h h' hi hs gow

/-- two outputs on one wire: not oversized -/
theorem silent_parses : Parses ⟨0, 1, [1], [2], []⟩ (chars! "0 1\n1 1\n1 2\n\n") ∧ ¬ Oversized (chars! "0 1\n1 1\n1 2\n\n") := by
  refine ⟨⟨[], [], [], ⟨_, _, _, _, lns rfl, two?_some rfl, counted?_some rfl, counted?_some rfl⟩, trivial, trivial, rfl, by simp⟩, ?_⟩
  have hls := show linesOf (chars! "0 1\n1 1\n1 2\n\n") = [chars! "0 1", chars! "1 1", chars! "1 2", []] from rfl
  have line : ∀ {l : Str} {n : Nat}, tokensOf l = [chars! "1", dec n] → n < 2 ^ 64 → ¬ ExceedsLine l := by
    rintro l n hl hn ⟨s, k, ts, h1, h2, h3⟩
    rw [layout_iff, hl] at h1
    cases h1
    rw [h2.det (num?_some (n := 1) rfl)] at h3
    cases h3 with
    | now ht hge => rw [ht.det (dec_numeral hn)] at hge; omega
    | later _ _ h => cases h
  rintro (⟨h1, _, h⟩ | ⟨h1, _, _, _, h⟩)
  · rw [lines_iff, hls] at h1; cases h1
    exact line (n := 1) rfl (by decide) h
  · rw [lines_iff, hls] at h1; cases h1
    exact line (n := 2) rfl (by decide) h

/-- C63_silent and C63_release -/
example : (∃ gow w' c', readA .release 0 Map.empty (chars! "0 1\n1 1\n1 2\n\n") (run nested) = (.ok gow, w') ∧ w'.circs[0]? = some c' ∧
      c'.inputLen = 3 ∧ c'.outputLen = 3) ∧
    ∃ w' gow', read 0 Map.empty (chars! "0 1\n1 1\n1 2\n\n") (run nested) = (.error (.panic .underflow), w') ∧
      readA .release 0 Map.empty (chars! "0 1\n1 1\n1 2\n\n") (run nested) = (.ok gow', w') := by
  obtain ⟨gow, w', c', h1, h2, h3, h4⟩ := C63_silent nested_valid.reachable (r := 0) (c := (run nested).circs[0]) rfl silent_parses.1
    (by decide) silent_parses.2
  refine ⟨⟨gow, w', c', h1, h2, h3, h4⟩, ?_⟩
  rcases C63_release silent_parses.2 0 Map.empty (run nested) with h | h
  · obtain ⟨w2, h5⟩ := C63_panics nested_valid.reachable (r := 0) (c := (run nested).circs[0]) rfl panics_occur.2.2.2
    rw [h5, h1] at h
    cases h
  · exact h

/-- widths `2^64 - 1` and `2` -/
def wrapText : Str := chars! "0 3\n1 3\n2 18446744073709551615 2\n\n"

/-- a text with one output -/
def oneText : Str := chars! "0 3\n1 3\n1 1\n\n"

/-- `wrapText` declares `2^64 + 1` outputs: a debug build panics, a release build reads it like `oneText`, as a text with one
output, the last wire. -/
theorem C63_wraps_occurs : Oversized wrapText ∧
    readA .release 0 Map.empty wrapText = readA .release 0 Map.empty oneText ∧
    ∃ gow w' c', readA .release 0 Map.empty oneText (run [.newStorage, .newCircuit 0]) = (.ok gow, w') ∧
      w'.circs[0]? = some c' ∧ c'.outputLen = 1 := by
  refine ⟨.outs (lns rfl) (two?_some (a := 0) (b := 3) rfl) (counted?_some (ns := [3]) rfl) (by decide) ⟨_, 2, _, lay rfl,
    num?_some rfl, .later (num?_some (n := 18446744073709551615) rfl) (by decide) (.now (num?_some (n := 2) rfl) (by decide))⟩, ?_, ?_⟩
  · exact C63_wraps (a := 0) (a' := 0) (b := 3) (is := [3]) (os := [18446744073709551615, 2]) (os' := [1]) (ls := [])
      ⟨_, _, _, _, lns rfl, two?_some rfl, counted?_some rfl, counted?_some rfl⟩
      ⟨_, _, _, _, lns rfl, two?_some rfl, counted?_some rfl, counted?_some rfl⟩ (by decide) (by decide) 0 Map.empty
  · have hk : (match readA .release 0 Map.empty oneText (run [.newStorage, .newCircuit 0]) with
        | (.ok _, w') => w'.circs[0]?.map (·.outputLen)
        | _ => none) = some 1 := by decide +kernel
    rcases hx : readA .release 0 Map.empty oneText (run [.newStorage, .newCircuit 0]) with ⟨e | gow, w'⟩
    · rw [hx] at hk; cases hk
    · rw [hx] at hk
      obtain ⟨c', h1, h2⟩ := Option.map_eq_some_iff.mp hk
      exact ⟨gow, w', c', rfl, h1, h2⟩

end

end CC.Props
