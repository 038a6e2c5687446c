import Verif.Proofs.BrFile
import Verif.Proofs.BrParse
import Verif.Props.Evaluator

/-!
# C16–C18, C23: the Bristol reader

`Text f text`, `File.Valid`, `File.output` and `Malformed` are defined in `Spec/Bristol.lean`: what a text says, when a
file is well-formed, what it computes (lines executed in order), and what a defect is reported as.
-/

namespace CC.Props
open CC Spec Spec.Bristol CC.Bristol

/-! ### C16 -/

/-- C16: reading a text of a valid file into any circuit of any reachable heap succeeds. The circuit gains the declared
numbers of inputs and outputs. The `i`-th new output has the value of wire `numWire - numOut + i` after executing the
lines on the values of the new inputs; `pre` are the values of the inputs the circuit already had. -/
theorem C16_read {w : World} (h : Reachable w) {r : Ref} {c : Circuit} (hc : w.circs[r]? = some c) {f : File} {text : Str}
    (ht : Text f text) (hv : f.Valid) : ∃ gow w' c', read r Map.empty text w = (.ok gow, w') ∧
      w'.circs[r]? = some c' ∧ c'.inputLen = c.inputLen + f.numIn ∧ c'.outputLen = c.outputLen + f.numOut ∧
      (∀ i, i < c.outputLen → c'.outputMap i = c.outputMap i) ∧
      ∀ pre ins : List Bool, pre.length = c.inputLen → ins.length = f.numIn → ∀ i, i < f.numOut →
        ∃ o b, c'.outputMap (c.outputLen + i) = some o ∧ f.output ins i = some b ∧ Val w' r (pre ++ ins) o b := by
  obtain ⟨gow, w', c', h1, h2⟩ := read_ok (WFw.of_reachable h) hc ht hv
  exact ⟨gow, w', c', h1, h2.circ, h2.inputLen, h2.outputLen, h2.oldOut, h2.outs⟩

/-- no line reads an output wire -/
def OutputsUnread (f : File) : Prop := ∀ l ∈ f.gates, ∀ x ∈ l.args, x < f.numWire - f.numOut ∨ f.numWire ≤ x

theorem read_evaluable {w : World} (hw : WFw w) {r : Ref} {s : StoreRef} (hc : w.circs[r]? = some (Circuit.new s)) {f : File}
    {w' : World} {c' : Circuit} (hroom : f.numOut ≤ f.numWire)
    (hu : OutputsUnread f) (h : ReadFile f r w (Circuit.new s) w' c') : Evaluable w' r := by
  have htopo : Topo (Circuit.new s) := by intro g gate hg; cases hg
  have hno : ∀ g nIn nOut ids oi mid, c'.gateMap g ≠ some (.module nIn nOut ids oi mid) := by
    intro g nIn nOut ids oi mid hg
    cases h.calls _ _ _ _ _ _ hg
  refine .mk h.circ (h.topo htopo) ?_ ?_ ?_
  · intro i o ho
    refine .inl ?_
    have hi : i < f.numOut := by
      have h1 := ((h.wf.circ r c' h.circ).output_dom i).mp (by rw [ho]; rfl)
      have h2 := h.outputLen
      simp only [Circuit.new, Nat.zero_add] at h2
      omega
    refine h.unread htopo i o hi (by simpa [Circuit.new] using ho) ?_
    intro l hl hx
    rcases hu l hl _ hx with h1 | h1 <;> omega
  · intro g nIn nOut ids oi mid hg
    exact absurd hg (hno _ _ _ _ _ _)
  · rintro mr ⟨g, nIn, nOut, ids, oi, mid, hg, _⟩
    exact absurd hg (hno _ _ _ _ _ _)

/-- C16, through the evaluator: reading into a new circuit and evaluating it gives the file's outputs, provided no line
reads an output wire (otherwise the evaluator may have evicted the output, see `C16_evicted`). -/
theorem C16_eval {w : World} (h : Reachable w) {r : Ref} {s : StoreRef} (hc : w.circs[r]? = some (Circuit.new s)) {f : File}
    {text : Str} (ht : Text f text) (hv : f.Valid) (hu : OutputsUnread f) :
    ∃ gow w', read r Map.empty text w = (.ok gow, w') ∧ ∃ F, ∀ fuel ≥ F, ∀ ins : List Bool, ins.length = f.numIn →
      ∃ outs, evalOutput w' fuel r ins = .ok outs ∧ outs.length = f.numOut ∧
        ∀ i, i < f.numOut → outs[i]? = f.output ins i := by
  have hw := WFw.of_reachable h
  obtain ⟨gow, w', c', h1, h2⟩ := read_ok hw hc ht hv
  have hr : Reachable w' := (plays_read _ _).reachable h h1
  obtain ⟨F, hF⟩ := C11_local_partial hr h2.circ (read_evaluable hw hc hv.room hu h2)
  have hin := h2.inputLen
  have hon := h2.outputLen
  simp only [Circuit.new, Nat.zero_add] at hin hon
  refine ⟨gow, w', h1, F, fun fuel hf ins hl => ?_⟩
  obtain ⟨outs, h3, c'', h4, h5, h6, h7⟩ := hF fuel hf ins (by rw [hin]; exact hl)
  rw [h2.circ] at h4; cases h4
  refine ⟨outs, h3, by omega, fun i hi => ?_⟩
  obtain ⟨o, b, k1, k2, k3⟩ := h2.outs [] ins rfl hl i hi
  simp only [Circuit.new, Nat.zero_add, List.nil_append] at k1 k3
  have hio : i < outs.length := by omega
  obtain ⟨o', j1, j2⟩ := h7 i outs[i] (List.getElem?_eq_getElem hio)
  rw [k1] at j1; cases j1
  rw [k2, List.getElem?_eq_getElem hio, j2.det k3]

/-- a full adder, with tabs, `\r\n`, a plus sign, ignored tokens and text after the empty line -/
def faText : Str := chars! "8 11\r\n2 1 2\n 2\t1 1  ignored\nskipped\n2 1 0 1 3 XOR\n2 1 3 2 4 XOR\r\n2 1 0 +1 5 AND\n2 1 3 2 6 AND\n2 1 5 6 7 OR\n1 1 7 8 INV\n1 1 4 9 EQW\n1 1 8 10 INV\n\n junk"

def faFile : File := { numGate := 8, numWire := 11, ins := [1, 2], outs := [1, 1], gates :=
  [⟨.xor, [0, 1], 3⟩, ⟨.xor, [3, 2], 4⟩, ⟨.and, [0, 1], 5⟩, ⟨.and, [3, 2], 6⟩, ⟨.or, [5, 6], 7⟩, ⟨.inv, [7], 8⟩,
   ⟨.eqw, [4], 9⟩, ⟨.inv, [8], 10⟩] }

/-- `faText` is a text of `faFile`, which is valid, and no line reads an output wire -/
example : Text faFile faText ∧ faFile.Valid ∧ OutputsUnread faFile :=
  ⟨file?_some (by rfl), valid?_true (by rfl), by unfold OutputsUnread faFile; decide⟩

/-- what it computes: sum and carry -/
example : ∀ a b c : Bool, faFile.output [a, b, c] 0 = some ((a != b) != c) ∧
    faFile.output [a, b, c] 1 = some (a && b || (a != b) && c) := by decide

/-- two wires, `1 = ¬0` and `2 = ¬1`, both outputs: the second line reads output wire 1 -/
def evictText : Str := chars! "2 3\n1 1\n1 2\n\n1 1 0 2 INV\n1 1 2 1 INV\n"

/-- Without the condition of `C16_eval` the evaluator fails although the file is valid and was read correctly: output
wire 2 is read by the line of output wire 1, so its value is evicted before it is returned. -/
theorem C16_evicted : (∃ f, Text f evictText ∧ f.Valid) ∧
    ∃ gow w', read 0 Map.empty evictText (run [.newStorage, .newCircuit 0]) = (.ok gow, w') ∧
      ∀ b, ∀ fuel ≥ 100, ∃ e, evalOutput w' fuel 0 [b] = .error e ∧ e ≠ .outOfFuel := by
  refine ⟨⟨⟨2, 3, [1], [2], [⟨.inv, [0], 2⟩, ⟨.inv, [2], 1⟩]⟩, file?_some (by rfl), valid?_true (by rfl)⟩, ?_⟩
  refine ⟨_, _, rfl, ?_⟩
  have key : ∀ b, ∃ e, evalOutput (read 0 Map.empty evictText (run [.newStorage, .newCircuit 0])).2 100 0 [b] = .error e ∧
      e ≠ .outOfFuel := by
    intro b; cases b <;> exact ⟨_, rfl, by decide⟩
  intro b fuel hf
  obtain ⟨e, h1, h2⟩ := key b
  refine ⟨e, ?_, h2⟩
  exact (C13_stable _ (by intro h; exact h2 (Except.error.inj (h1.symm.trans h))) hf).trans h1

/-! ### C17 -/

/-- C17: a malformed text is rejected with the documented error, for any target circuit in any reachable heap. -/
theorem C17_rejects {w : World} (h : Reachable w) {r : Ref} {c : Circuit} (hc : w.circs[r]? = some c) {text : Str} {e : Err}
    (hm : Malformed text e) : ∃ w', read r Map.empty text w = (.error e, w') :=
  read_bad (WFw.of_reachable h) hc hm

/-- C17: so a text has at most one first defect, and a text of a valid file has none. -/
theorem C17_not_valid {text : Str} {e : Err} (hm : Malformed text e) {f : File} (ht : Text f text) : ¬ f.Valid := by
  intro hv
  have hr := run_reachable [.newStorage, .newCircuit 0]
  obtain ⟨gow, w', c', h1, _⟩ := C16_read hr (r := 0) rfl ht hv
  obtain ⟨w'', h2⟩ := C17_rejects hr (r := 0) rfl hm
  rw [h1] at h2; cases h2

theorem C17_unique {text : Str} {e e' : Err} (hm : Malformed text e) (hm' : Malformed text e') : e = e' := by
  have hr := run_reachable [.newStorage, .newCircuit 0]
  obtain ⟨w', h1⟩ := C17_rejects hr (r := 0) rfl hm
  obtain ⟨w'', h2⟩ := C17_rejects hr (r := 0) rfl hm'
  rw [h1] at h2; cases h2; rfl

section
private theorem lay {ts : List Str} {l : Str} (h : tokensOf l = ts) : Layout ts l := layout_iff.mpr h
private theorem lns {ls : List Str} {t : Str} (h : linesOf t = ls) : Lines ls t := lines_iff.mpr h
private theorem notNum {t : Str} (h : (num? t).isNone = true) : NotNumeral t := by
  intro n hn
  unfold num? at h
  rw [parseUsize_ok.mpr hn] at h; cases h

/-- no text at all, and texts of one, two and three lines -/
example : Malformed (chars! "") (.notFoundLine 1) ∧ Malformed (chars! "1 2") (.notFoundLine 2) ∧
    Malformed (chars! "1 2\n1 1\n") (.notFoundLine 3) ∧ Malformed (chars! "1 2\n1 1\n1 1\r\n") (.notFoundLine 4) :=
  ⟨.line1 (lns rfl), .line2 (lns rfl) (two?_some (a := 1) (b := 2) rfl),
   .line3 (lns rfl) (two?_some (a := 1) (b := 2) rfl) (counted?_some (ns := [1]) rfl),
   .line4 (lns rfl) (two?_some (a := 1) (b := 2) rfl) (counted?_some (ns := [1]) rfl) (counted?_some (ns := [1]) rfl)⟩

/-- missing tokens: in the first line, in the input widths -/
example : Malformed (chars! "7\n") .lineSplit ∧ Malformed (chars! "1 3\n2 1\n1 1\n\n") .lineSplit :=
  ⟨.head (lns rfl) (lay rfl) (.next (num?_some (n := 7) rfl) .missing),
   .ins (lns rfl) (two?_some (a := 1) (b := 3) rfl) (lay rfl)
    (.items (num?_some (n := 2) rfl) (.next (num?_some (n := 1) rfl) .missing))⟩

/-- no number, a negative number, a number of 65 bits -/
example : Malformed (chars! "x 3\n") .parseInt ∧ Malformed (chars! "1 -3\n") .parseInt ∧
    Malformed (chars! "1 18446744073709551616\n") .parseInt :=
  ⟨.head (lns rfl) (lay rfl) (.notNum (notNum rfl)),
   .head (lns rfl) (lay rfl) (.next (num?_some (n := 1) rfl) (.notNum (notNum rfl))),
   .head (lns rfl) (lay rfl) (.next (num?_some (n := 1) rfl) (.notNum (notNum rfl)))⟩

/-- in the second gate line: an operand that is defined only later, and an unknown operation -/
example : Malformed (chars! "3 4\n1 1\n1 1\n\n1 1 0 1 INV\n2 1 1 3 2 AND\n1 1 2 3 INV\n") (.unknownWire 3) ∧
    Malformed (chars! "3 4\n1 1\n1 1\n\n1 1 0 1 INV\n2 1 1 0 2 NAND\n") (.notSupportedGate (chars! "NAND")) := by
  constructor
  · refine .gate (ls := [chars! "1 1 0 1 INV"]) (lns rfl) (two?_some (a := 3) (b := 4) rfl) (counted?_some (ns := [1]) rfl)
      (counted?_some (ns := [1]) rfl) (show All2 _ [_] [⟨.inv, [0], 1⟩] from ⟨gate?_some rfl, trivial⟩)
      ⟨rfl, by simp, trivial⟩ (by decide) (lay rfl) ?_
    refine .operands (num?_some (n := 2) rfl) (num?_some (n := 1) rfl) ?_
    refine .next (num?_some (n := 1) rfl) (.inr ⟨_, List.mem_singleton.mpr rfl, rfl⟩) (.unknown (num?_some (n := 3) rfl) ?_)
    simp [Defined]
  · refine .gate (ls := [chars! "1 1 0 1 INV"]) (lns rfl) (two?_some (a := 3) (b := 4) rfl) (counted?_some (ns := [1]) rfl)
      (counted?_some (ns := [1]) rfl) (show All2 _ [_] [⟨.inv, [0], 1⟩] from ⟨gate?_some rfl, trivial⟩)
      ⟨rfl, by simp, trivial⟩ (by decide) (lay rfl) ?_
    refine .name (as := [chars! "1", chars! "0"]) (ns := [1, 0]) (bs := [chars! "2"]) (ms := [2]) (num?_some rfl)
      (num?_some rfl) ⟨num?_some rfl, num?_some rfl, trivial⟩ ?_ ⟨num?_some rfl, trivial⟩ ?_
    · intro x hx; simp at hx; rcases hx with rfl | rfl <;> simp [Defined]
    · intro op; cases op <;> decide

end

/-! ### C18 -/

/-- C18: whatever the text and the reader's state, and whether reading succeeds or not: every gate, input and output of
the target circuit is kept, all other circuits and all storages are unchanged, and no circuit is created. -/
theorem C18_extends {w : World} (h : Reachable w) {r : Ref} {c : Circuit} (hc : w.circs[r]? = some c) (gow : GOW) (text : Str)
    {res : Except Err GOW} {w' : World} (he : read r gow text w = (res, w')) :
    (∃ c', w'.circs[r]? = some c' ∧ c'.storage = c.storage ∧ (∀ g gate, c.gateMap g = some gate → c'.gateMap g = some gate) ∧
      (∀ k g, c.inputMap k = some g → c'.inputMap k = some g) ∧ (∀ k g, c.outputMap k = some g → c'.outputMap k = some g) ∧
      c.inputLen ≤ c'.inputLen ∧ c.outputLen ≤ c'.outputLen ∧ c.gateIndex ≤ c'.gateIndex ∧ c.constGates <+: c'.constGates) ∧
    w'.stores = w.stores ∧ w'.circs.length = w.circs.length ∧ ∀ q, q ≠ r → w'.circs[q]? = w.circs[q]? := by
  have h1 := plays_read (r := r) gow text w
  have h2 := local_read (r := r) gow text w
  rw [he] at h1 h2
  obtain ⟨c', h3, h4⟩ := (ext_of_later (WFw.of_reachable h) h1).2.circs r c hc
  exact ⟨⟨c', h3, h4.storage, h4.gates, h4.inputs, h4.outputs, h4.inputLen, h4.outputLen, h4.gateIndex, h4.constGates⟩, h2⟩

theorem val_more {w : World} {r : Ref} {ins : List Bool} {g : GateId} {b : Bool} (h : Val w r ins g b) (more : List Bool) :
    Val w r (ins ++ more) g b := by
  induction h with
  | @input r c ins g k b hc hg hb =>
    refine .input hc hg ?_
    rw [List.getElem?_append_left (List.getElem?_eq_some_iff.mp hb).1]; exact hb
  | const hc hg => exact .const hc hg
  | not hc hg _ ih => exact .not hc hg ih
  | and hc hg _ _ ih1 ih2 => exact .and hc hg ih1 ih2
  | xor hc hg _ _ ih1 ih2 => exact .xor hc hg ih1 ih2
  | or hc hg _ _ ih1 ih2 => exact .or hc hg ih1 ih2
  | module hc hg hm hmc hl _ hin ho hv ih1 _ => exact .module hc hg hm hmc hl ih1 hin ho hv

/-- C18: the gates that were there keep their values, whatever is put on the inputs that were added (for a target that is
not itself a called module). -/
theorem C18_values {w : World} (h : Reachable w) {r : Ref} {c : Circuit} (hc : w.circs[r]? = some c) (hn : ¬ Called w r)
    (gow : GOW) (text : Str) {res : Except Err GOW} {w' : World} (he : read r gow text w = (res, w')) {ins more : List Bool}
    {g : GateId} {b : Bool} (hv : Val w r ins g b) : Val w' r (ins ++ more) g b := by
  have h1 := plays_read (r := r) gow text w
  have h2 := local_read (r := r) gow text w
  rw [he] at h1 h2
  refine val_more (hv.ext (ext_of_later (WFw.of_reachable h) h1).2 ?_) more
  intro mr mc mc' hcalled k1 k2
  have : mr ≠ r := by rintro rfl; exact hn hcalled
  rw [h2.2.2 mr this, k1] at k2
  cases k2; rfl

/-- reading into a circuit with gates, a module call and outputs fails in the second gate line after three inputs and one
gate were added; everything that was there is kept -/
example : (∃ w', read 0 Map.empty (chars! "8 11\n2 1 2\n2 1 1\n\n2 1 0 1 3 XOR\n2 1 3 9 4 XOR\n") (run nested) =
      (.error (.unknownWire 9), w')) ∧ ¬ Called (run nested) 0 ∧
    ∃ c c', (run nested).circs[0]? = some c ∧
      (read 0 Map.empty (chars! "8 11\n2 1 2\n2 1 1\n\n2 1 0 1 3 XOR\n2 1 3 9 4 XOR\n") (run nested)).2.circs[0]? = some c' ∧
      c.inputLen = 2 ∧ c'.inputLen = 5 ∧ c'.gateIndex = c.gateIndex + 4 ∧ c'.outputLen = c.outputLen := by
  refine ⟨⟨_, rfl⟩, ?_, _, _, rfl, rfl, rfl, rfl, rfl, rfl⟩
  exact not_called_of_check (WFw.of_reachable (run_reachable _)) (by decide)

/-! ### C23 -/

/-- C23: a number printed by the writer is parsed back to itself. -/
theorem C23_roundtrip {n : Nat} (h : n < 2 ^ 64) : parseUsize (dec n) = .ok n := parseUsize_ok.mpr (dec_numeral h)

/-- C23: the parser accepts exactly an optional plus sign followed by decimal digits denoting a number below `2^64`,
and gives that number. -/
theorem C23_accepts (t : Str) (n : Nat) : parseUsize t = .ok n ↔ Numeral t n := parseUsize_ok

/-- C23: everything else is rejected with `ParseIntError`. -/
theorem C23_rejects (t : Str) : parseUsize t = .error .parseInt ↔ ∀ n, ¬ Numeral t n := by
  rw [parseUsize_error]; simp [NotNumeral]

/-- C23: printed numbers are single tokens, so a printed line is split into what was printed. -/
theorem C23_token (n : Nat) : dec n ≠ [] ∧ ∀ c ∈ dec n, isWhite c = false :=
  ⟨(dec_spec n).1, dec_not_white n⟩

example : parseUsize (chars! "18446744073709551615") = .ok (2 ^ 64 - 1) ∧ parseUsize (chars! "+007") = .ok 7 ∧
    parseUsize (chars! "18446744073709551616") = .error .parseInt ∧ parseUsize (chars! "") = .error .parseInt ∧
    parseUsize (chars! "+") = .error .parseInt ∧ parseUsize (chars! "-1") = .error .parseInt ∧
    parseUsize (chars! "1_0") = .error .parseInt ∧ parseUsize (chars! "٣") = .error .parseInt ∧
    dec 1234567890 = chars! "1234567890" := ⟨rfl, rfl, rfl, rfl, rfl, rfl, rfl, rfl, by decide +kernel⟩

end CC.Props
