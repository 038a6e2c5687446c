import Verif.Proofs.BrLast
import Verif.Proofs.Check
import Verif.Props.Bristol
import Verif.Props.Evaluator

/-!
# C19–C22: the Bristol writer

`write w fuel r numFirst WSt.new Map.empty` is a fresh writer on circuit `r`; `fuel` bounds the recursion depth. The
result `res` has the returned constants `res.consts`, the text `res.st.out` and the map `res.wog` from gates to wires.
`(fileOf c numFirst ls).text` is the printed file with gate lines `ls`.
-/

namespace CC.Props
open CC Spec CC.Bristol Spec.Bristol

/-- the writer succeeds on circuit `r` with result `res` and gate lines `ls`, for every sufficient depth -/
def Wrote (w : World) (r : Ref) (c : Circuit) (numFirst : Nat) (res : Written) (ls : List GLine) : Prop :=
  (∃ F, ∀ fuel ≥ F, write w fuel r numFirst WSt.new Map.empty = .ok res) ∧ res.st.out = (fileOf c numFirst ls).text

/-- the constants fit in the wires reserved for them -/
def Fits (w : World) (r : Ref) (c : Circuit) : Prop := ∀ n bs, Inlined w r n bs → bs.length ≤ c.numConst

theorem fits_of_valid {w : World} (h : ValidRun w) {r : Ref} {c : Circuit} (hc : w.circs[r]? = some c) : Fits w r c :=
  fun _ _ hi => (hi.bounds h c hc).2

/-- the run of the writer, with everything known about it -/
theorem wrote_file {w : World} (hw : WFw w) {r : Ref} (hb : Built w r) {c : Circuit} (hc : w.circs[r]? = some c)
    {numFirst : Nat} (hn : numFirst ≤ c.inputLen + c.numConst) : ∃ res ls, Wrote w r c numFirst res ls ∧
      WroteFile w r c numFirst res ls ∧ (LastOutputs w r → res.consts.length ≤ c.numConst → c.outputLen ≤ ls.length ∧
        (∀ i o, c.outputMap i = some o → res.wog o = some (c.inputLen + c.numConst + ls.length - c.outputLen + i)) ∧
        ∀ l ∈ ls, ∀ x ∈ l.args, x < c.inputLen + c.numConst + ls.length - c.outputLen) := by
  obtain ⟨F, hF⟩ := write_ok hw hb hc
  obtain ⟨res, ls, h1, h2⟩ := hF F (Nat.le_refl _) numFirst hn
  have hst : ∀ fuel, F ≤ fuel → write w fuel r numFirst WSt.new Map.empty = .ok res := fun fuel hf => by
    rw [write_stable (by rw [h1]; simp) hf, h1]
  refine ⟨res, ls, ⟨⟨F, hst⟩, h2.text⟩, h2, fun ht hfit => ?_⟩
  obtain ⟨F', hF'⟩ := write_last hw hb hc ht
  exact hF' (F + F') (by omega) numFirst res ls (hst _ (by omega)) h2 hfit

/-- the result and the lines are determined -/
theorem Wrote.det {w : World} {r : Ref} {c : Circuit} {numFirst : Nat} {res res' : Written} {ls ls' : List GLine}
    (h : Wrote w r c numFirst res ls) (h' : Wrote w r c numFirst res' ls') : res = res' ∧ ls = ls' := by
  obtain ⟨⟨F, h1⟩, h2⟩ := h
  obtain ⟨⟨F', h1'⟩, h2'⟩ := h'
  have e : res = res' := by
    have a := h1 (F + F') (by omega)
    rw [h1' (F + F') (by omega)] at a
    exact (Except.ok.inj a).symm
  subst e
  refine ⟨rfl, ?_⟩
  rw [h2, ← header_text, ← header_text] at h2'
  exact gatesText_inj (List.append_cancel_left h2')

/-- a single run of the writer suffices; the wires of the first `n` gates are reported -/
theorem wrote_of_run {w : World} {fuel : Nat} {r : Ref} {c : Circuit} {numFirst n : Nat} {ls : List GLine} {cs : List Bool}
    {xs : List (Option Nat)} (h : (write w fuel r numFirst WSt.new Map.empty).map
      (fun res => (res.st.out, res.consts, (List.range n).map res.wog)) = .ok ((fileOf c numFirst ls).text, cs, xs)) :
    ∃ res, Wrote w r c numFirst res ls ∧ res.consts = cs ∧ (List.range n).map res.wog = xs := by
  cases e : write w fuel r numFirst WSt.new Map.empty with
  | error _ => rw [e] at h; cases h
  | ok res =>
    rw [e] at h
    simp only [Except.map, Except.ok.injEq, Prod.mk.injEq] at h
    refine ⟨res, ⟨⟨fuel, fun fuel' hf => ?_⟩, h.1⟩, h.2⟩
    rw [write_stable (by rw [e]; simp) hf, e]

theorem reach_lt {c : Circuit} (hwf : WFc c) (ht : Topo c) {o g : GateId} (h : Reach c o g) (ho : o < c.gateIndex) :
    g < c.gateIndex := by
  induction h with
  | refl => exact ho
  | operand _ hy hx ih =>
    have := ht _ _ hy _ hx
    unfold lead at this
    split at this <;> omega
  | sibling _ hy hk _ => exact hwf.lt_of_some ((hwf.group _ _ _ _ _ _ hy).2.2 _ hk)

/-! ### C19 -/

/-- C19: executing the written lines in order on the inputs followed by the returned constants gives every gate that has
a wire its truth-table value; exactly the inputs, the constants and the gates needed for outputs have wires, so every
output has one. Module calls at any depth are included: `Val` is the truth-table value. -/
theorem C19_computes {w : World} (h : ValidRun w) {r : Ref} {c : Circuit} (hc : w.circs[r]? = some c) {numFirst : Nat}
    (hn : numFirst ≤ c.inputLen + c.numConst) : ∃ res ls, Wrote w r c numFirst res ls ∧
      (∀ g, res.wog g ≠ none ↔
        (∃ k, c.gateMap g = some (.input k)) ∨ (∃ v, c.gateMap g = some (.const v)) ∨ Needed c g) ∧
      (∀ i o, c.outputMap i = some o → res.wog o ≠ none) ∧
      ∀ ins : List Bool, ins.length = c.inputLen → ∀ g x, res.wog g = some x →
        ∃ b, Val w r ins g b ∧ exec ls (inputWires (ins ++ res.consts)) x = some b := by
  have hb := h.allBuilt r c hc
  obtain ⟨res, ls, h1, h2, _⟩ := wrote_file h.wf hb hc hn
  refine ⟨res, ls, h1, h2.dom, fun i o ho => (h2.dom o).mpr (.inr (.inr ⟨i, o, ho, .refl⟩)), ?_⟩
  intro ins hl g x hg
  have hlt : g < c.gateIndex := by
    rcases (h2.dom g).mp (by rw [hg]; simp) with ⟨k, hk⟩ | ⟨v, hv⟩ | ⟨i, o, ho, hr⟩
    · exact (h.wf.circ r c hc).lt_of_some hk
    · exact (h.wf.circ r c hc).lt_of_some hv
    · exact reach_lt (h.wf.circ r c hc) (hb.topo hc) hr ((h.wf.circ r c hc).output_gate i o ho)
  obtain ⟨b, hv⟩ := hb.total h.wf hc hl g hlt
  exact ⟨b, hv, h2.vals (fits_of_valid h hc _ _ h2.inlined) ins hl g x b hg hv⟩

/-- C19, for circuits of any history: it is enough that the circuit is well-built and its constants fit in the wires
reserved for them. -/
theorem C19_built {w : World} (h : Reachable w) {r : Ref} (hb : Built w r) {c : Circuit} (hc : w.circs[r]? = some c)
    (hfit : Fits w r c) {numFirst : Nat} (hn : numFirst ≤ c.inputLen + c.numConst) : ∃ res ls, Wrote w r c numFirst res ls ∧
      (∀ i o, c.outputMap i = some o → res.wog o ≠ none) ∧
      ∀ ins : List Bool, ins.length = c.inputLen → ∀ g x b, res.wog g = some x → Val w r ins g b →
        exec ls (inputWires (ins ++ res.consts)) x = some b := by
  obtain ⟨res, ls, h1, h2, _⟩ := wrote_file (WFw.of_reachable h) hb hc hn
  exact ⟨res, ls, h1, fun i o ho => (h2.dom o).mpr (.inr (.inr ⟨i, o, ho, .refl⟩)),
    fun ins hl => h2.vals (hfit _ _ h2.inlined) ins hl⟩

/-- C19: the text determines the result and the lines, so "the" written gate list is meaningful. -/
theorem C19_unique {w : World} {r : Ref} {c : Circuit} {numFirst : Nat} {res res' : Written} {ls ls' : List GLine}
    (h : Wrote w r c numFirst res ls) (h' : Wrote w r c numFirst res' ls') : res = res' ∧ ls = ls' := h.det h'

/-- two calls of a module with two outputs, a constant, shared gates -/
example : ValidRun (run nested) ∧ ∃ c, (run nested).circs[0]? = some c ∧ 1 ≤ c.inputLen + c.numConst ∧ c.numConst = 1 :=
  ⟨nested_valid, _, rfl, by decide, rfl⟩

def nestedText : Str := chars! "10 14\n2 1 2\n1 3\n\n2 1 0 1 3 AND\n1 1 3 4 INV\n2 1 0 1 5 XOR\n2 1 4 2 6 XOR\n1 1 6 7 INV\n1 1 7 8 INV\n2 1 7 5 9 AND\n1 1 9 10 INV\n2 1 7 5 11 XOR\n1 1 8 12 INV\n"

def nestedLines : List GLine :=
  [⟨.and, [0, 1], 3⟩, ⟨.inv, [3], 4⟩, ⟨.xor, [0, 1], 5⟩, ⟨.xor, [4, 2], 6⟩, ⟨.inv, [6], 7⟩, ⟨.inv, [7], 8⟩,
   ⟨.and, [7, 5], 9⟩, ⟨.inv, [9], 10⟩, ⟨.xor, [7, 5], 11⟩, ⟨.inv, [8], 12⟩]

theorem nested_wrote : ∃ res, Wrote (run nested) 0 (run nested).circs[0] 1 res nestedLines ∧ res.consts = [true] ∧
    (List.range 11).map res.wog = [0, 1, 2, 4, 5, 6, 7, 10, 11, 8, 12].map some :=
  wrote_of_run (fuel := 9) (by rfl)

/-- C19_computes: the lines of `nested` compute its truth table -/
example : ∃ res, Wrote (run nested) 0 (run nested).circs[0] 1 res nestedLines ∧
    ∀ ins : List Bool, ins.length = 2 → ∀ g x, res.wog g = some x →
      ∃ b, Val (run nested) 0 ins g b ∧ exec nestedLines (inputWires (ins ++ [true])) x = some b := by
  obtain ⟨res, h1, h2, _⟩ := nested_wrote
  obtain ⟨res', ls, h3, _, _, h4⟩ := C19_computes nested_valid (r := 0) (c := (run nested).circs[0]) rfl (numFirst := 1) (by decide)
  obtain ⟨rfl, rfl⟩ := h1.det h3
  rw [h2] at h4
  exact ⟨res, h1, h4⟩

example : (fileOf (run nested).circs[0] 1 nestedLines).text = nestedText := by rfl

/-- C21, for circuits of any history. -/
theorem C21_built {w : World} (h : Reachable w) {r : Ref} (hb : Built w r) {c : Circuit} (hc : w.circs[r]? = some c)
    {numFirst : Nat} (hn : numFirst ≤ c.inputLen + c.numConst) :
    ∃ res ls, Wrote w r c numFirst res ls ∧ Inlined w r ls.length res.consts := by
  obtain ⟨res, ls, h1, h2, _⟩ := wrote_file (WFw.of_reachable h) hb hc hn
  exact ⟨res, ls, h1, h2.inlined⟩

/-- circuit 1 negates and circuit 2 XORs with a constant; circuit 0 calls circuit 1, then circuit 1 gains a constant (so
that circuit 0 counts too few), then circuit 0 calls circuit 2 -/
def stale : List Op :=
  [.newStorage, .newCircuit 0, .subCircuit 0, .subCircuit 0, .input 1, .not 1 0, .output 1 1,
   .input 2, .constant 2 true, .xor 2 0 1, .output 2 2,
   .input 0, .module 0 0 [0], .constant 1 true, .module 0 1 [1], .output 0 2]

/-- C19 fails when a called circuit gains a constant after the call, although the circuit is still well-built in the
sense of the evaluator: the constants no longer fit in the reserved wires, a line overwrites one of them, and an output
wire gets the wrong value. `ValidRun` excludes this (a called circuit is not changed), and `Fits` is what fails. -/
theorem C19_stale_false : ∃ w c res ls, Reachable w ∧ Built w 0 ∧ w.circs[0]? = some c ∧ Wrote w 0 c 1 res ls ∧
    ¬ Fits w 0 c ∧ ∃ o x, c.outputMap 0 = some o ∧ res.wog o = some x ∧ Val w 0 [true] o true ∧
      exec ls (inputWires ([true] ++ res.consts)) x = some false := by
  have hr := run_reachable stale
  have hb : Built (run stale) 0 := built_of_check (WFw.of_reachable hr) 3 (by decide)
  obtain ⟨res, hwr, hcs, hx⟩ : ∃ res, Wrote (run stale) 0 (run stale).circs[0] 1 res [⟨.inv, [0], 2⟩, ⟨.xor, [2, 2], 3⟩] ∧
      res.consts = [true, true] ∧ (List.range 3).map res.wog = [some 0, some 2, some 3] := wrote_of_run (fuel := 9) (by rfl)
  refine ⟨run stale, (run stale).circs[0], res, _, hr, hb, rfl, hwr, ?_, 2, 3, rfl, ?_, ?_, by rw [hcs]; rfl⟩
  · intro hfit
    obtain ⟨res', ls, h1, h2⟩ := C21_built hr hb rfl (c := (run stale).circs[0]) (numFirst := 1) (by decide)
    obtain ⟨rfl, rfl⟩ := hwr.det h1
    rw [hcs] at h2
    exact absurd (hfit _ _ h2) (by decide)
  · simp [List.range, List.range.loop] at hx
    exact hx.2.2
  · have h1 : Val (run stale) 0 [true] 1 false := by
      refine .module (r := 0) (mr := 1) (bits := [true]) (o := 1) rfl rfl rfl rfl rfl ?_ rfl rfl
        (.not (a := true) rfl rfl (.input rfl rfl rfl))
      intro i x a hi ha
      cases i <;> simp at hi ha
      subst hi ha
      exact .input rfl rfl rfl
    refine .module (r := 0) (mr := 2) (bits := [false]) (o := 2) rfl rfl rfl rfl rfl ?_ rfl rfl
      (.xor (a := false) (b := true) rfl rfl (.input rfl rfl rfl) (.const rfl rfl))
    intro i x a hi ha
    cases i <;> simp at hi ha
    subst hi ha
    exact h1

/-! ### C20 -/

/-- C20: line `i` writes wire `input_len + num_const + i`, is an `INV`, `XOR`, `AND` or `OR` line with the right number of
operands, and reads inputs, returned constants or wires written by earlier lines. -/
theorem C20_wires {w : World} (h : ValidRun w) {r : Ref} {c : Circuit} (hc : w.circs[r]? = some c) {numFirst : Nat}
    {res : Written} {ls : List GLine} (hw : Wrote w r c numFirst res ls) :
    ∀ (i : Nat) l, ls[i]? = some l → l.out = c.inputLen + c.numConst + i ∧ l.args.length = l.op.arity ∧
      l.op ∈ [.inv, .xor, .and, .or] ∧ ∀ x ∈ l.args, x < c.inputLen + res.consts.length ∨ ∃ j l', j < i ∧ ls[j]? = some l' ∧ l'.out = x := by
  have hn : numFirst ≤ c.inputLen + c.numConst := by
    obtain ⟨⟨F, hF⟩, _⟩ := hw
    have := hF F (Nat.le_refl _)
    unfold write at this
    rw [bind_of_ok (circuit_of hc)] at this
    split at this
    · cases this
    · omega
  obtain ⟨res', ls', h1, h2, _⟩ := wrote_file h.wf (h.allBuilt r c hc) hc hn
  obtain ⟨rfl, rfl⟩ := hw.det h1
  intro i l hl
  have ho := h2.outs i l hl
  refine ⟨ho, h2.arity l (List.mem_of_getElem? hl), ?_, fun x hx => ?_⟩
  · have := h2.plain l (List.mem_of_getElem? hl)
    cases e : l.op <;> simp_all
  rcases h2.args l (List.mem_of_getElem? hl) x hx with h | ⟨a, b⟩
  · exact .inl h
  · right
    have hj : x - (c.inputLen + c.numConst) < ls.length := by
      have := (List.getElem?_eq_some_iff.mp hl).1
      omega
    refine ⟨x - (c.inputLen + c.numConst), ls[x - (c.inputLen + c.numConst)], by omega, List.getElem?_eq_getElem hj, ?_⟩
    rw [h2.outs _ _ (List.getElem?_eq_getElem hj)]
    omega

/-- C20: so every wire is written by at most one line, and no line writes an input or constant wire. -/
theorem C20_once {w : World} (h : ValidRun w) {r : Ref} {c : Circuit} (hc : w.circs[r]? = some c) {numFirst : Nat}
    {res : Written} {ls : List GLine} (hw : Wrote w r c numFirst res ls) :
    (∀ (i j : Nat) l l', ls[i]? = some l → ls[j]? = some l' → l.out = l'.out → i = j) ∧
      ∀ l ∈ ls, c.inputLen + c.numConst ≤ l.out := by
  have := C20_wires h hc hw
  constructor
  · intro i j l l' hi hj e
    have a := (this i l hi).1
    have b := (this j l' hj).1
    omega
  · intro l hl
    obtain ⟨i, hi, rfl⟩ := List.mem_iff_getElem.mp hl
    have := (this i _ (List.getElem?_eq_getElem hi)).1
    omega

/-! ### C21 -/

/-- C21: the writer succeeds, and the returned constants and the number of lines are those of the circuit with all needed
module calls inlined: its own constants, and for every needed module call (once per call) those of the called circuit. -/
theorem C21_returns {w : World} (h : ValidRun w) {r : Ref} {c : Circuit} (hc : w.circs[r]? = some c) {numFirst : Nat}
    (hn : numFirst ≤ c.inputLen + c.numConst) :
    ∃ res ls, Wrote w r c numFirst res ls ∧ Inlined w r ls.length res.consts ∧ res.consts.length ≤ c.numConst ∧
      ls.length ≤ c.numGate := by
  obtain ⟨res, ls, h1, h2, _⟩ := wrote_file h.wf (h.allBuilt r c hc) hc hn
  have := h2.inlined.bounds h c hc
  exact ⟨res, ls, h1, h2.inlined, this.2, this.1⟩

/-- C21: `Inlined` determines the number of lines, and the constants up to their order. -/
theorem C21_unique {w : World} {r : Ref} {n n' : Nat} {bs bs' : List Bool} (h : Inlined w r n bs)
    (h' : Inlined w r n' bs') : n = n' ∧ bs.Perm bs' := h.det h'

/-- C21: more first inputs than inputs and constants: panic, for every circuit in every heap, writer and depth. -/
theorem C21_panics (w : World) {r : Ref} {c : Circuit} (hc : w.circs[r]? = some c) {numFirst : Nat}
    (hn : c.inputLen + c.numConst < numFirst) (fuel : Nat) (st : WSt) (wog : Map GateId Nat) :
    write w fuel r numFirst st wog = .error (.panic .assertFailed) := by
  unfold write
  rw [bind_of_ok (circuit_of hc), if_pos hn]

/-- the constant of the calling circuit, and the ten gates of which six are those of the module called twice -/
example : ValidRun (run nested) ∧ (∃ c, (run nested).circs[0]? = some c ∧ c.inputLen + c.numConst = 3 ∧
    c.inputLen + c.numConst < 4) ∧ Inlined (run nested) 0 10 [true] := by
  refine ⟨nested_valid, ⟨_, rfl, rfl, by decide⟩, ?_⟩
  obtain ⟨res, ls, h1, h2, _⟩ := C21_returns nested_valid (r := 0) rfl (numFirst := 1) (by decide)
  obtain ⟨res', h3, h4, _⟩ := nested_wrote
  obtain ⟨rfl, rfl⟩ := h3.det h1
  rw [h4] at h2
  exact h2

/-! ### C22 -/

theorem uses_of {P : Nat → Prop} : ∀ {ls : List GLine}, (∀ l ∈ ls, l.args.length = l.op.arity) →
    (∀ (i : Nat) l, ls[i]? = some l → ∀ x ∈ l.args, P x ∨ ∃ j l', j < i ∧ ls[j]? = some l' ∧ l'.out = x) → Uses P ls := by
  intro ls
  induction ls generalizing P with
  | nil => intro _ _; trivial
  | cons l ls ih =>
    intro h1 h2
    refine ⟨h1 l (by simp), fun x hx => ?_, ih (fun l' hl => h1 l' (by simp [hl])) ?_⟩
    · rcases h2 0 l rfl x hx with h | ⟨j, _, hj, _⟩
      · exact h
      · omega
    · intro i l' hl x hx
      rcases h2 (i + 1) l' (by simpa using hl) x hx with h | ⟨j, l'', hj, hl'', e⟩
      · exact .inl (.inl h)
      · cases j with
        | zero => simp at hl''; subst hl''; exact .inl (.inr e.symm)
        | succ j => exact .inr ⟨j, l'', by omega, by simpa using hl'', e⟩

/-- the written file, as far as the reader is concerned -/
structure Readback (w : World) (r : Ref) (c : Circuit) (numFirst : Nat) (res : Written) (ls : List GLine) : Prop where
  wrote : Wrote w r c numFirst res ls
  file : WroteFile w r c numFirst res ls
  gates : ls.length ≤ c.numGate
  consts : res.consts.length ≤ c.numConst
  text : Text (fileOf c numFirst ls) res.st.out
  numIn : (fileOf c numFirst ls).numIn = c.inputLen + c.numConst
  numOut : (fileOf c numFirst ls).numOut = c.outputLen
  numWire : (fileOf c numFirst ls).numWire = c.inputLen + c.numGate + c.numConst + c.numConst
  uses : Uses (· < c.inputLen + c.numConst) ls
  defined : ∀ x, Defined (· < c.inputLen + c.numConst) ls x ↔ x < c.inputLen + c.numConst + ls.length
  tidy : LastOutputs w r → c.outputLen ≤ ls.length ∧
        (∀ i o, c.outputMap i = some o → res.wog o = some (c.inputLen + c.numConst + ls.length - c.outputLen + i)) ∧
        ∀ l ∈ ls, ∀ x ∈ l.args, x < c.inputLen + c.numConst + ls.length - c.outputLen

theorem readback {w : World} (h : ValidRun w) {r : Ref} {c : Circuit} (hc : w.circs[r]? = some c) {numFirst : Nat}
    (hn : numFirst ≤ c.inputLen + c.numConst) (hs : c.numWire + c.numConst < 2 ^ 64) (ho : c.outputLen < 2 ^ 64) :
    ∃ res ls, Readback w r c numFirst res ls := by
  obtain ⟨res, ls, h1, h2, h3⟩ := wrote_file h.wf (h.allBuilt r c hc) hc hn
  have hb := h2.inlined.bounds h c hc
  have hbal := h.balance hc
  have hw := C20_wires h hc h1
  have hout : ∀ l ∈ ls, l.out < c.inputLen + c.numConst + ls.length ∧ c.inputLen + c.numConst ≤ l.out := by
    intro l hl
    obtain ⟨i, hi, rfl⟩ := List.mem_iff_getElem.mp hl
    have := h2.outs i _ (List.getElem?_eq_getElem hi)
    omega
  have harg : ∀ l ∈ ls, ∀ x ∈ l.args, x < 2 ^ 64 := by
    intro l hl x hx
    have := (hout l hl).1
    rcases h2.args l hl x hx with h | h <;> omega
  refine ⟨res, ls, h1, h2, hb.1, hb.2, ?_, ?_, ?_, ?_, ?_, ?_, fun ht => h3 ht hb.2⟩
  · rw [h2.text]
    refine text_ok ⟨?_, hs, (by decide : (2 : Nat) < 2 ^ 64), ?_, (by decide : (1 : Nat) < 2 ^ 64), ?_, h2.arity, harg, ?_⟩
    · show c.numGate < _; omega
    · intro x hx
      simp only [fileOf, List.mem_cons, List.not_mem_nil, or_false] at hx
      omega
    · intro x hx
      simp only [fileOf, List.mem_cons, List.not_mem_nil, or_false] at hx
      omega
    · intro l hl
      have := (hout l hl).1
      omega
  · simp only [File.numIn, fileOf, List.sum_cons, List.sum_nil]; omega
  · simp [File.numOut, fileOf]
  · simp only [fileOf]; omega
  · refine uses_of h2.arity fun i l hl x hx => ?_
    rcases (hw i l hl).2.2.2 x hx with h | h
    · exact .inl (by omega)
    · exact .inr h
  · intro x
    constructor
    · rintro (h | ⟨l, hl, rfl⟩)
      · show x < _; have : x < c.inputLen + c.numConst := h; omega
      · exact (hout l hl).1
    · intro hx
      by_cases hx' : x < c.inputLen + c.numConst
      · exact .inl hx'
      · have hi : x - (c.inputLen + c.numConst) < ls.length := by omega
        refine .inr ⟨ls[x - (c.inputLen + c.numConst)], List.getElem_mem hi, ?_⟩
        rw [h2.outs _ _ (List.getElem?_eq_getElem hi)]
        omega

/-- C22: when the written file can be read. A circuit with outputs can be read back exactly if it uses no constants, also
not in modules, and all its logic gates (of called modules as often as they are called) are needed for outputs: otherwise
the header counts more wires than the file defines, and the reader panics. The header numbers are assumed to fit in 64
bits. The circuit read into may have any contents. -/
theorem C22_reads_iff {w : World} (h : ValidRun w) {r : Ref} {c : Circuit} (hc : w.circs[r]? = some c) {numFirst : Nat}
    (hn : numFirst ≤ c.inputLen + c.numConst) (hs : c.numWire + c.numConst < 2 ^ 64) (ho : c.outputLen < 2 ^ 64) :
    ∃ res ls, Wrote w r c numFirst res ls ∧ ∀ w2, Reachable w2 → ∀ r2 c2, w2.circs[r2]? = some c2 →
      ((c.outputLen = 0 ∨ (c.outputLen ≤ c.numWire ∧ c.numConst = 0 ∧ Inlined w r c.numGate [])) →
        ∃ gow w3, read r2 Map.empty res.st.out w2 = (.ok gow, w3)) ∧
      (¬ (c.outputLen = 0 ∨ (c.outputLen ≤ c.numWire ∧ c.numConst = 0 ∧ Inlined w r c.numGate [])) →
        ∃ p w3, read r2 Map.empty res.st.out w2 = (.error (.panic p), w3)) := by
  obtain ⟨res, ls, hb⟩ := readback h hc hn hs ho
  have hbal := h.balance hc
  have hu := hb.uses
  rw [← hb.numIn] at hu
  refine ⟨res, ls, hb.wrote, fun w2 h2 r2 c2 hc2 => ⟨fun hcond => ?_, fun hcond => ?_⟩⟩
  · have hv : (fileOf c numFirst ls).Valid := by
      refine ⟨hu, ?_, ?_⟩
      · rw [hb.numOut, hb.numWire]; rcases hcond with h | h <;> omega
      · intro x hx1 hx2
        rw [hb.numOut] at hx1
        rw [hb.numWire] at hx1 hx2
        rw [hb.numIn]
        refine (hb.defined x).mpr ?_
        rcases hcond with h | ⟨_, h, hi⟩
        · omega
        · have := (hb.file.inlined.det hi).1
          omega
    obtain ⟨gow, w3, _, h3, _⟩ := C16_read h2 hc2 hb.text hv
    exact ⟨gow, w3, h3⟩
  · have hx : (fileOf c numFirst ls).numWire < (fileOf c numFirst ls).numOut ∨ ∃ x, (fileOf c numFirst ls).numWire -
        (fileOf c numFirst ls).numOut ≤ x ∧ x < (fileOf c numFirst ls).numWire ∧
        ¬ Defined (· < (fileOf c numFirst ls).numIn) (fileOf c numFirst ls).gates x := by
      rw [hb.numOut, hb.numWire, hb.numIn]
      by_cases hroom : c.outputLen ≤ c.numWire + c.numConst
      · right
        refine ⟨c.inputLen + c.numGate + c.numConst + c.numConst - 1, ?_, ?_, ?_⟩
        · have : c.outputLen ≠ 0 := fun e => hcond (.inl e)
          omega
        · have : c.outputLen ≠ 0 := fun e => hcond (.inl e)
          omega
        · intro hd
          have h1 := (hb.defined _).mp hd
          have h2 : c.outputLen ≠ 0 := fun e => hcond (.inl e)
          have h3 := hb.gates
          have h4 : c.numConst = 0 := by omega
          have h5 : ls.length = c.numGate := by omega
          refine hcond (.inr ⟨by omega, h4, ?_⟩)
          have h6 := hb.file.inlined
          have h7 : res.consts = [] := List.eq_nil_of_length_eq_zero (by have := hb.consts; omega)
          rw [h7, h5] at h6
          exact h6
      · left; omega
    obtain ⟨w3, h3⟩ := read_no_outputs (WFw.of_reachable h2) hc2 hb.text hu hx
    exact ⟨_, w3, h3⟩

/-- C22 is false: no circuit with an output and a constant, its own or of a called module, can be read back. -/
theorem C22_const_false {w : World} (h : ValidRun w) {r : Ref} {c : Circuit} (hc : w.circs[r]? = some c) {numFirst : Nat}
    (hn : numFirst ≤ c.inputLen + c.numConst) (hs : c.numWire + c.numConst < 2 ^ 64) (ho : c.outputLen < 2 ^ 64)
    (hout : c.outputLen ≠ 0) (hk : c.numConst ≠ 0) :
    ∃ res ls, Wrote w r c numFirst res ls ∧ ∀ w2, Reachable w2 → ∀ r2 c2, w2.circs[r2]? = some c2 →
      ∃ p w3, read r2 Map.empty res.st.out w2 = (.error (.panic p), w3) := by
  obtain ⟨res, ls, h1, h2⟩ := C22_reads_iff h hc hn hs ho
  refine ⟨res, ls, h1, fun w2 k2 r2 c2 kc2 => (h2 w2 k2 r2 c2 kc2).2 ?_⟩
  rintro (e | ⟨_, e, _⟩)
  · exact hout e
  · exact hk e

/-- C22 is false: no circuit with an output and a logic gate that is not needed for outputs can be read back. -/
theorem C22_dead_false {w : World} (h : ValidRun w) {r : Ref} {c : Circuit} (hc : w.circs[r]? = some c) {numFirst : Nat}
    (hn : numFirst ≤ c.inputLen + c.numConst) (hs : c.numWire + c.numConst < 2 ^ 64) (ho : c.outputLen < 2 ^ 64)
    (hout : c.outputLen ≠ 0) {d : GateId} (hd : IsLogic c d) (hnd : ¬ Needed c d) :
    ∃ res ls, Wrote w r c numFirst res ls ∧ ∀ w2, Reachable w2 → ∀ r2 c2, w2.circs[r2]? = some c2 →
      ∃ p w3, read r2 Map.empty res.st.out w2 = (.error (.panic p), w3) := by
  obtain ⟨res, ls, h1, h2⟩ := C22_reads_iff h hc hn hs ho
  refine ⟨res, ls, h1, fun w2 k2 r2 c2 kc2 => (h2 w2 k2 r2 c2 kc2).2 ?_⟩
  rintro (e | ⟨_, _, e⟩)
  · exact hout e
  · have := e.dead h hc hd hnd
    omega

/-- C22, what holds: writing a circuit without constants, all of whose logic gates are needed (`Inlined`) and whose
outputs are written last, in their order (`LastOutputs`: they are different logic gates of its own that no output needs for
its operands, or all outputs of one call of such a circuit), and reading the text back into any empty circuit gives a circuit with the same numbers of inputs and outputs that computes the same function; the evaluator
succeeds on it. -/
theorem C22_roundtrip_partial {w : World} (h : ValidRun w) {r : Ref} {c : Circuit} (hc : w.circs[r]? = some c)
    (ht : LastOutputs w r) (hk : c.numConst = 0) (hl : Inlined w r c.numGate []) {numFirst : Nat}
    (hn : numFirst ≤ c.inputLen) (hs : c.numWire < 2 ^ 64) :
    ∃ res ls, Wrote w r c numFirst res ls ∧ ∀ w2, Reachable w2 → ∀ r2 s2, w2.circs[r2]? = some (Circuit.new s2) →
      ∃ gow w3 c3, read r2 Map.empty res.st.out w2 = (.ok gow, w3) ∧ w3.circs[r2]? = some c3 ∧
        c3.inputLen = c.inputLen ∧ c3.outputLen = c.outputLen ∧
        (∀ ins outs, ins.length = c.inputLen → (Outputs w r ins outs ↔ Outputs w3 r2 ins outs)) ∧
        ∃ F, ∀ fuel ≥ F, ∀ ins, ins.length = c.inputLen → ∃ outs, evalOutput w3 fuel r2 ins = .ok outs ∧
          Outputs w r ins outs := by
  have hb0 := h.allBuilt r c hc
  have hwf := h.wf.circ r c hc
  have hbal := h.balance hc
  have holen : c.outputLen ≤ c.numGate := by
    obtain ⟨res, ls, _, h2, h3⟩ := wrote_file h.wf hb0 hc (numFirst := 0) (by omega)
    have e := (h2.inlined.bounds h c hc)
    have := (h3 ht e.2).1
    omega
  obtain ⟨res, ls, hb⟩ := readback h hc (numFirst := numFirst) (by omega) (by omega) (by omega)
  obtain ⟨t1, t2, t3⟩ := hb.tidy ht
  have hlen : ls.length = c.numGate := (hb.file.inlined.det hl).1
  have hcs : res.consts = [] := List.eq_nil_of_length_eq_zero (by have := hb.consts; omega)
  have hu := hb.uses
  rw [← hb.numIn] at hu
  have hv : (fileOf c numFirst ls).Valid := by
    refine ⟨hu, ?_, ?_⟩
    · rw [hb.numOut, hb.numWire]; omega
    · intro x hx1 hx2
      rw [hb.numWire] at hx2
      rw [hb.numIn]
      exact (hb.defined x).mpr (by omega)
  have hunread : OutputsUnread (fileOf c numFirst ls) := by
    intro l hm x hx
    rw [hb.numOut, hb.numWire]
    have := t3 l hm x hx
    omega
  -- the values of the output wires
  have hval : ∀ ins : List Bool, ins.length = c.inputLen → ∀ i, i < c.outputLen → ∃ o b, c.outputMap i = some o ∧
      Val w r ins o b ∧ (fileOf c numFirst ls).output ins i = some b := by
    intro ins hi i hio
    obtain ⟨o, ho⟩ := Option.isSome_iff_exists.mp ((hwf.output_dom i).mpr hio)
    obtain ⟨b, hvb⟩ := hb0.total h.wf hc hi o (hwf.output_gate i o ho)
    refine ⟨o, b, ho, hvb, ?_⟩
    have := hb.file.vals hb.consts ins hi o _ b (t2 i o ho) hvb
    rw [hcs, List.append_nil] at this
    unfold File.output
    rw [hb.numOut, hb.numWire]
    have e : c.inputLen + c.numGate + c.numConst + c.numConst - c.outputLen + i =
      c.inputLen + c.numConst + ls.length - c.outputLen + i := by omega
    rw [e]; exact this
  refine ⟨res, ls, hb.wrote, fun w2 h2 r2 s2 hc2 => ?_⟩
  obtain ⟨gow, w3, c3, e1, e2, e3, e4, _, e5⟩ := C16_read h2 hc2 hb.text hv
  rw [hb.numIn] at e3
  rw [hb.numOut] at e4
  simp only [Circuit.new, Nat.zero_add] at e3 e4
  refine ⟨gow, w3, c3, e1, e2, by omega, e4, fun ins outs hi => ?_, ?_⟩
  · have hval3 : ∀ i, i < c.outputLen → ∃ o b, c3.outputMap i = some o ∧ Val w3 r2 ins o b ∧
        (fileOf c numFirst ls).output ins i = some b := by
      intro i hio
      obtain ⟨o, b, k1, k2, k3⟩ := e5 [] ins rfl (by rw [hb.numIn]; omega) i (by rw [hb.numOut]; exact hio)
      refine ⟨o, b, ?_, k3, k2⟩
      have : (Circuit.new s2).outputLen + i = i := by simp [Circuit.new]
      rw [this] at k1
      exact k1
    constructor
    · rintro ⟨c', hc', _, ho', hall⟩
      rw [hc] at hc'; cases hc'
      refine ⟨c3, e2, by omega, by omega, fun i b hib => ?_⟩
      obtain ⟨o, ho, hvb⟩ := hall i b hib
      have hio : i < c.outputLen := by rw [← ho']; exact (List.getElem?_eq_some_iff.mp hib).1
      obtain ⟨o1, b1, q1, q2, q3⟩ := hval ins hi i hio
      obtain ⟨o2, b2, p1, p2, p3⟩ := hval3 i hio
      rw [ho] at q1; cases q1
      have := q2.det hvb
      subst this
      rw [q3] at p3; cases p3
      exact ⟨o2, p1, p2⟩
    · rintro ⟨c', hc', _, ho', hall⟩
      rw [e2] at hc'; cases hc'
      refine ⟨c, hc, hi, by omega, fun i b hib => ?_⟩
      obtain ⟨o, ho, hvb⟩ := hall i b hib
      have hio : i < c.outputLen := by rw [← e4, ← ho']; exact (List.getElem?_eq_some_iff.mp hib).1
      obtain ⟨o1, b1, q1, q2, q3⟩ := hval ins hi i hio
      obtain ⟨o2, b2, p1, p2, p3⟩ := hval3 i hio
      rw [ho] at p1; cases p1
      have := p2.det hvb
      subst this
      rw [q3] at p3; cases p3
      exact ⟨o1, q1, q2⟩
  · obtain ⟨gow', w3', k1, F, hF⟩ := C16_eval h2 hc2 hb.text hv hunread
    rw [e1] at k1; cases k1
    refine ⟨F, fun fuel hf ins hi => ?_⟩
    obtain ⟨outs, m1, m2, m3⟩ := hF fuel hf ins (by rw [hb.numIn]; omega)
    rw [hb.numOut] at m2 m3
    refine ⟨outs, m1, c, hc, hi, m2, fun i b hib => ?_⟩
    have hio : i < c.outputLen := by rw [← m2]; exact (List.getElem?_eq_some_iff.mp hib).1
    obtain ⟨o, b1, q1, q2, q3⟩ := hval ins hi i hio
    rw [← m3 i hio, hib] at q3; cases q3
    exact ⟨o, q1, q2⟩

/-- C22, exactly: whenever the text can be read back into an empty circuit, output `i` of the new circuit is the value of
wire `num_wire - output_len + i` of the written file, whether or not the writer put the output gate there. -/
theorem C22_reads_as {w : World} (h : ValidRun w) {r : Ref} {c : Circuit} (hc : w.circs[r]? = some c)
    (hk : c.numConst = 0) (hl : Inlined w r c.numGate []) (hroom : c.outputLen ≤ c.numWire) {numFirst : Nat}
    (hn : numFirst ≤ c.inputLen) (hs : c.numWire < 2 ^ 64) :
    ∃ res ls, Wrote w r c numFirst res ls ∧ ∀ w2, Reachable w2 → ∀ r2 s2, w2.circs[r2]? = some (Circuit.new s2) →
      ∃ gow w3 c3, read r2 Map.empty res.st.out w2 = (.ok gow, w3) ∧ w3.circs[r2]? = some c3 ∧
        c3.inputLen = c.inputLen ∧ c3.outputLen = c.outputLen ∧ ∀ ins outs : List Bool, ins.length = c.inputLen →
          (Outputs w3 r2 ins outs ↔ outs.length = c.outputLen ∧ ∀ i, i < c.outputLen →
            outs[i]? = exec ls (inputWires ins) (c.numWire - c.outputLen + i)) := by
  have hbal := h.balance hc
  obtain ⟨res, ls, hb⟩ := readback h hc (numFirst := numFirst) (by omega) (by omega) (by omega)
  have hlen : ls.length = c.numGate := (hb.file.inlined.det hl).1
  have hu := hb.uses
  rw [← hb.numIn] at hu
  have hv : (fileOf c numFirst ls).Valid := by
    refine ⟨hu, ?_, ?_⟩
    · rw [hb.numOut, hb.numWire]; omega
    · intro x hx1 hx2
      rw [hb.numWire] at hx2
      rw [hb.numIn]
      exact (hb.defined x).mpr (by omega)
  refine ⟨res, ls, hb.wrote, fun w2 h2 r2 s2 hc2 => ?_⟩
  obtain ⟨gow, w3, c3, e1, e2, e3, e4, _, e5⟩ := C16_read h2 hc2 hb.text hv
  rw [hb.numIn] at e3
  rw [hb.numOut] at e4
  simp only [Circuit.new, Nat.zero_add] at e3 e4
  refine ⟨gow, w3, c3, e1, e2, by omega, e4, fun ins outs hi => ?_⟩
  have key : ∀ i, i < c.outputLen → ∃ o b, c3.outputMap i = some o ∧
      exec ls (inputWires ins) (c.numWire - c.outputLen + i) = some b ∧ Val w3 r2 ins o b := by
    intro i hio
    obtain ⟨o, b, k1, k2, k3⟩ := e5 [] ins rfl (by rw [hb.numIn]; omega) i (by rw [hb.numOut]; exact hio)
    unfold File.output at k2
    rw [hb.numOut, hb.numWire] at k2
    have e : c.inputLen + c.numGate + c.numConst + c.numConst - c.outputLen + i = c.numWire - c.outputLen + i := by omega
    rw [e] at k2
    have : (Circuit.new s2).outputLen + i = i := by simp [Circuit.new]
    rw [this] at k1
    exact ⟨o, b, k1, k2, k3⟩
  constructor
  · rintro ⟨c', hc', _, ho', hall⟩
    rw [e2] at hc'; cases hc'
    refine ⟨by omega, fun i hio => ?_⟩
    obtain ⟨o, b, k1, k2, k3⟩ := key i hio
    rw [k2]
    have hi' : i < outs.length := by omega
    obtain ⟨o', h1, h2⟩ := hall i outs[i] (List.getElem?_eq_getElem hi')
    rw [k1] at h1; cases h1
    rw [List.getElem?_eq_getElem hi', h2.det k3]
  · rintro ⟨ho', hall⟩
    refine ⟨c3, e2, by omega, by omega, fun i b hib => ?_⟩
    have hio : i < c.outputLen := by rw [← ho']; exact (List.getElem?_eq_some_iff.mp hib).1
    obtain ⟨o, b', k1, k2, k3⟩ := key i hio
    rw [← hall i hio, hib] at k2
    cases k2
    exact ⟨o, k1, k3⟩

/-- outputs: the negation of a gate, then the gate -/
def shared : List Op := [.newStorage, .newCircuit 0, .input 0, .input 0, .xor 0 0 1, .not 0 2, .output 0 3, .output 0 2]

theorem shared_valid : ValidRun (run shared) := validRun_of_check shared .nil (by decide)

/-- the writer puts the gate before its negation -/
theorem shared_wrote : ∃ res, Wrote (run shared) 0 (run shared).circs[0] 1 res [⟨.xor, [0, 1], 2⟩, ⟨.inv, [2], 3⟩] ∧
    res.consts = [] ∧ (List.range 4).map res.wog = [some 0, some 1, some 2, some 3] := wrote_of_run (fuel := 9) (by rfl)

/-- what the writer wrote is what the inlined circuit takes -/
theorem inlined_of_wrote {w : World} (h : ValidRun w) {r : Ref} {c : Circuit} (hc : w.circs[r]? = some c) {numFirst : Nat}
    (hn : numFirst ≤ c.inputLen + c.numConst) {res : Written} {ls : List GLine} (hw : Wrote w r c numFirst res ls) :
    Inlined w r ls.length res.consts := by
  obtain ⟨res', ls', h1, h2, _⟩ := C21_returns h hc hn
  obtain ⟨rfl, rfl⟩ := hw.det h1
  exact h2

/-- C22 is false also where the text can be read: the outputs of this circuit without constants and unneeded gates come
back in the other order. -/
theorem C22_shared_false : ∃ w c, ValidRun w ∧ w.circs[0]? = some c ∧ c.numConst = 0 ∧ Inlined w 0 c.numGate [] ∧
    ∃ res ls, Wrote w 0 c 1 res ls ∧ ∀ w2, Reachable w2 → ∀ r2 s2, w2.circs[r2]? = some (Circuit.new s2) →
      ∃ gow w3, read r2 Map.empty res.st.out w2 = (.ok gow, w3) ∧
        ∃ ins outs, Outputs w 0 ins outs ∧ ¬ Outputs w3 r2 ins outs := by
  obtain ⟨res, hw, hcs, _⟩ := shared_wrote
  have hi := inlined_of_wrote shared_valid rfl (by decide) hw
  rw [hcs] at hi
  refine ⟨run shared, (run shared).circs[0], shared_valid, rfl, rfl, hi, ?_⟩
  obtain ⟨res', ls, h1, h2⟩ := C22_reads_as shared_valid (r := 0) (c := (run shared).circs[0]) rfl rfl hi (by decide)
    (numFirst := 1) (by decide) (by decide)
  obtain ⟨rfl, rfl⟩ := hw.det h1
  refine ⟨res, _, hw, fun w2 k2 r2 s2 kc2 => ?_⟩
  obtain ⟨gow, w3, c3, e1, _, _, _, e2⟩ := h2 w2 k2 r2 s2 kc2
  refine ⟨gow, w3, e1, [false, false], [true, false], ?_, ?_⟩
  · refine ⟨_, rfl, rfl, rfl, fun i b hib => ?_⟩
    have h2 : Val (run shared) 0 [false, false] 2 false :=
      .xor (a := false) (b := false) rfl rfl (.input rfl rfl rfl) (.input rfl rfl rfl)
    match i, hib with
    | 0, hib => cases hib; exact ⟨3, rfl, .not (a := false) rfl rfl h2⟩
    | 1, hib => cases hib; exact ⟨2, rfl, h2⟩
  · intro ho
    have := ((e2 [false, false] [true, false] rfl).mp ho).2 0 (by decide)
    exact absurd this (by decide)

/-- the AND gate is not needed -/
def unneeded : List Op := [.newStorage, .newCircuit 0, .input 0, .input 0, .and 0 0 1, .xor 0 0 1, .output 0 3]

theorem unneeded_valid : ValidRun (run unneeded) := validRun_of_check unneeded .nil (by decide)

/-- C22 is false: a concrete circuit of each kind that cannot be read back; `nested` has a constant. -/
theorem C22_full_false : (∃ res ls, Wrote (run nested) 0 (run nested).circs[0] 1 res ls ∧ ∀ w2, Reachable w2 →
      ∀ r2 c2, w2.circs[r2]? = some c2 → ∃ p w3, read r2 Map.empty res.st.out w2 = (.error (.panic p), w3)) ∧
    ∃ res ls, Wrote (run unneeded) 0 (run unneeded).circs[0] 1 res ls ∧ ∀ w2, Reachable w2 →
      ∀ r2 c2, w2.circs[r2]? = some c2 → ∃ p w3, read r2 Map.empty res.st.out w2 = (.error (.panic p), w3) := by
  refine ⟨C22_const_false nested_valid rfl (by decide) (by decide) (by decide) (by decide) (by decide),
    C22_dead_false unneeded_valid (c := (run unneeded).circs[0]) (d := 2) rfl (by decide) (by decide) (by decide) (by decide)
      ⟨0, 1, .inr (.inr (.inl rfl))⟩ ?_⟩
  intro hnd
  obtain ⟨res, hw, _, hx⟩ := wrote_of_run (w := run unneeded) (fuel := 9) (r := 0) (c := (run unneeded).circs[0])
    (numFirst := 1) (n := 4) (cs := []) (xs := [some 0, some 1, none, some 2]) (ls := [⟨.xor, [0, 1], 2⟩]) (by rfl)
  obtain ⟨res', ls, h1, h2, _⟩ := C19_computes unneeded_valid (r := 0) (c := (run unneeded).circs[0]) rfl (numFirst := 1)
    (by decide)
  obtain ⟨rfl, rfl⟩ := hw.det h1
  simp [List.range, List.range.loop] at hx
  exact (h2 2).mpr (.inr (.inr hnd)) hx.2.2.1

/-- full adder from two calls of a half adder -/
def adder : List Op :=
  [.newStorage, .newCircuit 0, .subCircuit 0, .input 1, .input 1, .xor 1 0 1, .and 1 0 1, .output 1 2, .output 1 3,
   .input 0, .input 0, .input 0, .module 0 0 [0, 1], .module 0 0 [3, 2], .identity 0 5, .or 0 4 6, .output 0 8, .output 0 9]

theorem adder_valid : ValidRun (run adder) := validRun_of_check adder .nil (by decide)

/-- C22's hypotheses hold for it, and the evaluator agrees -/
example : ∃ c, (run adder).circs[0]? = some c ∧ LastOutputs (run adder) 0 ∧ c.numConst = 0 ∧ Inlined (run adder) 0 c.numGate [] ∧
    1 ≤ c.inputLen ∧ c.numWire < 2 ^ 64 ∧ evalOutput (run adder) 9 0 [true, true, true] = .ok [true, true] ∧
    evalOutput (run adder) 9 0 [true, false, true] = .ok [false, true] := by
  obtain ⟨res, hw, hcs, _⟩ := wrote_of_run (w := run adder) (fuel := 9) (r := 0) (c := (run adder).circs[0]) (numFirst := 1)
    (n := 0) (cs := []) (xs := []) (ls := [⟨.xor, [0, 1], 3⟩, ⟨.and, [0, 1], 4⟩, ⟨.xor, [3, 2], 5⟩, ⟨.and, [3, 2], 6⟩, ⟨.inv, [5], 7⟩,
      ⟨.inv, [7], 8⟩, ⟨.or, [4, 6], 9⟩]) (by rfl)
  have hi := inlined_of_wrote adder_valid rfl (by decide) hw
  rw [hcs] at hi
  exact ⟨_, rfl, .gates rfl (tidy_of_check (adder_valid.wf.circ 0 _ rfl) (by decide)), rfl, hi, by decide, by decide, rfl, rfl⟩

/-! ### the other theorems on these circuits -/

/-- the full adder; then the half adder, which was called, gets a gate that nothing uses -/
def adderLater : List Op := adder ++ [.or 1 0 1]

/-- C21_built, C21_unique and C19_built: the constants fit, although a called circuit was changed -/
example : ∃ res ls, Wrote (run adderLater) 0 (run adderLater).circs[0] 1 res ls ∧
    ∀ ins : List Bool, ins.length = 3 → ∀ g x b, res.wog g = some x → Val (run adderLater) 0 ins g b →
      exec ls (inputWires (ins ++ res.consts)) x = some b := by
  have hr : Reachable (run adderLater) := run_reachable _
  have hb : Built (run adderLater) 0 := built_of_check (WFw.of_reachable hr) 3 (by decide)
  obtain ⟨res, hw, hcs, _⟩ := wrote_of_run (w := run adderLater) (fuel := 9) (r := 0) (c := (run adderLater).circs[0]) (numFirst := 1)
    (n := 0) (cs := []) (xs := []) (ls := [⟨.xor, [0, 1], 3⟩, ⟨.and, [0, 1], 4⟩, ⟨.xor, [3, 2], 5⟩, ⟨.and, [3, 2], 6⟩, ⟨.inv, [5], 7⟩,
      ⟨.inv, [7], 8⟩, ⟨.or, [4, 6], 9⟩]) (by rfl)
  obtain ⟨res', ls, h1, hi⟩ := C21_built hr hb (c := (run adderLater).circs[0]) rfl (numFirst := 1) (by decide)
  obtain ⟨rfl, rfl⟩ := hw.det h1
  rw [hcs] at hi
  have hfit : Fits (run adderLater) 0 (run adderLater).circs[0] := fun n bs h => by
    rw [← (C21_unique hi h).2.length_eq]; exact Nat.zero_le _
  obtain ⟨res', ls, h1, _, h2⟩ := C19_built hr hb (c := (run adderLater).circs[0]) rfl hfit (numFirst := 1) (by decide)
  exact ⟨res', ls, h1, h2⟩

/-- C20_wires, C20_once -/
example : (∀ (i : Nat) l, nestedLines[i]? = some l → l.out = 3 + i) ∧ ∀ l ∈ nestedLines, 3 ≤ l.out := by
  obtain ⟨res, h1, _⟩ := nested_wrote
  exact ⟨fun i l h => (C20_wires nested_valid rfl h1 i l h).1, (C20_once nested_valid rfl h1).2⟩

theorem shared_inlined : Inlined (run shared) 0 2 [] := by
  obtain ⟨res, h1, h2, _⟩ := shared_wrote
  have := inlined_of_wrote shared_valid rfl (by decide) h1
  rw [h2] at this; exact this

/-- C22_reads_iff: `shared` can be read back, `nested` cannot -/
example : (∃ res ls, Wrote (run shared) 0 (run shared).circs[0] 1 res ls ∧
      ∃ gow w3, read 0 Map.empty res.st.out (run nested) = (.ok gow, w3)) ∧
    ∃ res ls, Wrote (run nested) 0 (run nested).circs[0] 1 res ls ∧
      ∃ p w3, read 0 Map.empty res.st.out (run nested) = (.error (.panic p), w3) := by
  obtain ⟨res, ls, h1, h2⟩ := C22_reads_iff shared_valid (r := 0) (c := (run shared).circs[0]) rfl (numFirst := 1) (by decide)
    (by decide) (by decide)
  obtain ⟨res', ls', h1', h2'⟩ := C22_reads_iff nested_valid (r := 0) (c := (run nested).circs[0]) rfl (numFirst := 1) (by decide)
    (by decide) (by decide)
  exact ⟨⟨res, ls, h1, (h2 _ nested_valid.reachable 0 _ rfl).1 (.inr ⟨by decide, rfl, shared_inlined⟩)⟩,
    res', ls', h1', (h2' _ nested_valid.reachable 0 _ rfl).2 (by
      rintro (h | ⟨_, h, _⟩)
      · exact absurd h (by decide)
      · exact absurd h (by decide))⟩

/-- C22_reads_as: `shared` read back into an empty circuit -/
example : ∃ res ls, Wrote (run shared) 0 (run shared).circs[0] 1 res ls ∧
    ∃ gow w3 c3, read 0 Map.empty res.st.out (run [.newStorage, .newCircuit 0]) = (.ok gow, w3) ∧ w3.circs[0]? = some c3 ∧
      c3.inputLen = 2 ∧ c3.outputLen = 2 := by
  obtain ⟨res, ls, h1, h2⟩ := C22_reads_as shared_valid (r := 0) (c := (run shared).circs[0]) rfl rfl shared_inlined (by decide)
    (numFirst := 1) (by decide) (by decide)
  obtain ⟨gow, w3, c3, h3, h4, h5, h6, _⟩ := h2 _ (run_reachable [.newStorage, .newCircuit 0]) 0 0 rfl
  exact ⟨res, ls, h1, gow, w3, c3, h3, h4, h5, h6⟩

/-- C22_roundtrip_partial: the full adder -/
example : ∃ res ls, Wrote (run adder) 0 (run adder).circs[0] 1 res ls ∧
    ∃ gow w3, read 0 Map.empty res.st.out (run [.newStorage, .newCircuit 0]) = (.ok gow, w3) ∧
      ∀ ins outs, ins.length = 3 → (Outputs (run adder) 0 ins outs ↔ Outputs w3 0 ins outs) := by
  obtain ⟨res, hw, hcs, _⟩ := wrote_of_run (w := run adder) (fuel := 9) (r := 0) (c := (run adder).circs[0]) (numFirst := 1)
    (n := 0) (cs := []) (xs := []) (ls := [⟨.xor, [0, 1], 3⟩, ⟨.and, [0, 1], 4⟩, ⟨.xor, [3, 2], 5⟩, ⟨.and, [3, 2], 6⟩, ⟨.inv, [5], 7⟩,
      ⟨.inv, [7], 8⟩, ⟨.or, [4, 6], 9⟩]) (by rfl)
  have hi := inlined_of_wrote adder_valid rfl (by decide) hw
  rw [hcs] at hi
  obtain ⟨res, ls, h1, h2⟩ := C22_roundtrip_partial adder_valid (r := 0) (c := (run adder).circs[0]) rfl
    (.gates rfl (tidy_of_check (adder_valid.wf.circ 0 _ rfl) (by decide))) rfl hi (numFirst := 1) (by decide) (by decide)
  obtain ⟨gow, w3, c3, h3, _, _, _, h4, _⟩ := h2 _ (run_reachable [.newStorage, .newCircuit 0]) 0 0 rfl
  exact ⟨res, ls, h1, gow, w3, h3, h4⟩

end CC.Props
