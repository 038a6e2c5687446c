import Verif.Proofs.BrWriteErrors
import Verif.Props.Failure
import Verif.Props.Writer

/-!
# C64: which circuits can be written, and how writing can fail
-/

namespace CC.Props
open CC Spec CC.Bristol Spec.Bristol

/-- **C64.** In every heap the API can produce, well-built or not: a writer in any state, without a map from the caller, writes the
circuit (given enough call stack) exactly if the first group of inputs is not larger than the number of inputs and constants, and
every output is `Writable`. -/
theorem C64_iff {w : World} (h : Reachable w) {r : Ref} {c : Circuit} (hc : w.circs[r]? = some c) (numFirst : Nat) (st : WSt) :
    (∃ fuel x, write w fuel r numFirst st Map.empty = .ok x) ↔
      numFirst ≤ c.inputLen + c.numConst ∧ ∀ i o, c.outputMap i = some o → Writable w r o := by
  constructor
  · rintro ⟨fuel, x, hx⟩
    exact write_writable (WFw.of_reachable h) (callsFit_reachable h) hc hx
  · rintro ⟨hk, ho⟩
    obtain ⟨F, hF⟩ := write_of_writable (WFw.of_reachable h) (callsFit_reachable h) hc ho
    exact ⟨F, hF F (Nat.le_refl _) numFirst hk st Map.empty⟩

/-- **C64.** One depth of the call stack is enough for all such calls, also with a map from the caller. -/
theorem C64_writes {w : World} (h : Reachable w) {r : Ref} {c : Circuit} (hc : w.circs[r]? = some c)
    (ho : ∀ i o, c.outputMap i = some o → Writable w r o) :
    ∃ F, ∀ fuel ≥ F, ∀ numFirst ≤ c.inputLen + c.numConst, ∀ st wog, ∃ x, write w fuel r numFirst st wog = .ok x :=
  write_of_writable (WFw.of_reachable h) (callsFit_reachable h) hc ho

/-- **C64.** Whatever the circuit, the state of the writer and the map of the caller: writing that fails does so with the assertion
on the size of the first group of inputs, or for one of the reasons in `Unwritable`, in the circuit or in a circuit it calls. -/
theorem C64_reasons {w : World} (h : Reachable w) {r : Ref} {c : Circuit} (hc : w.circs[r]? = some c) {fuel numFirst : Nat}
    {st : WSt} {wog : Map GateId Nat} {e : Err} (he : write w fuel r numFirst st wog = .error e) :
    c.inputLen + c.numConst < numFirst ∧ e = .panic .assertFailed ∨ Unwritable w r e :=
  write_error (WFw.of_reachable h) (callsFit_reachable h) hc he

/-- the errors for which there is a reason -/
theorem unwritable_errors {w : World} {r : Ref} {e : Err} (h : Unwritable w r e) :
    e = .outOfFuel ∨ (∃ g, e = .unknownGate g) ∨ ∃ i, e = .unknownInput i := by
  induction h with
  | depth => exact Or.inl rfl
  | operand => exact Or.inr (Or.inl ⟨_, rfl⟩)
  | excess => exact Or.inr (Or.inr ⟨_, rfl⟩)
  | inner _ _ _ ih => exact ih

/-- **C64.** So no wire is missing when an operand, an argument, an output or a constant is looked up, the id of the first output of
a call is never negative, and modules and outputs are always found. -/
theorem C64_never {w : World} (h : Reachable w) {r : Ref} {c : Circuit} (hc : w.circs[r]? = some c) {fuel numFirst : Nat}
    {st : WSt} {wog : Map GateId Nat} {e : Err} (he : write w fuel r numFirst st wog = .error e) :
    e = .panic .assertFailed ∨ e = .outOfFuel ∨ (∃ g, e = .unknownGate g) ∨ ∃ i, e = .unknownInput i := by
  rcases C64_reasons h hc he with ⟨_, k⟩ | k
  · exact Or.inl k
  · exact Or.inr (unwritable_errors k)

/-- **C64.** The result does not depend on the depth of the call stack, unless it is exhausted. -/
theorem C64_stable {w : World} {fuel fuel' : Nat} {r : Ref} {numFirst : Nat} {st : WSt} {wog : Map GateId Nat}
    (h : write w fuel r numFirst st wog ≠ .error .outOfFuel) (hf : fuel ≤ fuel') :
    write w fuel' r numFirst st wog = write w fuel r numFirst st wog := write_stable h hf

/-- **C64.** A circuit that can be evaluated, on some input, can be written. -/
theorem C64_evaluates {w : World} (h : Reachable w) {r : Ref} {c : Circuit} (hc : w.circs[r]? = some c) {fuel : Nat}
    {ins outs : List Bool} (he : evalOutput w fuel r ins = .ok outs) :
    ∃ F, ∀ fuel ≥ F, ∀ numFirst ≤ c.inputLen + c.numConst, ∀ st wog, ∃ x, write w fuel r numFirst st wog = .ok x :=
  C64_writes h hc (writable_of_eval (WFw.of_reachable h) hc he)

/-- **C64.** Not conversely: the evaluator drops bits that are read again (C11), the writer does not. -/
theorem C64_converse_false : ValidRun (run evicted) ∧ (∃ x, write (run evicted) 9 0 0 WSt.new Map.empty = .ok x) ∧
    ∀ fuel ins, ∀ outs, evalOutput (run evicted) fuel 0 ins ≠ .ok outs := by
  refine ⟨evicted_valid, ⟨_, rfl⟩, fun fuel ins outs he => ?_⟩
  match ins with
  | [] => rw [C12_wrong_length _ (c := (run evicted).circs[0]) rfl (by decide)] at he; cases he
  | b :: b' :: ins =>
    rw [C12_wrong_length _ (c := (run evicted).circs[0]) rfl (fun h => by cases h)] at he
    cases he
  | [b] =>
    match fuel with
    | 0 => cases he
    | 1 => cases he
    | fuel + 2 => cases he

/-! ### every reason occurs -/

/-- the module `¬`, called with two arguments -/
def excessOps : List Op :=
  [.newStorage, .newCircuit 0, .subCircuit 0, .input 1, .not 1 0, .output 1 1, .input 0, .module 0 0 [0, 0], .output 0 1]

theorem loop_gate {g : GateId} {gate : Gate} (hg : (run loopOps).circs[0].gateMap g = some gate) : g = 0 ∧ gate = .not 0 := by
  have h := ((WFw.of_reachable (run_reachable loopOps)).circ 0 _ rfl).lt_of_some hg
  have h : g < 1 := h
  obtain rfl : g = 0 := by omega
  cases hg
  exact ⟨rfl, rfl⟩

/-- **C64.** Every error occurs: an id never issued, in the circuit or in a called one, too many arguments, a first group of inputs
that is too large; and a gate that is its own operand exhausts every call stack. -/
theorem C64_occurs :
    write (run [.newStorage, .newCircuit 0, .not 0 7, .output 0 0]) 9 0 0 WSt.new Map.empty = .error (.unknownGate 7) ∧
    write (run [.newStorage, .newCircuit 0, .subCircuit 0, .not 1 7, .output 1 0, .module 0 0 [], .output 0 0]) 9 0 0 WSt.new
      Map.empty = .error (.unknownGate 7) ∧
    write (run excessOps) 9 0 0 WSt.new Map.empty = .error (.unknownInput 1) ∧
    write (run evicted) 9 0 2 WSt.new Map.empty = .error (.panic .assertFailed) ∧
    ∀ fuel, write (run loopOps) fuel 0 0 WSt.new Map.empty = .error .outOfFuel := by
  refine ⟨rfl, rfl, rfl, rfl, fun fuel => ?_⟩
  have hr : Reachable (run loopOps) := run_reachable _
  have hw (g) (h : Writable (run loopOps) 0 g) : g ≠ 0 := by
    generalize e : (0 : Ref) = r at h
    induction h with
    | @plain r c g gate hc hg _ _ ih =>
      subst e
      cases hc
      rintro rfl
      cases hg
      exact ih 0 (by simp [Gate.operands]) rfl rfl
    | @call r c g _ _ _ _ _ _ _ hc hg =>
      subst e
      cases hc
      rintro rfl
      cases hg
  cases e : write (run loopOps) fuel 0 0 WSt.new Map.empty with
  | ok x => exact absurd rfl (hw 0 (((C64_iff hr (c := (run loopOps).circs[0]) rfl 0 WSt.new).mp ⟨fuel, x, e⟩).2 0 0 rfl))
  | error e' =>
    rcases C64_reasons hr (c := (run loopOps).circs[0]) rfl e with ⟨h, _⟩ | h
    · exact absurd h (Nat.not_lt_zero _)
    · cases h with
      | depth => rfl
      | operand hc hg hx hn =>
        cases hc
        rw [(loop_gate hg).2] at hx
        cases List.mem_singleton.mp hx
        cases hn
      | excess hc hg =>
        cases hc
        cases (loop_gate hg).2
      | inner hc hcalls =>
        cases hc
        obtain ⟨_, _, _, _, _, _, hg, _⟩ := hcalls
        cases (loop_gate hg).2

/-- the module `¬`, called with no argument -/
def fewOps : List Op := [.newStorage, .newCircuit 0, .subCircuit 0, .input 1, .not 1 0, .output 1 1, .module 0 0 [], .output 0 0]

/-- the file written for `fewOps` -/
def fewText : List Char := "1 1\n2 0 0\n1 1\n\n1 1 0 1 INV\n".toList

/-- **C64.** A call with too few arguments is written without an error, although it cannot be evaluated: the inputs without an
argument get wires that are no inputs of the file and that no line computes. The reader rejects the file. -/
theorem C64_few : (∃ x, write (run fewOps) 9 0 0 WSt.new Map.empty = .ok x ∧ x.st.out = fewText) ∧
    evalOutput (run fewOps) 9 0 [] = .error (.panic .assertFailed) ∧
    (read 0 Map.empty fewText (run [.newStorage, .newCircuit 0])).1 = .error (.unknownWire 0) := by
  refine ⟨⟨_, rfl, ?_⟩, rfl, ?_⟩
  · decide +kernel
  · rfl

/-- the hypotheses of `C64_iff`, `C64_writes` and `C64_evaluates` are met by `nested`, a circuit with calls -/
example : evalOutput (run nested) 6 0 [true, true] = .ok [true, false, false] ∧
    ∀ i o, (run nested).circs[0].outputMap i = some o → Writable (run nested) 0 o :=
  ⟨rfl, writable_of_eval (WFw.of_reachable (run_reachable nested)) rfl (show evalOutput (run nested) 6 0 [true, true] = _ from rfl)⟩

/-- with a map from the caller also a circuit that is not writable can be written: hence the empty map in `C64_iff` -/
example : ∃ x, write (run [.newStorage, .newCircuit 0, .not 0 7, .output 0 0]) 9 0 0 WSt.new (Map.empty.insert 7 3) = .ok x :=
  ⟨_, rfl⟩

/-- the hypothesis of `C64_stable` -/
example : write (run excessOps) 9 0 0 WSt.new Map.empty ≠ .error .outOfFuel := by
  rw [C64_occurs.2.2.1]
  rintro ⟨⟩

end CC.Props
