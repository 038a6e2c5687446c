import Verif.Proofs.ReleaseErrors
import Verif.Props.Evaluator
import Verif.Props.Release

/-!
# C62: how evaluation can fail
-/

namespace CC.Props
open CC Spec

/-- **C62.** In every heap the API can produce, well-built or not, an evaluation with the right number of inputs that fails does so
for one of the reasons in `Failure`, in the circuit or in a circuit it calls. -/
theorem C62_reasons {w : World} (h : Reachable w) {r : Ref} {c : Circuit} (hc : w.circs[r]? = some c) {fuel : Nat}
    {ins : List Bool} (hl : ins.length = c.inputLen) {e : Err} (he : evalOutput w fuel r ins = .error e) : Failure w r e :=
  evalOutput_ends (WFw.of_reachable h) (callsFit_reachable h) hc hl he

/-- the errors for which there is a reason -/
theorem failure_errors {w : World} {r : Ref} {e : Err} (h : Failure w r e) :
    e = .outOfFuel ∨ (∃ g, e = .unknownGate g) ∨ (∃ g, e = .unknownEvaledBit g) ∨ e = .panic .missingKey ∨
      e = .panic .assertFailed := by
  induction h with
  | depth => exact Or.inl rfl
  | operand => exact Or.inr (Or.inl ⟨_, rfl⟩)
  | input => exact Or.inr (Or.inr (Or.inl ⟨_, rfl⟩))
  | left => exact Or.inr (Or.inr (Or.inl ⟨_, rfl⟩))
  | twice => exact Or.inr (Or.inr (Or.inr (Or.inl rfl)))
  | arguments => exact Or.inr (Or.inr (Or.inr (Or.inl rfl)))
  | arity => exact Or.inr (Or.inr (Or.inr (Or.inr rfl)))
  | inner _ _ _ ih => exact ih

/-- **C62.** Whatever the circuit and the inputs, the read counters never underflow, no index is out of range, the id of the first
output of a module call is never negative, and modules, inputs and outputs are always found. -/
theorem C62_never {w : World} (h : Reachable w) {r : Ref} {c : Circuit} (hc : w.circs[r]? = some c) {fuel : Nat}
    {ins : List Bool} {e : Err} (he : evalOutput w fuel r ins = .error e) :
    e = .outOfFuel ∨ (∃ g, e = .unknownGate g) ∨ (∃ g, e = .unknownEvaledBit g) ∨ e = .panic .missingKey ∨
      e = .panic .assertFailed := by
  by_cases hl : ins.length = c.inputLen
  · exact failure_errors (C62_reasons h hc hl he)
  · rw [C12_wrong_length w hc hl fuel] at he
    cases he
    exact Or.inr (Or.inr (Or.inr (Or.inr rfl)))

/-- **C62.** A well-built circuit, given the right number of inputs and enough call stack, fails only because a bit was dropped that
is read again: with the error `UnknownEvaledBit`, or with a panic in the read counters. -/
theorem C62_built {w : World} (h : Reachable w) {r : Ref} {c : Circuit} (hc : w.circs[r]? = some c) (hb : Built w r) :
    ∃ F, ∀ fuel ≥ F, ∀ ins e, ins.length = c.inputLen → evalOutput w fuel r ins = .error e →
      (∃ g, e = .unknownEvaledBit g) ∨ e = .panic .missingKey := by
  have key {r e} (hb : Built w r) (hf : Failure w r e) :
      e = .outOfFuel ∨ (∃ g, e = .unknownEvaledBit g) ∨ e = .panic .missingKey := by
    induction hf with
    | depth => exact Or.inl rfl
    | @operand r c g gate x hc hg hx hn =>
      cases hb with
      | mk hc' ht _ _ =>
        rw [hc] at hc'
        cases hc'
        have hwf := (WFw.of_reachable h).circ r c hc
        have h1 := ht g gate hg x hx
        have h2 := hwf.lt_of_some hg
        have h3 : lead g gate ≤ g := by
          unfold lead
          split <;> omega
        obtain ⟨y, hy⟩ := hwf.some_of_lt (g := x) (by omega)
        rw [hn] at hy
        cases hy
    | input => exact Or.inr (Or.inl ⟨_, rfl⟩)
    | left => exact Or.inr (Or.inl ⟨_, rfl⟩)
    | twice => exact Or.inr (Or.inr rfl)
    | arguments => exact Or.inr (Or.inr rfl)
    | @arity r c g nIn nOut ids oi mid mr mc hc hg hm hmc hn =>
      cases hb with
      | mk hc' _ hk _ =>
        rw [hc] at hc'
        cases hc'
        obtain ⟨mr', mc', k1, k2, k3, k4, _⟩ := hk g nIn nOut ids oi mid hg
        rw [hm] at k1
        cases k1
        rw [hmc] at k2
        cases k2
        exact absurd (k3.trans k4) hn
    | inner hc hcalls _ ih =>
      cases hb with
      | mk hc' _ _ hbm =>
        rw [hc] at hc'
        cases hc'
        exact ih (hbm _ hcalls)
  obtain ⟨F, hF⟩ := C13_bound_local h hc hb
  refine ⟨F, fun fuel hf ins e hl he => ?_⟩
  rcases key hb (C62_reasons h hc hl he) with rfl | k
  · exact absurd he (hF fuel hf ins)
  · exact k

/-- **C62.** The same reasons, and no others, in release builds, where the counters of circuits wrap around: the subtractions of the
evaluator do not underflow there either. -/
theorem C62_release {w : World} (h : RunR w) (hroom : Room w) {r : Ref} {c : Circuit} (hc : w.circs[r]? = some c) {fuel : Nat}
    {ins : List Bool} (hl : ins.length = c.inputLen) {e : Err} (he : evalOutput w fuel r ins = .error e) : Failure w r e := by
  obtain ⟨v, h1, h2, _, h3⟩ := h.idealFit hroom
  obtain ⟨d, hd, k⟩ := h1.get hc
  rw [h1.evalOutput] at he
  exact h1.symm.failure (evalOutput_ends h2 h3 hd (k.inputLen ▸ hl) he)

/-! ### every reason occurs -/

/-- `x = ¬i`, `y = ¬x`, `z = ¬y`, `x ^ x`; outputs `z`, `y`, `x ^ x` -/
def twiceOps : List Op :=
  [.newStorage, .newCircuit 0, .input 0, .not 0 0, .not 0 1, .not 0 2, .xor 0 1 1, .output 0 3, .output 0 2, .output 0 4]

/-- the same with a call of a module with two inputs instead of `^` -/
def argumentsOps : List Op :=
  [.newStorage, .newCircuit 0, .subCircuit 0, .input 1, .input 1, .or 1 0 1, .output 1 2,
   .input 0, .not 0 0, .not 0 1, .not 0 2, .module 0 0 [1, 1], .output 0 3, .output 0 2, .output 0 4]

/-- `l = ¬i`, `r = ¬l`, `z = ¬r`, `q = ¬z`, `l ^ r`; outputs `q`, `z`, `l ^ r` -/
def leftOps : List Op :=
  [.newStorage, .newCircuit 0, .input 0, .not 0 0, .not 0 1, .not 0 2, .not 0 3, .xor 0 1 2,
   .output 0 4, .output 0 3, .output 0 5]

/-- **C62.** The four reasons left in `C62_built` all occur, in circuits built by valid calls, on every input: the evaluator returns
`UnknownEvaledBit` for an input or for a gate, and it panics. -/
theorem C62_occurs : ∀ b,
    (ValidRun (run evicted) ∧ evalOutput (run evicted) 6 0 [b] = .error (.unknownEvaledBit 0)) ∧
    (ValidRun (run leftOps) ∧ evalOutput (run leftOps) 9 0 [b] = .error (.unknownEvaledBit 1)) ∧
    (ValidRun (run twiceOps) ∧ evalOutput (run twiceOps) 9 0 [b] = .error (.panic .missingKey)) ∧
    ValidRun (run argumentsOps) ∧ evalOutput (run argumentsOps) 9 0 [b] = .error (.panic .missingKey) := by
  intro b
  refine ⟨⟨validRun_of_check evicted .nil (by decide), ?_⟩, ⟨validRun_of_check leftOps .nil (by decide), ?_⟩,
    ⟨validRun_of_check twiceOps .nil (by decide), ?_⟩, validRun_of_check argumentsOps .nil (by decide), ?_⟩
  all_goals cases b <;> rfl

/-- gate 0 is `¬` of itself -/
def loopOps : List Op := [.newStorage, .newCircuit 0, .not 0 0, .output 0 0]

/-- **C62.** Evaluation can be endless: ids are not checked, so a gate can be its own operand, and then every call stack is
exhausted. -/
theorem C62_endless (fuel : Nat) : evalOutput (run loopOps) fuel 0 [] = .error .outOfFuel := by
  have key (fuel : Nat) : ∀ st : EvSt, st.evaled 0 = none → evalGate (run loopOps) fuel 0 0 st = .error .outOfFuel := by
    induction fuel with
    | zero => exact fun _ _ => rfl
    | succ fuel ih =>
      intro st h
      show (ensure (evalGate (run loopOps) fuel 0) 0 st >>= fun s => _) = _
      have : ensure (evalGate (run loopOps) fuel 0) 0 st = .error .outOfFuel := by
        unfold ensure
        rw [h]
        exact ih st h
      rw [this]
      rfl
  have h1 : evalOutput (run loopOps) fuel 0 [] =
      (do
        let st ← evalGate (run loopOps) fuel 0 0 EvSt.empty
        let b ← st.bit 0
        let (b, st) ← (.ok (b, st) : Except Err (Bool × EvSt))
        .ok [b]) := by
    show ((evalGate (run loopOps) fuel 0 0 EvSt.empty >>= fun st => _) >>= fun p => _) = _
    rw [key fuel _ rfl]
    rfl
  rw [h1, key fuel _ rfl]
  rfl

/-- the other two reasons: an id never issued, and a module called with too few arguments -/
example : evalOutput (run [.newStorage, .newCircuit 0, .not 0 7, .output 0 0]) 9 0 [] = .error (.unknownGate 7) ∧
    evalOutput (run [.newStorage, .newCircuit 0, .subCircuit 0, .input 1, .not 1 0, .output 1 1, .module 0 0 [], .output 0 0]) 9 0 [] =
      .error (.panic .assertFailed) := ⟨rfl, rfl⟩

/-- the hypotheses of `C62_built` are met by `leftOps` -/
example : Built (run leftOps) 0 :=
  (validRun_of_check leftOps .nil (by decide) : ValidRun (run leftOps)).allBuilt 0 _ rfl

/-- the hypotheses of `C62_release` are met, also with a failing evaluation -/
example : RunR (runR leftOps) ∧ Room (runR leftOps) ∧ evalOutput (runR leftOps) 9 0 [true] = .error (.unknownEvaledBit 1) :=
  ⟨runR_run _, room_of_check (by decide), rfl⟩

end CC.Props
