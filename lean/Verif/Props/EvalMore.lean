import Verif.Proofs.EvalInd
import Verif.Proofs.EvalFail
import Verif.Props.Evaluator

/-!
# C11: when evaluation fails; C52: success does not depend on the bits
-/

namespace CC.Props
open CC Spec

/-! ### C11 -/

/-- C11, the other direction: evaluation fails on every input and at every depth if some output gate is not `Readable` (it
has readers, all of them needed for earlier outputs) and computing it again would take a second read of an input with no
read to spare (`Drained`). No assumption on the rest of the circuit or on called circuits. -/
theorem C11_fails {w : World} (h : Reachable w) {r : Ref} {c : Circuit} (hc : w.circs[r]? = some c) {i : WireId}
    {o : GateId} (ho : c.outputMap i = some o) (hn : ¬ Readable c i o) (hd : Drained c o) (fuel : Nat)
    (ins outs : List Bool) : evalOutput w fuel r ins ≠ .ok outs :=
  evalOutput_fails (WFw.of_reachable h) hc ho hn hd fuel ins outs

/-- C11, exactly, for well-built circuits without waste (every gate needed for some output, every output dependent on some
input, no module call with several outputs, here and in all called circuits): one evaluation succeeds iff all do iff all
outputs are `Readable`, here and in all called circuits. -/
theorem C11_frugal_iff {w : World} (h : Reachable w) {r : Ref} {c : Circuit} (hc : w.circs[r]? = some c) (hb : Built w r)
    (hf : FrugalAll w r) :
    ((∃ fuel ins outs, evalOutput w fuel r ins = .ok outs) ↔ Evaluable w r) ∧
    ((∃ F, ∀ fuel ≥ F, ∀ ins : List Bool, ins.length = c.inputLen → ∃ outs, evalOutput w fuel r ins = .ok outs) ↔
      Evaluable w r) := by
  have h1 : (∃ fuel ins outs, evalOutput w fuel r ins = .ok outs) → Evaluable w r :=
    fun ⟨_, _, _, he⟩ => frugal_iff (WFw.of_reachable h) hb hf he
  have h2 : Evaluable w r →
      ∃ F, ∀ fuel ≥ F, ∀ ins : List Bool, ins.length = c.inputLen → ∃ outs, evalOutput w fuel r ins = .ok outs := by
    intro he
    obtain ⟨F, hF⟩ := C11_local_partial h hc he
    exact ⟨F, fun fuel hf ins hl => (hF fuel hf ins hl).imp fun _ h => h.1⟩
  have h3 : (∃ F, ∀ fuel ≥ F, ∀ ins : List Bool, ins.length = c.inputLen → ∃ outs, evalOutput w fuel r ins = .ok outs) →
      ∃ fuel ins outs, evalOutput w fuel r ins = .ok outs := by
    rintro ⟨F, hF⟩
    obtain ⟨outs, ho⟩ := hF F (Nat.le_refl F) (List.replicate c.inputLen false) (by simp)
    exact ⟨F, _, outs, ho⟩
  exact ⟨⟨h1, fun he => h3 (h2 he)⟩, ⟨fun hs => h1 (h3 hs), h2⟩⟩

/-- `n = a ∧ b`, `m = ¬n`; outputs `m`, `n` -/
def tapped : List Op :=
  [.newStorage, .newCircuit 0, .input 0, .input 0, .and 0 0 1, .not 0 2, .output 0 3, .output 0 2]

/-- `tapped` without its second output -/
def untapped : List Op := tapped.take 7

theorem tapped_gates {c : Circuit} (hc : (run tapped).circs[0]? = some c) {g : GateId} {gate : Gate}
    (hg : c.gateMap g = some gate) :
    (g = 0 ∧ gate = .input 0) ∨ (g = 1 ∧ gate = .input 1) ∨ (g = 2 ∧ gate = .and 0 1) ∨ (g = 3 ∧ gate = .not 2) := by
  have hlt := ((WFw.of_reachable (run_reachable tapped)).circ 0 c hc).lt_of_some hg
  cases hc
  have h4 : g < 4 := hlt
  match g, h4 with
  | 0, _ => cases hg; exact Or.inl ⟨rfl, rfl⟩
  | 1, _ => cases hg; exact Or.inr (Or.inl ⟨rfl, rfl⟩)
  | 2, _ => cases hg; exact Or.inr (Or.inr (Or.inl ⟨rfl, rfl⟩))
  | 3, _ => cases hg; exact Or.inr (Or.inr (Or.inr ⟨rfl, rfl⟩))

theorem tapped_reach {c : Circuit} (hc : (run tapped).circs[0]? = some c) :
    Reach c 3 2 ∧ Reach c 2 0 ∧ Reach c 2 1 := by
  cases hc
  exact ⟨.operand (gate := .not 2) .refl rfl (by simp [Gate.operands]),
    .operand (gate := .and 0 1) .refl rfl (by simp [Gate.operands]),
    .operand (gate := .and 0 1) .refl rfl (by simp [Gate.operands])⟩

/-- `tapped` satisfies the hypotheses of `C11_fails`: gate 2 is output 1, its only reader is needed for output 0, and its
operand 0 is an input read once -/
example : ∃ c, (run tapped).circs[0]? = some c ∧ c.outputMap 1 = some 2 ∧ ¬ Readable c 1 2 ∧ Drained c 2 := by
  refine ⟨_, rfl, rfl, ?_, ?_⟩
  · rintro (h | ⟨g, gate, hg, hx, h⟩)
    · exact h 3 (.not 2) rfl (by simp [Gate.operands])
    · rcases tapped_gates rfl hg with ⟨rfl, rfl⟩ | ⟨rfl, rfl⟩ | ⟨rfl, rfl⟩ | ⟨rfl, rfl⟩
      · simp [Gate.operands] at hx
      · simp [Gate.operands] at hx
      · simp [Gate.operands] at hx
      · rcases h with h | ⟨_, _, _, _, _, h, _⟩
        · exact h 0 3 (by omega) rfl .refl
        · cases h
  · refine .operand (gate := .and 0 1) (x := 0) rfl (by simp [Gate.operands]) ?_ (.input (k := 0) rfl)
    intro g gate hg hx
    rcases tapped_gates rfl hg with ⟨rfl, rfl⟩ | ⟨rfl, rfl⟩ | ⟨rfl, rfl⟩ | ⟨rfl, rfl⟩
    · simp [Gate.operands] at hx
    · simp [Gate.operands] at hx
    · exact ⟨⟨1, 2, rfl, .refl⟩, by rintro _ _ _ _ _ ⟨⟩⟩
    · simp [Gate.operands] at hx

/-- and indeed -/
example : evalOutput (run tapped) 9 0 [true, true] = .error (.unknownEvaledBit 0) ∧
    evalOutput (run untapped) 9 0 [true, true] = .ok [false] := ⟨rfl, rfl⟩

/-- `tapped` satisfies the hypotheses of `C11_frugal_iff` -/
example : Built (run tapped) 0 ∧ FrugalAll (run tapped) 0 := by
  refine ⟨(validRun_of_check tapped .nil (by decide) : ValidRun (run tapped)).allBuilt 0 _ rfl, .mk rfl ⟨?_, ?_, ?_⟩ ?_⟩
  · intro g gate hg
    obtain ⟨h2, h0, h1⟩ := tapped_reach rfl
    rcases tapped_gates rfl hg with ⟨rfl, rfl⟩ | ⟨rfl, rfl⟩ | ⟨rfl, rfl⟩ | ⟨rfl, rfl⟩
    · exact ⟨0, 3, rfl, h2.trans h0⟩
    · exact ⟨0, 3, rfl, h2.trans h1⟩
    · exact ⟨0, 3, rfl, h2⟩
    · exact ⟨0, 3, rfl, .refl⟩
  · intro i o ho
    have hi := ((WFw.of_reachable (run_reachable tapped)).circ 0 _ rfl).output_dom i |>.mp (by rw [ho]; rfl)
    have hi : i < 2 := hi
    obtain ⟨hr, h0, _⟩ := tapped_reach rfl
    match i, hi with
    | 0, _ => cases ho; exact ⟨0, 0, rfl, hr.trans h0⟩
    | 1, _ => cases ho; exact ⟨0, 0, rfl, h0⟩
  · intro g nIn nOut ids oi mid hg
    rcases tapped_gates rfl hg with ⟨_, h⟩ | ⟨_, h⟩ | ⟨_, h⟩ | ⟨_, h⟩ <;> cases h
  · rintro mr ⟨g, nIn, nOut, ids, oi, mid, hg, _⟩
    rcases tapped_gates rfl hg with ⟨_, h⟩ | ⟨_, h⟩ | ⟨_, h⟩ | ⟨_, h⟩ <;> cases h

/-! ### C52 -/

/-- C52: on two input vectors of the same length the evaluator ends with the same error or succeeds on both. Any heap, any
circuit (also malformed or recursive), any depth. -/
theorem C52_same_error (w : World) (fuel : Nat) (r : Ref) {xs ys : List Bool} (hl : xs.length = ys.length) (e : Err) :
    evalOutput w fuel r xs = .error e ↔ evalOutput w fuel r ys = .error e := by
  have h := evalOutput_like w fuel r hl
  generalize evalOutput w fuel r xs = a at h
  generalize evalOutput w fuel r ys = b at h
  cases h with
  | ok _ => simp
  | error => rfl

/-- C52: one successful evaluation shows that the evaluator computes the circuit's function on all inputs. -/
theorem C52_one_run {w : World} (h : Reachable w) {fuel : Nat} {r : Ref} {xs outs : List Bool}
    (he : evalOutput w fuel r xs = .ok outs) {ys : List Bool} (hl : ys.length = xs.length) :
    ∃ outs', evalOutput w fuel r ys = .ok outs' ∧ Outputs w r ys outs' := by
  cases hy : evalOutput w fuel r ys with
  | error e => rw [(C52_same_error w fuel r hl e).mp hy] at he; cases he
  | ok outs' => exact ⟨outs', rfl, C10_sound h hy⟩

/-- the evaluation of `nested` on `[true, true]` succeeds, that of `evicted` fails on both vectors -/
example : evalOutput (run nested) 6 0 [true, true] = .ok [true, false, false] ∧
    evalOutput (run evicted) 6 0 [true] = .error (.unknownEvaledBit 0) ∧
    evalOutput (run evicted) 6 0 [false] = .error (.unknownEvaledBit 0) := ⟨rfl, rfl, rfl⟩

end CC.Props
