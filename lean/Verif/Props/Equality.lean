import Verif.Proofs.Readers

/-!
# C54: `==` and `clone` of circuits
-/

namespace CC.Props
open CC Spec

/-- **C54.** In every reachable heap, `num_wire = input_len + num_const + num_gate` for every circuit. -/
theorem C54_count {w : World} (h : Reachable w) {r : Ref} {c : Circuit} (hr : w.circs[r]? = some c) :
    c.numWire = c.inputLen + c.numConst + c.numGate :=
  (wireSum_inv.reachable h).get hr

/-- **C54.** `==` need not compare `num_const`: circuits that are equal have the same number of constants. -/
theorem C54_const {w w' : World} (h : Reachable w) (h' : Reachable w') {r r' : Ref} {c d : Circuit}
    (hr : w.circs[r]? = some c) (hr' : w'.circs[r']? = some d) (e : c.Same d) : c.numConst = d.numConst := by
  have h1 := C54_count h hr
  have h2 := C54_count h' hr'
  obtain ⟨_, _, _, _, _, e1, _, e2, e3, _⟩ := e
  omega

/-- **C54.** Of the ten fields that `==` compares, four decide: the gates, the outputs, `num_wire` and `num_gate`. -/
theorem C54_iff {w w' : World} (h : Reachable w) (h' : Reachable w') {r r' : Ref} {c d : Circuit}
    (hr : w.circs[r]? = some c) (hr' : w'.circs[r']? = some d) :
    c.Same d ↔ c.gateMap = d.gateMap ∧ c.outputMap = d.outputMap ∧ c.numWire = d.numWire ∧ c.numGate = d.numGate := by
  constructor
  · rintro ⟨_, h2, h1, _, _, _, _, h3, h4, _⟩
    exact ⟨h1, h2, h3, h4⟩
  · rintro ⟨h1, h2, h3, h4⟩
    exact same_of_gates ((WFw.of_reachable h).circ r c hr) ((WFw.of_reachable h').circ r' d hr') (tracks h hr) (tracks h' hr')
      h1 h2 h3 h4

/-- **C54.** The gates and the outputs do not decide: two circuits with just one input differ after one of them has called a
module that has a gate but no outputs. -/
theorem C54_wires_decide : ∃ w c d, Reachable w ∧ w.circs[0]? = some c ∧ w.circs[1]? = some d ∧ c.gateMap = d.gateMap ∧
    c.outputMap = d.outputMap ∧ ¬ c.Same d := by
  refine ⟨(play [.newStorage, .newCircuit 0, .newCircuit 0, .subCircuit 0, .input 2, .input 0, .input 1, .not 2 0, .module 0 0 [0]]
    (World.empty, [])).1, _, _, ⟨_, play_run _ Run.nil⟩, rfl, rfl, rfl, rfl, ?_⟩
  rintro ⟨_, _, _, _, _, _, _, h, _⟩
  revert h
  decide

/-- **C54, partial.** Equal circuits evaluate to the same result, success or error, for every input and recursion depth, and
have the same truth tables, provided that every module id used in a call means the same module in both. Missing for the full
claim: `==` does not compare the module storages, see `C54_false`. -/
theorem C54_partial (w : World) {r r' : Ref} {c d : Circuit} (hr : w.circs[r]? = some c) (hr' : w.circs[r']? = some d)
    (e : c.Same d)
    (hm : ∀ g nIn nOut ids oi mid, c.gateMap g = some (.module nIn nOut ids oi mid) → w.module? c mid = w.module? d mid) :
    (∀ fuel ins, evalOutput w fuel r ins = evalOutput w fuel r' ins) ∧
      ∀ ins g b, Val w r ins g b ↔ Val w r' ins g b :=
  ⟨evalOutput_same hr hr' e hm, fun _ _ _ => ⟨val_same hr hr' e hm, val_same hr' hr e.symm (SameCalls.symm e hm)⟩⟩

/-- **C54.** In particular for circuits without module calls, -/
theorem C54_plain (w : World) {r r' : Ref} {c d : Circuit} (hr : w.circs[r]? = some c) (hr' : w.circs[r']? = some d)
    (e : c.Same d) (hm : ∀ g nIn nOut ids oi mid, c.gateMap g ≠ some (.module nIn nOut ids oi mid)) :
    (∀ fuel ins, evalOutput w fuel r ins = evalOutput w fuel r' ins) ∧
      ∀ ins g b, Val w r ins g b ↔ Val w r' ins g b :=
  C54_partial w hr hr' e fun g nIn nOut ids oi mid h => absurd h (hm g nIn nOut ids oi mid)

/-- **C54.** and for circuits on the same module storage. -/
theorem C54_storage (w : World) {r r' : Ref} {c d : Circuit} (hr : w.circs[r]? = some c) (hr' : w.circs[r']? = some d)
    (e : c.Same d) (hs : c.storage = d.storage) :
    (∀ fuel ins, evalOutput w fuel r ins = evalOutput w fuel r' ins) ∧
      ∀ ins g b, Val w r ins g b ↔ Val w r' ins g b :=
  C54_partial w hr hr' e fun g nIn nOut ids oi mid _ => by simp only [World.module?, hs]

/-- **C54.** A clone is a new circuit, equal to the original, which evaluates to the same results and has the same truth
tables; nothing else changes. -/
theorem C54_clone (w : World) {r : Ref} {c : Circuit} (hr : w.circs[r]? = some c) :
    ∃ n w', cloneCircuit r w = (.ok n, w') ∧ w.circs[n]? = none ∧ w'.circs[n]? = some c ∧ w'.stores = w.stores ∧
      (∀ r', r' ≠ n → w'.circs[r']? = w.circs[r']?) ∧
      (∀ fuel ins, evalOutput w' fuel n ins = evalOutput w' fuel r ins) ∧
      ∀ ins g b, Val w' n ins g b ↔ Val w' r ins g b := by
  have hlt := (List.getElem?_eq_some_iff.mp hr).1
  have hn : (w.circs ++ [c])[w.circs.length]? = some c := by simp
  have hr' : (w.circs ++ [c])[r]? = some c := by rw [List.getElem?_append_left hlt]; exact hr
  have same : c.Same c := ⟨rfl, rfl, rfl, rfl, rfl, rfl, rfl, rfl, rfl, rfl⟩
  have key := C54_storage { w with circs := w.circs ++ [c] } hn hr' same rfl
  refine ⟨w.circs.length, { w with circs := w.circs ++ [c] }, by simp only [cloneCircuit, hr], by simp, hn, rfl, ?_,
    key.1, key.2⟩
  intro r' h
  by_cases hl : r' < w.circs.length
  · exact List.getElem?_append_left hl
  · rw [List.getElem?_eq_none (by omega : w.circs.length ≤ r'), List.getElem?_eq_none]
    simp only [List.length_append, List.length_cons, List.length_nil]
    omega

/-- two storages; in the first, module 0 is NOT, in the second, module 0 is the constant 0, computed as `x ⊕ x`; one circuit
on each storage calls its module 0 -/
def lookalikeOps : List Op :=
  [.newStorage, .newStorage,
    .newCircuit 0, .input 0, .not 0 0, .output 0 1, .registerModule 0 0,
    .newCircuit 1, .input 1, .xor 1 0 0, .output 1 1, .registerModule 1 1,
    .newCircuit 0, .input 2, .module 2 0 [0], .output 2 1,
    .newCircuit 1, .input 3, .module 3 0 [0], .output 3 1]

def lookalikes : World := (play lookalikeOps (World.empty, [])).1

/-- **C54, false of the code as stated.** Two circuits of a reachable heap compare equal but compute different functions:
one negates its input, the other is constantly 0. -/
theorem C54_false :
    Reachable lookalikes ∧
      ∃ c d, lookalikes.circs[2]? = some c ∧ lookalikes.circs[3]? = some d ∧ c.Same d ∧ d.Same c ∧
        evalOutput lookalikes 5 2 [false] = .ok [true] ∧ evalOutput lookalikes 5 3 [false] = .ok [false] :=
  ⟨⟨_, play_run lookalikeOps Run.nil⟩, _, _, rfl, rfl, ⟨rfl, rfl, rfl, rfl, rfl, rfl, rfl, rfl, rfl, rfl⟩,
    ⟨rfl, rfl, rfl, rfl, rfl, rfl, rfl, rfl, rfl, rfl⟩, rfl, rfl⟩

/-- equal circuits without module calls on different storages: `C54_plain` applies -/
def twins : World := (play [.newStorage, .newStorage, .newCircuit 0, .newCircuit 1, .input 0, .constant 0 true, .xor 0 0 1,
  .output 0 2, .input 1, .constant 1 true, .xor 1 0 1, .output 1 2] (World.empty, [])).1

example : ∃ c d, twins.circs[0]? = some c ∧ twins.circs[1]? = some d ∧ c.Same d ∧ c.storage ≠ d.storage ∧
    evalOutput twins 5 0 [true] = .ok [false] ∧ evalOutput twins 5 1 [true] = .ok [false] :=
  ⟨_, _, rfl, rfl, ⟨rfl, rfl, rfl, rfl, rfl, rfl, rfl, rfl, rfl, rfl⟩, by decide, rfl, rfl⟩

/-- a clone of a circuit that calls a module -/
example : evalOutput (cloneCircuit 2 lookalikes).2 5 4 [false] = .ok [true] := rfl

/-- circuits that differ in a constant are not equal -/
example (c d : Circuit) (g : GateId) (hc : c.gateMap g = some (.const true)) (hd : d.gateMap g = some (.const false)) :
    ¬c.Same d := by
  rintro ⟨_, _, h, _⟩
  rw [h, hd] at hc
  cases hc

/-- the counters of a circuit calling a module with a constant: 1 input, 1 constant, 2 gates -/
def counted : World := (play [.newStorage, .newCircuit 0, .input 0, .constant 0 true, .xor 0 0 1, .output 0 2,
  .registerModule 0 0, .newCircuit 0, .input 1, .module 1 0 [0], .not 1 1, .output 1 2] (World.empty, [])).1

example : ∃ c, counted.circs[1]? = some c ∧ c.numWire = 4 ∧ c.inputLen = 1 ∧ c.numConst = 1 ∧ c.numGate = 2 :=
  ⟨_, rfl, rfl, rfl, rfl, rfl⟩

end CC.Props
