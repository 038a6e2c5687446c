import Verif.Proofs.Check
import Verif.Props.Circuit

/-!
# C10–C15: the evaluator

`Val w r ins g b` (`Spec/Semantics.lean`) is the truth-table meaning of gate `g` of circuit `r`; `Outputs w r ins outs`
says that `outs` are the values of the output gates, one per output.
-/

namespace CC.Props
open CC Spec

/-- C10: a bit vector returned by the evaluator is the vector of truth-table values of the outputs. -/
theorem C10_sound {w : World} (h : Reachable w) {fuel : Nat} {r : Ref} {ins outs : List Bool}
    (he : evalOutput w fuel r ins = .ok outs) : Outputs w r ins outs :=
  evalOutput_sound (WFw.of_reachable h) he

/-- C10: the truth-table value of a gate is unique, so "the" value is meaningful. -/
theorem C10_unique {w : World} {r : Ref} {ins : List Bool} {g : GateId} {a b : Bool} (h1 : Val w r ins g a)
    (h2 : Val w r ins g b) : a = b := h1.det h2

/-- C10: on circuits built by valid calls every gate has a truth-table value, so the specification is not empty. -/
theorem C10_total {w : World} (h : ValidRun w) {r : Ref} {c : Circuit} (hc : w.circs[r]? = some c) {ins : List Bool}
    (hl : ins.length = c.inputLen) {g : GateId} (hg : HasGate w r g) : ∃ b, Val w r ins g b :=
  (h.allBuilt r c hc).total h.wf hc hl g (hg.lt h.wf hc)

/-- playing a list of calls -/
def run (ops : List Op) : World := ops.foldl (fun w op => (op.call w).2) World.empty

/-- circuit 1 has outputs NAND and XOR of its two inputs and is called twice by circuit 0, which also has a constant and
an XNOR, shares gates and has three outputs -/
def nested : List Op :=
  [.newStorage, .newCircuit 0, .subCircuit 0,
   .input 1, .input 1, .and 1 0 1, .not 1 2, .output 1 3, .xor 1 0 1, .output 1 4,
   .input 0, .input 0, .constant 0 true, .module 0 0 [0, 1], .equivalent 0 3 2, .module 0 0 [6, 4],
   .output 0 7, .output 0 8, .identity 0 6, .output 0 10]

theorem run_reachable (ops : List Op) : Reachable (run ops) := by
  suffices h : ∀ (ops : List Op) w, Reachable w → Reachable (ops.foldl (fun w op => (op.call w).2) w) from
    h ops _ ⟨[], .nil⟩
  intro ops
  induction ops with
  | nil => intro w h; exact h
  | cons op ops ih => intro w h; obtain ⟨evs, h⟩ := h; exact ih _ ⟨_, .step op h⟩

example : evalOutput (run nested) 6 0 [true, true] = .ok [true, false, false] ∧
    evalOutput (run nested) 6 0 [true, false] = .ok [false, false, true] := ⟨rfl, rfl⟩

/-! ### C11 -/

/-- input `a`, `n = ¬a`, outputs `n`, `a` -/
def evicted : List Op := [.newStorage, .newCircuit 0, .input 0, .not 0 0, .output 0 1, .output 0 0]

theorem evicted_valid : ValidRun (run evicted) := validRun_of_check evicted .nil (by decide)

theorem nested_valid : ValidRun (run nested) := validRun_of_check nested .nil (by decide)

/-- C11 is false of the code: a circuit built by valid calls (an input and its negation, both outputs, negation first)
on which evaluation fails for every input vector and every recursion depth that does not run out. The evaluator evicts
the input after its last reader and never recomputes it. -/
theorem C11_full_false : ∃ w, ValidRun w ∧ Built w 0 ∧ ∀ b fuel,
    evalOutput w (fuel + 2) 0 [b] = .error (.unknownEvaledBit 0) := by
  refine ⟨run evicted, evicted_valid, ?_, ?_⟩
  · exact evicted_valid.allBuilt 0 _ rfl
  · intro b fuel; rfl

/-- C11, the part that holds: if moreover every output is `Readable` (nobody reads the output gate; or a gate outside
the part needed for earlier outputs reads it; or a module call with several outputs reads it), evaluation succeeds on
every input vector of the right length, for every sufficient recursion depth, and returns the truth-table values. -/
theorem C11_partial {w : World} (h : ValidRun w)
    (hread : ∀ (q : Ref) c i o, w.circs[q]? = some c → c.outputMap i = some o → Readable c i o)
    {r : Ref} {c : Circuit} (hc : w.circs[r]? = some c) :
    ∃ F, ∀ fuel ≥ F, ∀ ins : List Bool, ins.length = c.inputLen →
      ∃ outs, evalOutput w fuel r ins = .ok outs ∧ Outputs w r ins outs := by
  obtain ⟨F, hF⟩ := (h.allBuilt.evaluable hread hc).eval_ok h.wf
  refine ⟨F, fun fuel hf ins hl => ?_⟩
  obtain ⟨outs, h1, _⟩ := hF c hc fuel hf ins hl
  have he : evalOutput w fuel r ins = .ok outs := by
    unfold evalOutput
    rw [bind_of_ok (circuit_of hc)]; exact h1
  exact ⟨outs, he, evalOutput_sound h.wf he⟩

/-- C11, for an arbitrary heap reached by the API and one circuit whose own gates and callees are fine, whatever else
is in the heap. -/
theorem C11_local_partial {w : World} (h : Reachable w) {r : Ref} {c : Circuit} (hc : w.circs[r]? = some c)
    (hev : Evaluable w r) : ∃ F, ∀ fuel ≥ F, ∀ ins : List Bool, ins.length = c.inputLen →
      ∃ outs, evalOutput w fuel r ins = .ok outs ∧ Outputs w r ins outs := by
  have hw := WFw.of_reachable h
  obtain ⟨F, hF⟩ := hev.eval_ok hw
  refine ⟨F, fun fuel hf ins hl => ?_⟩
  obtain ⟨outs, h1, _⟩ := hF c hc fuel hf ins hl
  have he : evalOutput w fuel r ins = .ok outs := by
    unfold evalOutput
    rw [bind_of_ok (circuit_of hc)]; exact h1
  exact ⟨outs, he, evalOutput_sound hw he⟩

example : ValidRun (run nested) ∧
    (∀ (q : Ref) c i o, (run nested).circs[q]? = some c → c.outputMap i = some o → Readable c i o) ∧
    ((run nested).circs[0]?).map (·.outputLen) = some 3 :=
  ⟨nested_valid, readable_of_check nested_valid.wf (by decide), rfl⟩

/-! ### C12 -/

/-- C12: an input vector of the wrong length panics, for every circuit in every heap and every depth. -/
theorem C12_wrong_length (w : World) {r : Ref} {c : Circuit} (hc : w.circs[r]? = some c) {ins : List Bool}
    (hl : ins.length ≠ c.inputLen) (fuel : Nat) : evalOutput w fuel r ins = .error (.panic .assertFailed) := by
  unfold evalOutput
  rw [bind_of_ok (circuit_of hc)]
  unfold evalOutputWith
  rw [if_pos hl]

/-- C12: success implies the right length. -/
theorem C12_ok_length {w : World} {r : Ref} {c : Circuit} (hc : w.circs[r]? = some c) {ins outs : List Bool} {fuel : Nat}
    (he : evalOutput w fuel r ins = .ok outs) : ins.length = c.inputLen := by
  by_cases hl : ins.length = c.inputLen
  · exact hl
  · rw [C12_wrong_length w hc hl fuel] at he; cases he

example : ((run nested).circs[0]?).map (·.inputLen) = some 2 ∧
    evalOutput (run nested) 9 0 [true] = .error (.panic .assertFailed) := ⟨rfl, rfl⟩

/-! ### C13 -/

/-- C13: any outcome other than running out of depth (in particular success) stays the same at every larger depth. -/
theorem C13_stable (w : World) {fuel : Nat} {r : Ref} {ins : List Bool}
    (h : evalOutput w fuel r ins ≠ .error .outOfFuel) {fuel' : Nat} (hf : fuel ≤ fuel') :
    evalOutput w fuel' r ins = evalOutput w fuel r ins := by
  have := evalOutput_stable h (fuel' - fuel)
  rw [show fuel + (fuel' - fuel) = fuel' by omega] at this
  exact this

/-- C13: for every circuit built by valid calls there is a depth, independent of the inputs, that is never exceeded. -/
theorem C13_bound {w : World} (h : ValidRun w) {r : Ref} {c : Circuit} (hc : w.circs[r]? = some c) :
    ∃ F, ∀ fuel ≥ F, ∀ ins, evalOutput w fuel r ins ≠ .error .outOfFuel := by
  obtain ⟨F, hF⟩ := (h.allBuilt r c hc).depth h.wf
  refine ⟨F, fun fuel hf ins => ?_⟩
  unfold evalOutput
  rw [bind_of_ok (circuit_of hc)]
  exact hF c hc fuel hf ins

/-- C13: the same for one well-built circuit in an arbitrary reachable heap. -/
theorem C13_bound_local {w : World} (h : Reachable w) {r : Ref} {c : Circuit} (hc : w.circs[r]? = some c)
    (hb : Built w r) : ∃ F, ∀ fuel ≥ F, ∀ ins, evalOutput w fuel r ins ≠ .error .outOfFuel := by
  obtain ⟨F, hF⟩ := hb.depth (WFw.of_reachable h)
  refine ⟨F, fun fuel hf ins => ?_⟩
  unfold evalOutput
  rw [bind_of_ok (circuit_of hc)]
  exact hF c hc fuel hf ins

example : evalOutput (run nested) 5 0 [true, true] = .error .outOfFuel ∧
    evalOutput (run nested) 6 0 [true, true] = .ok [true, false, false] ∧
    evalOutput (run nested) 60 0 [true, true] = .ok [true, false, false] := ⟨rfl, rfl, rfl⟩

example : ValidRun (run nested) ∧ ((run nested).circs[0]?).isSome := ⟨nested_valid, rfl⟩

/-! ### C14 -/

/-- C14: the value of a module gate is the bit of the same index returned by evaluating the called circuit on the
argument values. -/
theorem C14_gate {w : World} (h : Reachable w) {r mr : Ref} {c : Circuit} {g : GateId} {nIn nOut oi : Nat}
    {ids : List GateId} {mid : ModuleId} (hc : w.circs[r]? = some c)
    (hg : w.getGate r g = .ok (.module nIn nOut ids oi mid)) (hm : w.getModule r mid = .ok mr)
    {ins bits outs : List Bool} (hlen : bits.length = ids.length)
    (hargs : ∀ (i : Nat) x a, ids[i]? = some x → bits[i]? = some a → Val w r ins x a)
    {fuel : Nat} (he : evalOutput w fuel mr bits = .ok outs) {b : Bool} :
    outs[oi]? = some b → Val w r ins g b := by
  intro hb
  obtain ⟨c', hc', hg⟩ := getGate_ok_iff.mp hg
  rw [hc] at hc'; cases hc'
  obtain ⟨mc, hmc, hl1, hl2, hv⟩ := C10_sound h he
  obtain ⟨o, ho, hvo⟩ := hv oi b hb
  refine .module hc hg ?_ hmc hlen hargs hl1 ho hvo
  unfold World.getModule at hm
  rw [bind_of_ok (circuit_of hc)] at hm
  cases e : w.module? c mid with
  | none => rw [e] at hm; cases hm
  | some q => rw [e] at hm; cases hm; rfl

theorem reachable_later {w w' : World} (h : Reachable w) (hl : Later w w') : Reachable w' := by
  induction hl with
  | refl => exact h
  | step op _ ih => obtain ⟨evs, h⟩ := ih; exact ⟨_, .step op h⟩

/-- C14: the gates returned by a successful module call, at any later time: the `i`-th one has the value of the `i`-th
bit of evaluating the callee on the argument values; and an output wire connected to it evaluates to that bit. -/
theorem C14_call {w w1 w2 : World} (h : Reachable w) {r : Ref} {mid : ModuleId} {ids gs : List GateId}
    (hcall : module r mid ids w = (.ok gs, w1)) (hl : Later w1 w2) {mr : Ref} (hm : w.getModule r mid = .ok mr)
    {ins bits outs : List Bool} (hlen : bits.length = ids.length)
    (hargs : ∀ (i : Nat) x a, ids[i]? = some x → bits[i]? = some a → Val w2 r ins x a)
    {fuel : Nat} (he : evalOutput w2 fuel mr bits = .ok outs) {i : Nat} {g : GateId} {b : Bool}
    (hg : gs[i]? = some g) (hb : outs[i]? = some b) :
    Val w2 r ins g b ∧ ∀ fuel' rs k, evalOutput w2 fuel' r ins = .ok rs → w2.outputToGateId r k = .ok g →
      rs[k]? = some b := by
  have hr1 : Reachable w1 := by
    obtain ⟨evs, h⟩ := h
    have : (Op.call (.module r mid ids) w).2 = w1 := by
      have e : (Op.call (.module r mid ids) w).2 = (CC.module r mid ids w).2 := map_world _ _ w
      rw [e, hcall]
    exact ⟨_, this ▸ Run.step (.module r mid ids) h⟩
  have hr2 := reachable_later hr1 hl
  have hw := WFw.of_reachable h
  obtain ⟨hw2, hext⟩ := ext_of_later (WFw.of_reachable hr1) hl
  obtain ⟨c, hc, hmod⟩ : ∃ c, w.circs[r]? = some c ∧ w.module? c mid = some mr := by
    obtain ⟨c, hc, hm⟩ := ok_bind hm
    refine ⟨c, circuit_ok hc, ?_⟩
    cases e : w.module? c mid with
    | none => rw [e] at hm; cases hm
    | some q => rw [e] at hm; cases hm; rfl
  have hne : mr ≠ r := by
    rintro rfl
    unfold CC.module at hcall
    rw [hc] at hcall; simp only at hcall; rw [hmod] at hcall; simp at hcall
  obtain ⟨m, hmc⟩ : ∃ m, w.circs[mr]? = some m := by
    unfold CC.module at hcall
    rw [hc] at hcall; simp only at hcall; rw [hmod] at hcall; simp only at hcall; rw [if_neg hne] at hcall
    cases e : w.circs[mr]? with
    | none => rw [e] at hcall; cases hcall
    | some m => exact ⟨m, rfl⟩
  obtain ⟨_, hgates⟩ := C09_module h hc hm hne hmc (by rw [hcall])
  rw [hcall] at hgates
  obtain ⟨c1, hc1, hg1⟩ := getGate_ok_iff.mp (hgates i g hg).2
  obtain ⟨c2, hc2, hx2⟩ := hext.circs _ _ hc1
  have hg2 : w2.getGate r g = .ok (.module m.inputLen m.outputLen ids i mid) :=
    getGate_ok_iff.mpr ⟨c2, hc2, hx2.gates _ _ hg1⟩
  have hm2 : w2.getModule r mid = .ok mr := by
    refine C07_permanent hr1 hl (C07_permanent h ?_ hm)
    have e : (Op.call (.module r mid ids) w).2 = (CC.module r mid ids w).2 := map_world _ _ w
    have := Later.step (.module r mid ids) (Later.refl w)
    rw [e, hcall] at this; exact this
  have hval := C14_gate hr2 hc2 hg2 hm2 hlen hargs he hb
  refine ⟨hval, ?_⟩
  intro fuel' rs k hrs hk
  obtain ⟨c', hc', _, hl2, hv⟩ := C10_sound hr2 hrs
  rw [hc2] at hc'; cases hc'
  have ho : c2.outputMap k = some g := by
    obtain ⟨c', hc', hk⟩ := ok_bind hk
    have := circuit_ok hc'; rw [hc2] at this; cases this
    cases e : c2.outputMap k with
    | none => rw [e] at hk; cases hk
    | some o => rw [e] at hk; cases hk; rfl
  have hklt : k < rs.length := by
    rw [hl2]; exact ((hw2.circ r c2 hc2).output_dom k).mp (by simp [ho])
  obtain ⟨o, ho', hvo⟩ := hv k rs[k] (List.getElem?_eq_getElem hklt)
  rw [ho] at ho'; cases ho'
  rw [List.getElem?_eq_getElem hklt, hvo.det hval]

example : (module 0 0 [0, 1] (run (nested.take 13))).1 = .ok [3, 4] ∧
    (run nested).getGate 0 4 = .ok (.module 2 2 [0, 1] 1 0) ∧ (run nested).getModule 0 0 = .ok 1 ∧
    evalOutput (run nested) 3 1 [true, false] = .ok [true, true] := ⟨rfl, rfl, rfl, rfl⟩

/-! ### C15 -/

/-- C15: the gate returned by `equivalent a b` is true iff `a` and `b` have the same value, now and in any later heap. -/
theorem C15_equivalent {w w1 w2 : World} (h : Reachable w) {r : Ref} {a b g : GateId}
    (hcall : equivalent r a b w = (.ok g, w1)) (hl : Later w1 w2) {ins : List Bool} {x y : Bool}
    (ha : Val w2 r ins a x) (hb : Val w2 r ins b y) : Val w2 r ins g (decide (x = y)) := by
  have hw := WFw.of_reachable h
  obtain ⟨c, hc⟩ : ∃ c, w.circs[r]? = some c := by
    cases e : w.circs[r]? with
    | some c => exact ⟨c, rfl⟩
    | none =>
      unfold CC.equivalent at hcall
      rw [bind_error (show CC.xor r a b w = (.error .dangling, w) from onCircuit_none e)] at hcall
      cases hcall
  rw [equivalent_eq hc] at hcall
  cases hcall
  have hwf := hw.circ r c hc
  have ap1 := Circuit.xor_appends hwf a b
  have ap2 := Circuit.not_appends (hwf.xor a b) c.gateIndex
  have hw1 : WFw (w.setC r ((c.xor a b).2.not c.gateIndex).2) := by
    have := (good_equivalent r a b w hw).1
    rw [equivalent_eq hc] at this; exact this
  have hg1 : ((c.xor a b).2.not c.gateIndex).2.gateMap c.gateIndex = some (.xor a b) := by
    refine ap2.mono (hwf.xor a b) ?_
    have := ap1.new 0
    simpa using this
  have hg2 : ((c.xor a b).2.not c.gateIndex).2.gateMap (c.gateIndex + 1) = some (.not c.gateIndex) := by
    have := ap2.new 0
    rw [xor_gateIndex] at this
    simpa using this
  obtain ⟨_, hext⟩ := ext_of_later hw1 hl
  obtain ⟨c2, hc2, hx⟩ := hext.circs _ _ (setC_get hc _)
  have := Val.not hc2 (hx.gates _ _ hg2) (Val.xor hc2 (hx.gates _ _ hg1) ha hb)
  cases x <;> cases y <;> exact this

/-- C15: the gate returned by `identity a` has `a`'s value, now and in any later heap. -/
theorem C15_identity {w w1 w2 : World} (h : Reachable w) {r : Ref} {a g : GateId}
    (hcall : identity r a w = (.ok g, w1)) (hl : Later w1 w2) {ins : List Bool} {x : Bool}
    (ha : Val w2 r ins a x) : Val w2 r ins g x := by
  have hw := WFw.of_reachable h
  obtain ⟨c, hc⟩ : ∃ c, w.circs[r]? = some c := by
    cases e : w.circs[r]? with
    | some c => exact ⟨c, rfl⟩
    | none =>
      unfold CC.identity at hcall
      rw [bind_error (show CC.not r a w = (.error .dangling, w) from onCircuit_none e)] at hcall
      cases hcall
  rw [identity_eq hc] at hcall
  cases hcall
  have hwf := hw.circ r c hc
  have ap1 := Circuit.not_appends hwf a
  have ap2 := Circuit.not_appends (hwf.not a) c.gateIndex
  have hw1 : WFw (w.setC r ((c.not a).2.not c.gateIndex).2) := by
    have := (good_identity r a w hw).1
    rw [identity_eq hc] at this; exact this
  have hg1 : ((c.not a).2.not c.gateIndex).2.gateMap c.gateIndex = some (.not a) := by
    refine ap2.mono (hwf.not a) ?_
    have := ap1.new 0
    simpa using this
  have hg2 : ((c.not a).2.not c.gateIndex).2.gateMap (c.gateIndex + 1) = some (.not c.gateIndex) := by
    have := ap2.new 0
    rw [not_gateIndex] at this
    simpa using this
  obtain ⟨_, hext⟩ := ext_of_later hw1 hl
  obtain ⟨c2, hc2, hx⟩ := hext.circs _ _ (setC_get hc _)
  have := Val.not hc2 (hx.gates _ _ hg2) (Val.not hc2 (hx.gates _ _ hg1) ha)
  cases x <;> exact this

example : (equivalent 0 0 1 (run nested)).1 = .ok 12 ∧ (identity 0 4 (run nested)).1 = .ok 12 := ⟨rfl, rfl⟩

/-- gates 0 and 1 have values when `equivalent 0 0 1` is called -/
example : Val (run nested) 0 [true, false] 0 true ∧ Val (run nested) 0 [true, false] 1 false ∧
    Val (run nested) 0 [true, false] 10 true := by
  obtain ⟨c, hc, _, _, hv⟩ := C10_sound (run_reachable nested)
    (show evalOutput (run nested) 6 0 [true, false] = .ok [false, false, true] from rfl)
  refine ⟨.input (k := 0) rfl rfl rfl, .input (k := 1) rfl rfl rfl, ?_⟩
  cases hc
  obtain ⟨o, ho, h⟩ := hv 2 true rfl
  cases ho
  exact h

/-- C14_gate and C10_unique: the second gate of the first call of the module -/
example : Val (run nested) 0 [true, false] 4 true ∧ ¬ Val (run nested) 0 [true, false] 4 false := by
  have h : Val (run nested) 0 [true, false] 4 true := by
    refine C14_gate nested_valid.reachable (mr := 1) (c := (run nested).circs[0]) rfl (nIn := 2) (nOut := 2) (ids := [0, 1]) (oi := 1)
      (mid := 0) rfl rfl (bits := [true, false]) rfl ?_ (fuel := 3) (outs := [true, true]) rfl rfl
    intro i x a h1 h2
    match i with
    | 0 => cases h1; cases h2; exact .input rfl rfl rfl
    | 1 => cases h1; cases h2; exact .input rfl rfl rfl
    | i + 2 => cases h1
  exact ⟨h, fun h' => absurd (C10_unique h h') nofun⟩

/-- C15_equivalent: inputs that differ -/
example : Val (equivalent 0 0 1 (run nested)).2 0 [true, false] 12 false :=
  C15_equivalent nested_valid.reachable rfl (.refl _) (a := 0) (b := 1) (x := true) (y := false) (.input rfl rfl rfl) (.input rfl rfl rfl)

/-- C12_wrong_length, C13_stable and C13_bound -/
example : evalOutput (run nested) 4 0 [true] = .error (.panic .assertFailed) ∧
    evalOutput (run nested) 1000 0 [true, true] = .ok [true, false, false] ∧
    ∃ F, ∀ fuel ≥ F, ∀ ins, evalOutput (run nested) fuel 0 ins ≠ .error .outOfFuel :=
  ⟨C12_wrong_length _ rfl (by decide) 4, C13_stable (run nested) (fuel := 6) (ins := [true, true])
    (by rw [show evalOutput (run nested) 6 0 [true, true] = .ok [true, false, false] from rfl]; nofun) (by decide),
    C13_bound nested_valid rfl⟩

end CC.Props
