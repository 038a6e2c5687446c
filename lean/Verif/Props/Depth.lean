import Verif.Proofs.Depth
import Verif.Props.Writer

/-!
# C58: how deep the recursion of the evaluator and of the writer goes

`eval_single_gate` and `write_single_gate` call themselves. The fuel of the model is the number of nested calls of them
that are allowed, so these theorems are about the height of the call stack. C13 and C21 only say that some depth is
enough; here it is computed.
-/

namespace CC.Props
open CC Spec Bristol Spec.Bristol

/-- C58: if no chain of requests starting at an output has more than `n` members (`Within`), evaluation never nests more
than `n` calls, whatever the input vector and in every heap. -/
theorem C58_eval_chain {w : World} {r : Ref} {c : Circuit} (hc : w.circs[r]? = some c) {n : Nat}
    (h : ∀ i o, c.outputMap i = some o → Within w r o n) {fuel : Nat} (hf : n ≤ fuel) (ins : List Bool) :
    evalOutput w fuel r ins ≠ .error .outOfFuel :=
  Within.evalOutput hc (fun i o ho => (h i o ho).mono _ hf) ins

/-- C58: the same for writing, whatever the state of the writer. -/
theorem C58_write_chain {w : World} {r : Ref} {c : Circuit} (hc : w.circs[r]? = some c) {n : Nat}
    (hi : ∀ i g, c.inputMap i = some g → Within w r g n) (h : ∀ i o, c.outputMap i = some o → Within w r o n) {fuel : Nat}
    (hf : n ≤ fuel) (numFirst : Nat) (st : WSt) (wog : Map GateId Nat) :
    write w fuel r numFirst st wog ≠ .error .outOfFuel :=
  within_write hc (fun i g hg => (hi i g hg).mono _ hf) (fun i o ho => (h i o ho).mono _ hf) numFirst st wog

theorem within_of_closed {w : World} (h : Reachable w) {r : Ref} (hb : Built w r) {s : List Ref} (hs : s.Nodup)
    (hr : r ∈ s) (hcl : Closed w s) {c : Circuit} (hc : w.circs[r]? = some c) {g : GateId} (hg : g < c.gateIndex) :
    Within w r g (together w s) := by
  have hsub : ∀ x y, CallsPlus w x y → x ∈ s → y ∈ s := by
    intro x y hxy
    induction hxy with
    | one h1 h2 => intro hx; exact hcl _ hx _ _ h1 h2
    | step h1 h2 _ ih => intro hx; exact ih (hcl _ hx _ _ h1 h2)
  refine (hb.within (WFw.of_reachable h) s hs hr (fun x hx => hsub r x hx hr) c hc g hg).mono _ ?_
  have e := together_erase w hr
  have e1 : size w r = c.gateIndex := by simp [size, hc]
  have := leadOf_le (c := c) g
  omega

/-- C58: for a well-built circuit the recursion is never deeper than the number of gates of the circuits involved: the
circuit itself and those it calls, directly or not, each counted once however often it is called. -/
theorem C58_bound_local {w : World} (h : Reachable w) {r : Ref} (hb : Built w r) {s : List Ref} (hs : s.Nodup)
    (hr : r ∈ s) (hcl : Closed w s) {fuel : Nat} (hf : together w s ≤ fuel) :
    (∀ ins, evalOutput w fuel r ins ≠ .error .outOfFuel) ∧
    ∀ numFirst st wog, write w fuel r numFirst st wog ≠ .error .outOfFuel := by
  have hw := WFw.of_reachable h
  obtain ⟨c, hc⟩ : ∃ c, w.circs[r]? = some c := by cases hb with | mk hc _ _ _ => exact ⟨_, hc⟩
  have hwf := hw.circ r c hc
  have hout : ∀ i o, c.outputMap i = some o → Within w r o (together w s) := fun i o ho =>
    within_of_closed h hb hs hr hcl hc (hwf.output_gate i o ho)
  refine ⟨C58_eval_chain hc hout hf, C58_write_chain hc (fun i g hg => ?_) hout hf⟩
  exact within_of_closed h hb hs hr hcl hc (hwf.lt_of_some ((hwf.input_iff i g).mp hg))

theorem closed_range {w : World} (hb : ∀ (r : Ref) c, w.circs[r]? = some c → Built w r) :
    Closed w (List.range w.circs.length) := by
  intro r _ c mr hc hcall
  cases hb r c hc with
  | mk hc' _ hok _ =>
    rw [hc] at hc'; cases hc'
    obtain ⟨g, nIn, nOut, ids, oi, mid, h1, h2⟩ := hcall
    obtain ⟨mr', mc, h3, h4, _⟩ := hok g nIn nOut ids oi mid h1
    rw [h2] at h3; cases h3
    exact List.mem_range.mpr (List.getElem?_eq_some_iff.mp h4).1

/-- C58: in a heap built by valid calls, neither evaluating nor writing any circuit nests more calls than there are gates
in the heap. -/
theorem C58_bound {w : World} (h : ValidRun w) {r : Ref} {c : Circuit} (hc : w.circs[r]? = some c) {fuel : Nat}
    (hf : gates w ≤ fuel) : (∀ ins, evalOutput w fuel r ins ≠ .error .outOfFuel) ∧
    ∀ numFirst st wog, write w fuel r numFirst st wog ≠ .error .outOfFuel :=
  C58_bound_local h.reachable (h.allBuilt r c hc) List.nodup_range
    (List.mem_range.mpr (List.getElem?_eq_some_iff.mp hc).1) (closed_range h.allBuilt)
    (by rw [together_range]; exact hf)

/-- C58: hence evaluation of readable circuits succeeds at that depth (C11 with the depth made explicit). -/
theorem C58_eval {w : World} (h : ValidRun w)
    (hread : ∀ (q : Ref) c i o, w.circs[q]? = some c → c.outputMap i = some o → Readable c i o)
    {r : Ref} {c : Circuit} (hc : w.circs[r]? = some c) {fuel : Nat} (hf : gates w ≤ fuel) {ins : List Bool}
    (hl : ins.length = c.inputLen) : ∃ outs, evalOutput w fuel r ins = .ok outs ∧ Outputs w r ins outs := by
  obtain ⟨F, hF⟩ := C11_partial h hread hc
  obtain ⟨outs, h1, h2⟩ := hF (max F fuel) (Nat.le_max_left ..) ins hl
  rw [C13_stable w ((C58_bound h hc hf).1 ins) (Nat.le_max_right ..)] at h1
  exact ⟨outs, h1, h2⟩

/-- C58: and writing succeeds at that depth, with the result of C19–C21. -/
theorem C58_write {w : World} (h : ValidRun w) {r : Ref} {c : Circuit} (hc : w.circs[r]? = some c) {numFirst : Nat}
    (hn : numFirst ≤ c.inputLen + c.numConst) {fuel : Nat} (hf : gates w ≤ fuel) :
    ∃ res ls, write w fuel r numFirst WSt.new Map.empty = .ok res ∧ Wrote w r c numFirst res ls := by
  obtain ⟨res, ls, h1, _⟩ := wrote_file h.wf (h.allBuilt r c hc) hc hn
  obtain ⟨F, hF⟩ := h1.1
  have h2 := hF (max F fuel) (Nat.le_max_left ..)
  rw [write_stable ((C58_bound h hc hf).2 numFirst WSt.new Map.empty) (Nat.le_max_right ..)] at h2
  exact ⟨res, ls, h2, h1⟩

/-! ### no smaller bound in terms of the number of gates -/

/-- a constant negated `n` times; the last gate is the output -/
def chain (n : Nat) : List Op :=
  [.newStorage, .newCircuit 0, .constant 0 true] ++ (List.range n).map (fun i => .not 0 i) ++ [.output 0 n]

/-- the heap of `chain n`, before the output is declared -/
structure ChainAt (w : World) (c : Circuit) (n : Nat) : Prop where
  valid : ValidRun w
  only : w.circs = [c]
  gates : c.gateIndex = n + 1
  const : c.gateMap 0 = some (.const true)
  nots : ∀ i < n, c.gateMap (i + 1) = some (.not i)
  above : ∀ i, n < i → c.gateMap i = none
  consts : c.constGates = [0]
  inputs : c.inputLen = 0
  outputs : c.outputLen = 0
  numConst : c.numConst = 1

theorem ChainAt.notCalled {w : World} {c : Circuit} {n : Nat} (h : ChainAt w c n) : ¬ Called w 0 := by
  rintro ⟨q, c', hq, g, nIn, nOut, ids, oi, mid, hg, _⟩
  rw [h.only] at hq
  cases q with
  | succ q => simp at hq
  | zero =>
    simp at hq; subst hq
    cases g with
    | zero => rw [h.const] at hg; cases hg
    | succ i =>
      by_cases hi : i < n
      · rw [h.nots i hi] at hg; cases hg
      · rw [h.above _ (by omega)] at hg; cases hg

theorem ChainAt.has {w : World} {c : Circuit} {n : Nat} (h : ChainAt w c n) : HasGate w 0 n := by
  have : ∃ gate, c.gateMap n = some gate := by
    cases n with
    | zero => exact ⟨_, h.const⟩
    | succ i => exact ⟨_, h.nots i (by omega)⟩
  obtain ⟨gate, hg⟩ := this
  refine ⟨gate, ?_⟩
  simp [World.getGate, World.circuit, h.only, hg, bind, Except.bind]

theorem chain_start : ∃ c, ChainAt (run [.newStorage, .newCircuit 0, .constant 0 true]) c 0 := by
  refine ⟨_, validRun_of_check _ .nil (by decide), rfl, rfl, rfl, by intro i hi; omega, ?_, rfl, rfl, rfl, rfl⟩
  intro i hi
  simp [Circuit.constant, Circuit.addGate, Map.insert, Circuit.new, Map.empty]
  omega

theorem ChainAt.not {w : World} {c : Circuit} {n : Nat} (h : ChainAt w c n) :
    ∃ c', ChainAt ((Op.not 0 n).call w).2 c' (n + 1) := by
  have hcall : ((Op.not 0 n).call w).2 = w.setC 0 (c.not n).2 := by
    simp [Op.call, CC.not, M.bind_apply, M.onCircuit, h.only, M.pure_apply]
  have hmap : (c.not n).2.gateMap = c.gateMap.insert (n + 1) (.not n) := by
    simp only [Circuit.not, Circuit.addDependence, Circuit.addGate, h.gates]; split <;> rfl
  have hrest : (c.not n).2.gateIndex = c.gateIndex + 1 ∧ (c.not n).2.constGates = c.constGates ∧
      (c.not n).2.inputLen = c.inputLen ∧ (c.not n).2.outputLen = c.outputLen ∧ (c.not n).2.numConst = c.numConst := by
    simp only [Circuit.not, Circuit.addDependence, Circuit.addGate]; split <;> exact ⟨rfl, rfl, rfl, rfl, rfl⟩
  refine ⟨(c.not n).2, .step _ h.valid ⟨h.notCalled, h.has⟩, ?_, ?_, ?_, ?_, ?_, ?_, ?_, ?_, ?_⟩
  · rw [hcall]; simp [World.setC, h.only]
  · rw [hrest.1, h.gates]
  · rw [hmap]; simp [Map.insert, h.const]
  · intro i hi
    rw [hmap]
    by_cases e : i = n
    · subst e; simp [Map.insert]
    · simp [Map.insert, e, h.nots i (by omega)]
  · intro i hi
    rw [hmap]
    simp [Map.insert, show i ≠ n + 1 by omega, h.above i (by omega)]
  · rw [hrest.2.1, h.consts]
  · rw [hrest.2.2.1, h.inputs]
  · rw [hrest.2.2.2.1, h.outputs]
  · rw [hrest.2.2.2.2, h.numConst]

theorem chain_nots : ∀ n, ∃ c, ChainAt (run ([.newStorage, .newCircuit 0, .constant 0 true] ++
    (List.range n).map (fun i => .not 0 i))) c n
  | 0 => chain_start
  | n + 1 => by
    obtain ⟨c, h⟩ := chain_nots n
    rw [List.range_succ, List.map_append, ← List.append_assoc]
    unfold run at h ⊢
    rw [List.foldl_append]
    exact h.not

/-- the heap of `chain n` -/
theorem chain_heap (n : Nat) : ∃ w c, ChainAt w c n ∧ ValidRun (run (chain n)) ∧
    run (chain n) = w.setC 0 { c with outputMap := c.outputMap.insert 0 n, outputLen := 1 } := by
  obtain ⟨c, h⟩ := chain_nots n
  have e : run (chain n) = ((Op.output 0 n).call (run ([.newStorage, .newCircuit 0, .constant 0 true] ++
    (List.range n).map (fun i => .not 0 i)))).2 := by
    unfold run chain; rw [List.foldl_append]; rfl
  generalize run ([.newStorage, .newCircuit 0, .constant 0 true] ++ (List.range n).map (fun i => .not 0 i)) = w at h e
  refine ⟨_, c, h, ?_, ?_⟩
  · rw [e]; exact .step _ h.valid h.notCalled
  · rw [e]
    have hg : ∃ gate, c.gateMap n = some gate := by
      cases n with
      | zero => exact ⟨_, h.const⟩
      | succ i => exact ⟨_, h.nots i (by omega)⟩
    obtain ⟨gate, hg⟩ := hg
    simp [Op.call, CC.output, M.bind_apply, M.onCircuit, h.only, M.pure_apply, Circuit.output, hg, h.outputs]

theorem chain_circ (n : Nat) : ValidRun (run (chain n)) ∧ ∃ c, (run (chain n)).circs = [c] ∧ c.gateIndex = n + 1 ∧
    c.gateMap 0 = some (.const true) ∧ (∀ i < n, c.gateMap (i + 1) = some (.not i)) ∧ (∀ i, n < i → c.gateMap i = none) ∧
    c.constGates = [0] ∧ c.inputLen = 0 ∧ c.numConst = 1 ∧ c.outputLen = 1 ∧ c.outputMap 0 = some n := by
  obtain ⟨w, c, h, hv, e⟩ := chain_heap n
  refine ⟨hv, { c with outputMap := c.outputMap.insert 0 n, outputLen := 1 }, ?_, h.gates, h.const, h.nots, h.above, h.consts, h.inputs,
    h.numConst, rfl, ?_⟩
  · rw [e]; simp [World.setC, h.only]
  · simp [Map.insert]

theorem chain_eval {w : World} {c : Circuit} {n : Nat} (hc : w.circs[0]? = some c)
    (hn : ∀ i < n, c.gateMap (i + 1) = some (.not i)) {st : EvSt} (hst : ∀ i, st.evaled i = none) :
    ∀ k g, k ≤ g → g ≤ n → evalGate w k 0 g st = .error .outOfFuel
  | 0, _, _, _ => rfl
  | k + 1, g, hk, hg => by
    obtain ⟨g, rfl⟩ : ∃ i, g = i + 1 := ⟨g - 1, by omega⟩
    unfold evalGate
    rw [bind_of_ok (circuit_of hc), hn g (by omega)]
    simp only [ensure, hst]
    rw [chain_eval hc hn hst k g (by omega) (by omega)]
    rfl

theorem chain_write {w : World} {c : Circuit} {n : Nat} (hc : w.circs[0]? = some c)
    (hn : ∀ i < n, c.gateMap (i + 1) = some (.not i)) {s : WS} (hs : ∀ i, s.2 (i + 1) = none) :
    ∀ k g, k ≤ g → g < n → writeGate w k 0 (g + 1) (.not g) s = .error .outOfFuel
  | 0, _, _, _ => rfl
  | k + 1, g, hk, hg => by
    obtain ⟨g, rfl⟩ : ∃ i, g = i + 1 := ⟨g - 1, by omega⟩
    unfold writeGate
    rw [bind_of_ok (circuit_of hc)]
    simp only [Gate.operands, ensureWires, ensureWire, hs, hn g (by omega)]
    rw [chain_write hc hn hs k g (by omega) (by omega)]
    rfl

/-- C58: no smaller bound in terms of the number of gates is enough for the evaluator, and none smaller by more than
two for the writer: for every `n` there is a circuit built by valid calls with `n + 3` gates, alone in the heap, whose
evaluation nests more than `n + 2` calls and whose output nests more than `n`. The call stack grows linearly with the
circuit. -/
theorem C58_tight (n : Nat) : ∃ w, ValidRun w ∧ gates w = n + 3 ∧ evalOutput w (n + 2) 0 [] = .error .outOfFuel ∧
    write w n 0 0 WSt.new Map.empty = .error .outOfFuel := by
  obtain ⟨hv, c, hcs, hg, h0, hn, ha, hk, hi, hkn, ho, hom⟩ := chain_circ (n + 2)
  have hc : (run (chain (n + 2))).circs[0]? = some c := by simp [hcs]
  refine ⟨_, hv, ?_, ?_, ?_⟩
  · simp [gates, hcs, hg]
  · unfold evalOutput
    rw [bind_of_ok (circuit_of hc)]
    simp only [evalOutputWith, hi, ho, seedInputs, evalOutputs, evalSingleOutput, hom]
    have := chain_eval hc hn (st := EvSt.empty) (fun _ => rfl) (n + 2) (n + 2) (Nat.le_refl _) (Nat.le_refl _)
    simp [bind, Except.bind, EvSt.empty, Map.empty] at this ⊢
    rw [this]
  · unfold write
    rw [bind_of_ok (circuit_of hc)]
    simp only [hi, hkn, writeInputs, writeAll, hk, writeConsts, h0, ho, writePass1, hom, hn (n + 1) (by omega)]
    simp [bind, Except.bind, Gate.operands, ensureWires, ensureWire, hn n (by omega), Map.insert, Map.empty]
    rw [chain_write hc hn (by intro i; simp [Map.insert, Map.empty]) n n (Nat.le_refl _) (by omega)]

/-- … while one level more is enough for the evaluator, and the result is the right one. -/
theorem C58_tight_ok (n : Nat) : gates (run (chain n)) = n + 1 ∧
    evalOutput (run (chain n)) (n + 1) 0 [] = .ok [n % 2 == 0] := by
  obtain ⟨hv, c, hcs, hg, h0, hn, ha, hk, hi, hkn, ho, hom⟩ := chain_circ n
  have hc : (run (chain n)).circs[0]? = some c := by simp [hcs]
  have hgates : gates (run (chain n)) = n + 1 := by simp [gates, hcs, hg]
  have hwf := hv.wf.circ 0 c hc
  have hom' : ∀ i o, c.outputMap i = some o → i = 0 ∧ o = n := by
    intro i o h
    have h1 : i < c.outputLen := (hwf.output_dom i).mp (by rw [h]; rfl)
    have : i = 0 := by omega
    subst this
    rw [hom] at h; cases h; exact ⟨rfl, rfl⟩
  have hread : ∀ (q : Ref) c i o, (run (chain n)).circs[q]? = some c → c.outputMap i = some o → Readable c i o := by
    intro q c' i o hq h
    rw [hcs] at hq
    cases q with
    | succ q => simp at hq
    | zero =>
      simp at hq; subst hq
      obtain ⟨rfl, rfl⟩ := hom' i o h
      left
      intro g gate hgate
      cases g with
      | zero => rw [h0] at hgate; cases hgate; simp [Gate.operands]
      | succ i =>
        by_cases hi : i < o
        · rw [hn i hi] at hgate; cases hgate; simp [Gate.operands]; omega
        · rw [ha _ (by omega)] at hgate; cases hgate
  obtain ⟨outs, he, c', hc', hl, hlo, hv'⟩ := C58_eval hv hread hc (fuel := n + 1) (by omega) (ins := []) (by simp [hi])
  rw [hc] at hc'; cases hc'
  have hval : ∀ g, g ≤ n → Val (run (chain n)) 0 [] g (g % 2 == 0) := by
    intro g
    induction g with
    | zero => intro _; exact .const hc h0
    | succ g ih =>
      intro hg
      have e : ((g + 1) % 2 == 0) = !(g % 2 == 0) := by
        rcases Nat.mod_two_eq_zero_or_one g with h | h <;> simp [Nat.add_mod, h]
      rw [e]
      exact .not hc (hn g (by omega)) (ih (by omega))
  rw [ho] at hlo
  obtain ⟨b, rfl⟩ : ∃ b, outs = [b] := List.length_eq_one_iff.mp hlo
  obtain ⟨o, h1, h2⟩ := hv' 0 b rfl
  obtain ⟨_, rfl⟩ := hom' 0 o h1
  rw [h2.det (hval o (Nat.le_refl _))] at he
  exact ⟨hgates, he⟩

/-- two calls of a module and shared gates: the bound is 16, depth 6 is reached -/
example : gates (run nested) = 16 ∧ Built (run nested) 0 ∧ Closed (run nested) [0, 1] ∧ together (run nested) [0, 1] = 16 ∧
    evalOutput (run nested) 5 0 [true, true] = .error .outOfFuel ∧
    write (run nested) 3 0 0 WSt.new Map.empty = .error .outOfFuel := by
  refine ⟨rfl, nested_valid.allBuilt 0 _ rfl, ?_, rfl, rfl, rfl⟩
  exact closed_range nested_valid.allBuilt

example : gates (run (chain 5)) = 6 ∧ evalOutput (run (chain 5)) 5 0 [] = .error .outOfFuel ∧
    evalOutput (run (chain 5)) 6 0 [] = .ok [false] ∧
    write (run (chain 5)) 3 0 0 WSt.new Map.empty = .error .outOfFuel := ⟨rfl, rfl, rfl, rfl⟩

/-- C58_bound and C58_write for `nested`; C58_bound_local, C58_eval_chain and C58_write_chain with the same number -/
example : (∀ ins, evalOutput (run nested) 16 0 ins ≠ .error .outOfFuel) ∧
    ∃ res ls, write (run nested) 16 0 1 WSt.new Map.empty = .ok res ∧ Wrote (run nested) 0 (run nested).circs[0] 1 res ls :=
  ⟨(C58_bound nested_valid (r := 0) rfl (Nat.le_refl 16)).1, C58_write nested_valid (r := 0) rfl (by decide) (Nat.le_refl 16)⟩

end CC.Props
