import Verif.Proofs.Api

/-!
# The state of every circuit as a function of the history
-/

set_option linter.unusedSimpArgs false

namespace CC
open Spec

/-- circuit `c` is what the calls it went through say -/
structure Hist (evs : List Ev) (c : Circuit) : Prop where
  created : evs.flatMap Ev.created = List.range c.gateIndex
  inputs : ∀ k, c.inputMap k = (evs.flatMap Ev.inputs)[k]?
  inputLen : c.inputLen = (evs.flatMap Ev.inputs).length
  outputs : ∀ k, c.outputMap k = (evs.flatMap Ev.outputs)[k]?
  outputLen : c.outputLen = (evs.flatMap Ev.outputs).length
  consts : (evs.flatMap Ev.consts).map (·.1) = c.constGates
  constVals : ∀ g v, (g, v) ∈ evs.flatMap Ev.consts → c.gateMap g = some (.const v)
  numGate : c.numGate = total Ev.logicGates evs + total (Ev.ofCallee (·.numGate)) evs
  numConst : c.numConst = (evs.flatMap Ev.consts).length + total (Ev.ofCallee (·.numConst)) evs
  numWire : c.numWire = (evs.flatMap Ev.inputs).length + (evs.flatMap Ev.consts).length +
    total Ev.logicGates evs + total (Ev.ofCallee (fun m => m.numWire - m.inputLen)) evs

theorem total_append (f : Ev → Nat) (a b : List Ev) : total f (a ++ b) = total f a + total f b := by
  simp [total]

theorem total_single (f : Ev → Nat) (e : Ev) : total f [e] = f e := by simp [total]

/-- an event that says nothing about the circuit -/
structure Quiet (e : Ev) : Prop where
  returned : e.returned = []
  inner : e.inner = []
  inputs : e.inputs = []
  outputs : e.outputs = []
  consts : e.consts = []
  callee : ∀ f, e.ofCallee f = 0
  logic : e.logicGates = 0

theorem Hist.quiet {evs c e} (h : Hist evs c) (q : Quiet e) : Hist (evs ++ [e]) c := by
  have hc : e.created = [] := by unfold Ev.created; rw [q.returned, q.inner]; rfl
  constructor
  · rw [List.flatMap_append]; simp [hc, h.created]
  · intro k; rw [List.flatMap_append]; simp [q.inputs, h.inputs]
  · rw [List.flatMap_append]; simp [q.inputs, h.inputLen]
  · intro k; rw [List.flatMap_append]; simp [q.outputs, h.outputs]
  · rw [List.flatMap_append]; simp [q.outputs, h.outputLen]
  · rw [List.flatMap_append]; simp [q.consts, h.consts]
  · rw [List.flatMap_append]; simp only [List.flatMap_cons, q.consts, List.flatMap_nil, List.append_nil]
    exact h.constVals
  · simp [total_append, total_single, q.logic, q.callee, h.numGate]
  · simp [total_append, total_single, q.callee, q.consts, h.numConst]
  · simp [total_append, total_single, q.callee, q.logic, q.consts, q.inputs, h.numWire]

theorem quiet_error (op : Op) (pre : World) (e : Err) : Quiet ⟨op, pre, .error e⟩ := by
  constructor <;>
    first
    | (intro f; cases op <;> rfl)
    | (cases op <;> rfl)

theorem trace_target {e : Ev} {r : Ref} (h : e.op.target = some r) (evs : List Ev) :
    trace r (evs ++ [e]) = trace r evs ++ [e] := by
  obtain ⟨op, pre, res⟩ := e
  unfold trace
  rw [List.reverse_append, List.reverse_singleton, List.singleton_append]
  cases op <;> simp only [Op.target, Option.some.injEq, reduceCtorEq] at h <;> subst h <;> simp [traceRev, Op.target]

theorem trace_clone {op : Op} {w : World} {r n : Ref} (h : op = .clone r) (evs : List Ev) :
    trace n (evs ++ [⟨op, w, .ok (.circuit n)⟩]) = trace r evs := by
  subst h
  unfold trace
  rw [List.reverse_append, List.reverse_singleton, List.singleton_append]
  simp [traceRev]

theorem trace_other {e : Ev} {r : Ref} (h : e.op.target ≠ some r) (hc : ∀ r', e.op = .clone r' → e.res ≠ .ok (.circuit r))
    (evs : List Ev) : trace r (evs ++ [e]) = trace r evs := by
  obtain ⟨op, pre, res⟩ := e
  unfold trace
  rw [List.reverse_append, List.reverse_singleton, List.singleton_append]
  rw [traceRev]
  split
  · next r' n h1 h2 =>
    simp only at h1 h2
    rw [if_neg]
    rintro rfl
    exact hc r' h1 h2
  · rw [if_neg h]

theorem Hist.nil (s : StoreRef) : Hist [] (Circuit.new s) := by
  constructor <;> simp [Circuit.new, total]

/-- `Hist` does not look at the storage -/
theorem Hist.storage {evs c} (h : Hist evs c) (s : StoreRef) : Hist evs { c with storage := s } :=
  ⟨h.created, h.inputs, h.inputLen, h.outputs, h.outputLen, h.consts, h.constVals, h.numGate, h.numConst, h.numWire⟩

/-- the history of the circuit behind `r`; a ref not yet allocated counts as empty -/
def HistAt (evs : List Ev) (w : World) (r : Ref) : Prop := Hist (trace r evs) ((w.circs[r]?).getD (Circuit.new 0))

theorem HistAt.some {evs w r c} (h : HistAt evs w r) (hr : w.circs[r]? = some c) : Hist (trace r evs) c := by
  unfold HistAt at h; rw [hr] at h; exact h

theorem getElem?_snoc {α} (l : List α) (a : α) (k : Nat) :
    (l ++ [a])[k]? = if k = l.length then some a else l[k]? := by
  rw [getElem?_append_one]
  by_cases h : k = l.length
  · simp [h]
  · by_cases h2 : k < l.length
    · simp [h, h2]
    · simp only [h, h2, if_false]; rw [List.getElem?_eq_none (by omega)]

section step
variable {evs : List Ev} {w : World} {r : Ref} {c : Circuit}

theorem Hist.input (h : Hist evs c) (hw : WFc c) :
    Hist (evs ++ [⟨.input r, w, .ok (.gate c.gateIndex)⟩]) c.input.2 := by
  constructor
  · rw [List.flatMap_append, h.created]
    simp only [List.flatMap_cons, List.flatMap_nil, List.append_nil, Ev.created, Ev.inner, Ev.returned, if_true,
      List.nil_append]
    exact (List.range_succ).symm
  · intro k
    rw [List.flatMap_append]
    have : c.input.2.inputMap = c.inputMap.insert c.inputLen c.gateIndex := rfl
    rw [this]
    simp only [List.flatMap_cons, List.flatMap_nil, List.append_nil, Ev.inputs, if_true]
    rw [getElem?_snoc, Map.insert_apply, ← h.inputLen, h.inputs]
  · rw [List.flatMap_append, List.length_append, ← h.inputLen]
    simp [Ev.inputs]; rfl
  · intro k; rw [List.flatMap_append]
    simp only [List.flatMap_cons, List.flatMap_nil, List.append_nil, Ev.outputs]
    exact h.outputs k
  · rw [List.flatMap_append]
    simp only [List.flatMap_cons, List.flatMap_nil, List.append_nil, Ev.outputs]
    exact h.outputLen
  · rw [List.flatMap_append]
    simp only [List.flatMap_cons, List.flatMap_nil, List.append_nil, Ev.consts]
    exact h.consts
  · intro g v hg
    rw [List.flatMap_append] at hg
    simp only [List.flatMap_cons, List.flatMap_nil, Ev.consts, List.append_nil] at hg
    exact (Circuit.input_appends hw).mono hw (h.constVals g v hg)
  · simp only [total_append, total_single, Ev.logicGates, Ev.ofCallee]
    exact h.numGate
  · simp only [total_append, total_single, Ev.ofCallee, List.flatMap_append, List.flatMap_cons, List.flatMap_nil,
      Ev.consts, List.append_nil]
    exact h.numConst
  · simp only [total_append, total_single, Ev.ofCallee, List.flatMap_append, List.flatMap_cons, List.flatMap_nil,
      Ev.consts, List.append_nil, Ev.inputs, Ev.logicGates, if_true, List.length_append, List.length_singleton]
    have := h.numWire
    show c.numWire + 1 = _
    omega

theorem Hist.constant (h : Hist evs c) (hw : WFc c) (v : Bool) :
    Hist (evs ++ [⟨.constant r v, w, .ok (.gate c.gateIndex)⟩]) (c.constant v).2 := by
  constructor
  · rw [List.flatMap_append, h.created]
    simp only [List.flatMap_cons, List.flatMap_nil, List.append_nil, Ev.created, Ev.inner, Ev.returned, if_true,
      List.nil_append]
    exact (List.range_succ).symm
  · intro k; rw [List.flatMap_append]
    simp only [List.flatMap_cons, List.flatMap_nil, List.append_nil, Ev.inputs]
    exact h.inputs k
  · rw [List.flatMap_append]
    simp only [List.flatMap_cons, List.flatMap_nil, List.append_nil, Ev.inputs]
    exact h.inputLen
  · intro k; rw [List.flatMap_append]
    simp only [List.flatMap_cons, List.flatMap_nil, List.append_nil, Ev.outputs]
    exact h.outputs k
  · rw [List.flatMap_append]
    simp only [List.flatMap_cons, List.flatMap_nil, List.append_nil, Ev.outputs]
    exact h.outputLen
  · rw [List.flatMap_append]
    simp only [List.flatMap_cons, List.flatMap_nil, Ev.consts, List.append_nil, if_true, List.map_append,
      List.map_cons, List.map_nil, h.consts]
    rfl
  · intro g v' hg
    rw [List.flatMap_append] at hg
    simp only [List.flatMap_cons, List.flatMap_nil, Ev.consts, List.append_nil, if_true, List.mem_append,
      List.mem_singleton, Prod.mk.injEq] at hg
    have ha := Circuit.constant_appends hw v
    rcases hg with hg | ⟨rfl, rfl⟩
    · exact ha.mono hw (h.constVals g v' hg)
    · exact ha.new 0
  · simp only [total_append, total_single, Ev.logicGates, Ev.ofCallee]
    exact h.numGate
  · simp only [total_append, total_single, Ev.ofCallee, List.flatMap_append, List.flatMap_cons, List.flatMap_nil,
      Ev.consts, List.append_nil, if_true, List.length_append, List.length_singleton]
    have := h.numConst
    show c.numConst + 1 = _
    omega
  · simp only [total_append, total_single, Ev.ofCallee, List.flatMap_append, List.flatMap_cons, List.flatMap_nil,
      Ev.consts, List.append_nil, Ev.inputs, Ev.logicGates, if_true, List.length_append, List.length_singleton]
    have := h.numWire
    show c.numWire + 1 = _
    omega

/-- `n` logic gates appended by one call -/
theorem Hist.logic (h : Hist evs c) {c' : Circuit} {n : Nat} {e : Ev}
    (hg : ∀ g x, c.gateMap g = some x → c'.gateMap g = some x)
    (hidx : c'.gateIndex = c.gateIndex + n) (h1 : c'.inputMap = c.inputMap) (h2 : c'.inputLen = c.inputLen)
    (h3 : c'.outputMap = c.outputMap) (h4 : c'.outputLen = c.outputLen) (h5 : c'.constGates = c.constGates)
    (h6 : c'.numGate = c.numGate + n) (h7 : c'.numConst = c.numConst) (h8 : c'.numWire = c.numWire + n)
    (hc : e.created = List.range' c.gateIndex n) (k1 : e.inputs = []) (k2 : e.outputs = [])
    (k3 : e.consts = []) (k4 : ∀ f, e.ofCallee f = 0) (k5 : e.logicGates = n) :
    Hist (evs ++ [e]) c' := by
  constructor
  · rw [List.flatMap_append, h.created]
    simp only [List.flatMap_cons, List.flatMap_nil, List.append_nil, hc, hidx]
    rw [List.range_eq_range', List.range_eq_range', ← List.range'_append]
    simp
  · intro k; rw [List.flatMap_append, h1]
    simpa [k1] using h.inputs k
  · rw [List.flatMap_append, h2]
    simpa [k1] using h.inputLen
  · intro k; rw [List.flatMap_append, h3]
    simpa [k2] using h.outputs k
  · rw [List.flatMap_append, h4]
    simpa [k2] using h.outputLen
  · rw [List.flatMap_append, h5]
    simpa [k3] using h.consts
  · intro g v' hg'
    rw [List.flatMap_append] at hg'
    simp only [List.flatMap_cons, List.flatMap_nil, k3, List.append_nil] at hg'
    exact hg _ _ (h.constVals g v' hg')
  · simp only [total_append, total_single, k4, k5, h6]
    have := h.numGate; omega
  · simp only [total_append, total_single, k4, List.flatMap_append, List.flatMap_cons, List.flatMap_nil,
      k3, List.append_nil, h7]
    exact h.numConst
  · simp only [total_append, total_single, k4, List.flatMap_append, List.flatMap_cons, List.flatMap_nil,
      k3, List.append_nil, k1, k5, h8]
    have := h.numWire
    omega

theorem Hist.output (h : Hist evs c) {g : GateId} {x : Ret} :
    Hist (evs ++ [⟨.output r g, w, .ok x⟩])
      { c with outputMap := c.outputMap.insert c.outputLen g, outputLen := c.outputLen + 1 } := by
  constructor
  · rw [List.flatMap_append, h.created]
    simp [Ev.created, Ev.inner, Ev.returned]
  · intro k; rw [List.flatMap_append]
    simpa [Ev.inputs] using h.inputs k
  · rw [List.flatMap_append]
    simpa [Ev.inputs] using h.inputLen
  · intro k
    rw [List.flatMap_append]
    simp only [List.flatMap_cons, List.flatMap_nil, List.append_nil, Ev.outputs, if_true]
    rw [getElem?_snoc, Map.insert_apply, ← h.outputLen, h.outputs]
  · rw [List.flatMap_append, List.length_append, ← h.outputLen]
    simp [Ev.outputs]
  · rw [List.flatMap_append]
    simpa [Ev.consts] using h.consts
  · intro g v' hg'
    rw [List.flatMap_append] at hg'
    simp only [List.flatMap_cons, List.flatMap_nil, Ev.consts, List.append_nil] at hg'
    exact h.constVals g v' hg'
  · simp only [total_append, total_single, Ev.logicGates, Ev.ofCallee]
    exact h.numGate
  · simp only [total_append, total_single, Ev.ofCallee, List.flatMap_append, List.flatMap_cons, List.flatMap_nil,
      Ev.consts, List.append_nil]
    exact h.numConst
  · simp only [total_append, total_single, Ev.ofCallee, List.flatMap_append, List.flatMap_cons, List.flatMap_nil,
      Ev.consts, List.append_nil, Ev.inputs, Ev.logicGates]
    exact h.numWire

theorem Hist.module (h : Hist evs c) (hw : WFc c) {m c' : Circuit} {mid : ModuleId} {ids outs : List GateId}
    (he : ModuleEffect c m c' mid ids outs) (hcallee : callee w r mid = some m) :
    Hist (evs ++ [⟨.module r mid ids, w, .ok (.gates outs)⟩]) c' := by
  constructor
  · rw [List.flatMap_append, h.created]
    simp only [List.flatMap_cons, List.flatMap_nil, List.append_nil, Ev.created, Ev.inner, Ev.returned, if_true,
      List.nil_append, he.outs_eq, he.appends.idx]
    rw [List.range_eq_range', List.range_eq_range', ← List.range'_append]
    simp [moduleGates]
  · intro k; rw [List.flatMap_append, he.inputMap]
    simpa [Ev.inputs] using h.inputs k
  · rw [List.flatMap_append, he.inputLen]
    simpa [Ev.inputs] using h.inputLen
  · intro k; rw [List.flatMap_append, he.appends.outputMap]
    simpa [Ev.outputs] using h.outputs k
  · rw [List.flatMap_append, he.appends.outputLen]
    simpa [Ev.outputs] using h.outputLen
  · rw [List.flatMap_append, he.constGates]
    simpa [Ev.consts] using h.consts
  · intro g v' hg'
    rw [List.flatMap_append] at hg'
    simp only [List.flatMap_cons, List.flatMap_nil, Ev.consts, List.append_nil] at hg'
    exact he.appends.mono hw (h.constVals g v' hg')
  · simp only [total_append, total_single, Ev.logicGates, Ev.ofCallee, if_true, hcallee, he.numGate]
    have := h.numGate; omega
  · simp only [total_append, total_single, Ev.ofCallee, List.flatMap_append, List.flatMap_cons, List.flatMap_nil,
      Ev.consts, List.append_nil, if_true, hcallee, he.numConst]
    have := h.numConst; omega
  · simp only [total_append, total_single, Ev.ofCallee, List.flatMap_append, List.flatMap_cons, List.flatMap_nil,
      Ev.consts, List.append_nil, Ev.inputs, Ev.logicGates, if_true, hcallee, he.numWire]
    have := h.numWire
    omega

end step

/-- every call leaves every circuit other than its target as it was -/
theorem frame_op (op : Op) (w : World) (r : Ref) (h : op.target ≠ some r) (hr : r < w.circs.length) :
    (op.call w).2.circs[r]? = w.circs[r]? := by
  have on {α β} (r' : Ref) (f : Circuit → Except Err α × Circuit) (k : α → M β) (hk : ∀ a w, (k a w).2 = w)
      (hne : r ≠ r') : ((M.onCircuit r' f >>= k) w).2.circs[r]? = w.circs[r]? := by
    rw [M.bind_apply]
    unfold M.onCircuit
    cases e : w.circs[r']? with
    | none => rfl
    | some c =>
      simp only
      rcases e2 : (f c).1 with e' | a
      · simp only; exact setC_get_ne _ hne
      · simp only; rw [hk]; exact setC_get_ne _ hne
  have on' {α β γ} (r' : Ref) (f : Circuit → Except Err α × Circuit) (f' : α → Circuit → Except Err β × Circuit)
      (k : β → M γ) (hk : ∀ a w, (k a w).2 = w) (hne : r ≠ r') :
      (((M.onCircuit r' f >>= fun a => M.onCircuit r' (f' a)) >>= k) w).2.circs[r]? = w.circs[r]? := by
    rw [M.bind_apply, M.bind_apply]
    unfold M.onCircuit
    cases e : w.circs[r']? with
    | none => rfl
    | some c =>
      simp only
      rcases e2 : (f c).1 with e' | a
      · simp only; exact setC_get_ne _ hne
      · simp only
        rw [setC_get e]
        simp only
        rcases e3 : (f' a (f c).2).1 with e' | b
        · simp only; rw [setC_setC]; exact setC_get_ne _ hne
        · simp only; rw [hk, setC_setC]; exact setC_get_ne _ hne
  cases op <;> simp only [Op.target, ne_eq, Option.some.injEq] at h <;> unfold Op.call
  case newStorage => rfl
  case newCircuit s =>
    simp only [newCircuit, M.bind_apply]
    cases w.stores[s]? with
    | none => rfl
    | some st => simp only [M.pure_apply]; exact List.getElem?_append_left hr
  case input => exact on _ _ _ (fun _ _ => rfl) (fun e => h e.symm)
  case output => exact on _ _ _ (fun _ _ => rfl) (fun e => h e.symm)
  case constant => exact on _ _ _ (fun _ _ => rfl) (fun e => h e.symm)
  case not => exact on _ _ _ (fun _ _ => rfl) (fun e => h e.symm)
  case xor => exact on _ _ _ (fun _ _ => rfl) (fun e => h e.symm)
  case and => exact on _ _ _ (fun _ _ => rfl) (fun e => h e.symm)
  case or => exact on _ _ _ (fun _ _ => rfl) (fun e => h e.symm)
  case equivalent => exact on' _ _ _ _ (fun _ _ => rfl) (fun e => h e.symm)
  case identity => exact on' _ _ _ _ (fun _ _ => rfl) (fun e => h e.symm)
  case registerModule r' m =>
    simp only [registerModule, M.bind_apply]
    cases w.circs[r']? with
    | none => rfl
    | some c =>
      simp only
      cases w.circs[m]? with
      | none => rfl
      | some mc =>
        simp only
        cases w.stores[c.storage]? <;> rfl
  case storeModule s m =>
    simp only [storeModule, M.bind_apply]
    cases w.circs[m]? with
    | none => rfl
    | some mc => simp only; cases w.stores[s]? <;> rfl
  case clone r' =>
    simp only [cloneCircuit, M.bind_apply]
    cases w.circs[r']? with
    | none => rfl
    | some c => simp only [M.pure_apply]; exact List.getElem?_append_left hr
  case subCircuit r' =>
    simp only [M.bind_apply]
    unfold subCircuit
    cases e : w.circs[r']? with
    | none => rfl
    | some c =>
      simp only [M.bind_apply]
      unfold newCircuit
      cases e2 : w.stores[c.storage]? with
      | none => rfl
      | some st =>
        simp only
        unfold registerModule
        simp only [List.getElem?_append_left (lt_of_getElem? e), e, List.getElem?_concat_length, e2, M.pure_apply]
        exact List.getElem?_append_left hr
  case module r' mid ids =>
    simp only [M.bind_apply]
    unfold CC.module
    have hne : r ≠ r' := fun e => h e.symm
    cases e : w.circs[r']? with
    | none => rfl
    | some c =>
      simp only
      cases e2 : w.module? c mid with
      | none => rfl
      | some mr =>
        simp only
        by_cases hs : mr = r'
        · rw [if_pos hs]
        · rw [if_neg hs]
          cases e3 : w.circs[mr]? with
          | none => rfl
          | some m =>
            simp only
            rcases e4 : (c.module m mid ids).1 with x | x
            · simp only; exact setC_get_ne _ hne
            · simp only [M.pure_apply]; exact setC_get_ne _ hne

/-- a call on a ref that does not exist fails and changes nothing -/
theorem dangling_op (op : Op) (w : World) (r : Ref) (h : op.target = some r) (hr : w.circs[r]? = none) :
    op.call w = (.error .dangling, w) := by
  cases op <;> simp only [Op.target, Option.some.injEq, reduceCtorEq] at h <;> subst h <;>
    simp only [Op.call, input, output, constant, not, xor, and, or, equivalent, identity, registerModule, subCircuit, CC.module,
      onCircuit_none hr, M.bind_apply, hr]

/-- a call on `r` adds no new circuit at `r`'s place; refs beyond the heap stay empty or become new circuits -/
theorem fresh_op (op : Op) (w : World) (hw : WFw w) (r : Ref) (hr : w.circs[r]? = none)
    (hc : ∀ r', op ≠ .clone r') :
    (op.call w).2.circs[r]? = none ∨ ∃ s, (op.call w).2.circs[r]? = some (Circuit.new s) := by
  have len_set (r' : Ref) (c' : Circuit) : (w.setC r' c').circs[r]? = none := by
    rw [List.getElem?_eq_none_iff, setC_length]
    exact List.getElem?_eq_none_iff.mp hr
  have on {α β} (r' : Ref) (f : Circuit → Except Err α × Circuit) (k : α → M β) (hk : ∀ a w, (k a w).2 = w) :
      ((M.onCircuit r' f >>= k) w).2.circs[r]? = none := by
    rw [M.bind_apply]
    unfold M.onCircuit
    cases e : w.circs[r']? with
    | none => exact hr
    | some c =>
      simp only
      rcases e2 : (f c).1 with e' | a
      · exact len_set _ _
      · simp only; rw [hk]; exact len_set _ _
  have on' {α β γ} (r' : Ref) (f : Circuit → Except Err α × Circuit) (f' : α → Circuit → Except Err β × Circuit)
      (k : β → M γ) (hk : ∀ a w, (k a w).2 = w) :
      (((M.onCircuit r' f >>= fun a => M.onCircuit r' (f' a)) >>= k) w).2.circs[r]? = none := by
    rw [M.bind_apply, M.bind_apply]
    unfold M.onCircuit
    cases e : w.circs[r']? with
    | none => exact hr
    | some c =>
      simp only
      rcases e2 : (f c).1 with e' | a
      · exact len_set _ _
      · simp only
        rw [setC_get e]
        simp only
        rcases e3 : (f' a (f c).2).1 with e' | b
        · simp only; rw [setC_setC]; exact len_set _ _
        · simp only; rw [hk, setC_setC]; exact len_set _ _
  have snoc (s : StoreRef) : (w.circs ++ [Circuit.new s])[r]? = none ∨
      ∃ s', (w.circs ++ [Circuit.new s])[r]? = some (Circuit.new s') := by
    rw [getElem?_snoc]
    split
    · exact Or.inr ⟨s, rfl⟩
    · exact Or.inl hr
  cases op <;> unfold Op.call
  case newStorage => exact Or.inl hr
  case newCircuit s =>
    simp only [newCircuit, M.bind_apply]
    cases w.stores[s]? with
    | none => exact Or.inl hr
    | some st => simp only [M.pure_apply]; exact snoc s
  case input => exact Or.inl (on _ _ _ (fun _ _ => rfl))
  case output => exact Or.inl (on _ _ _ (fun _ _ => rfl))
  case constant => exact Or.inl (on _ _ _ (fun _ _ => rfl))
  case not => exact Or.inl (on _ _ _ (fun _ _ => rfl))
  case xor => exact Or.inl (on _ _ _ (fun _ _ => rfl))
  case and => exact Or.inl (on _ _ _ (fun _ _ => rfl))
  case or => exact Or.inl (on _ _ _ (fun _ _ => rfl))
  case equivalent => exact Or.inl (on' _ _ _ _ (fun _ _ => rfl))
  case identity => exact Or.inl (on' _ _ _ _ (fun _ _ => rfl))
  case registerModule r' m =>
    simp only [registerModule, M.bind_apply]
    cases w.circs[r']? with
    | none => exact Or.inl hr
    | some c =>
      simp only
      cases w.circs[m]? with
      | none => exact Or.inl hr
      | some mc =>
        simp only
        cases w.stores[c.storage]? <;> exact Or.inl hr
  case storeModule s m =>
    simp only [storeModule, M.bind_apply]
    cases w.circs[m]? with
    | none => exact Or.inl hr
    | some mc => simp only; cases w.stores[s]? <;> exact Or.inl hr
  case clone r' => exact absurd rfl (hc r')
  case subCircuit r' =>
    simp only [M.bind_apply]
    cases e : w.circs[r']? with
    | none => unfold subCircuit; rw [e]; exact Or.inl hr
    | some c =>
      obtain ⟨st, hst⟩ : ∃ st, w.stores[c.storage]? = some st :=
        ⟨_, List.getElem?_eq_getElem (hw.store _ _ e)⟩
      rw [subCircuit_eq e hst]
      exact snoc _
  case module r' mid ids =>
    simp only [M.bind_apply]
    unfold CC.module
    cases e : w.circs[r']? with
    | none => exact Or.inl hr
    | some c =>
      simp only
      cases e2 : w.module? c mid with
      | none => exact Or.inl hr
      | some mr =>
        simp only
        by_cases hs : mr = r'
        · rw [if_pos hs]; exact Or.inl hr
        · rw [if_neg hs]
          cases e3 : w.circs[mr]? with
          | none => exact Or.inl hr
          | some m =>
            simp only
            rcases e4 : (c.module m mid ids).1 with x | x <;> exact Or.inl (len_set _ _)

theorem Hist.step {evs : List Ev} {w : World} (hw : WFw w) (op : Op) (h : ∀ r, HistAt evs w r) (r : Ref) :
    HistAt (evs ++ [⟨op, w, (op.call w).1⟩]) (op.call w).2 r := by
  by_cases hcl : ∃ r', op = .clone r' ∧ (op.call w).1 = .ok (.circuit r)
  · obtain ⟨r', rfl, he⟩ := hcl
    cases hr : w.circs[r']? with
    | none =>
      have : (Op.clone r').call w = (.error .dangling, w) := bind_error (by unfold cloneCircuit; rw [hr])
      rw [this] at he; cases he
    | some c =>
      have e : (Op.clone r').call w = (.ok (.circuit w.circs.length), { w with circs := w.circs ++ [c] }) :=
        bind_ok (by unfold cloneCircuit; rw [hr])
      rw [e] at he ⊢
      cases he
      unfold HistAt
      rw [trace_clone rfl]
      simpa using (h r').some hr
  have hcl' : ∀ r', op = .clone r' → (op.call w).1 ≠ .ok (.circuit r) := fun r' h1 h2 => hcl ⟨r', h1, h2⟩
  cases hr : w.circs[r]? with
  | none =>
    have h0 : Hist (trace r evs) (Circuit.new 0) := by have := h r; unfold HistAt at this; rw [hr] at this; exact this
    have hq : Hist (trace r (evs ++ [⟨op, w, (op.call w).1⟩])) (Circuit.new 0) := by
      by_cases ht : op.target = some r
      · rw [trace_target (e := ⟨op, w, (op.call w).1⟩) ht, dangling_op op w r ht hr]
        exact h0.quiet (quiet_error op w _)
      · rw [trace_other (e := ⟨op, w, (op.call w).1⟩) ht hcl']; exact h0
    unfold HistAt
    by_cases hop : ∃ r', op = .clone r'
    · obtain ⟨r', rfl⟩ := hop
      have : ((Op.clone r').call w).2.circs[r]? = none := by
        cases hr' : w.circs[r']? with
        | none =>
          have e : (Op.clone r').call w = (.error .dangling, w) := bind_error (by unfold cloneCircuit; rw [hr'])
          rw [e]; exact hr
        | some c =>
          have e : (Op.clone r').call w = (.ok (.circuit w.circs.length), { w with circs := w.circs ++ [c] }) :=
            bind_ok (by unfold cloneCircuit; rw [hr'])
          have hne := hcl' r' rfl
          rw [e] at hne ⊢
          simp only
          rw [getElem?_snoc, if_neg (fun e => hne (by rw [e])), hr]
      rw [this]; exact hq
    · rcases fresh_op op w hw r hr (fun r' e => hop ⟨r', e⟩) with e | ⟨s, e⟩
      · rw [e]; exact hq
      · rw [e]; exact hq.storage s
  | some c =>
    have hc := hw.circ r c hr
    have h0 := (h r).some hr
    by_cases ht : op.target = some r
    case neg =>
      unfold HistAt
      rw [trace_other (e := ⟨op, w, (op.call w).1⟩) ht hcl', frame_op op w r ht (lt_of_getElem? hr), hr]
      exact h0
    have fin {res : Except Err Ret} {c' : Circuit}
        (e : op.call w = (res, w.setC r c')) (k : Hist (trace r evs ++ [⟨op, w, res⟩]) c') :
        HistAt (evs ++ [⟨op, w, (op.call w).1⟩]) (op.call w).2 r := by
      rw [e]; unfold HistAt; rw [setC_get hr, trace_target (e := ⟨op, w, res⟩) ht]; exact k
    have same (e : (op.call w).2.circs[r]? = some c) (q : Quiet ⟨op, w, (op.call w).1⟩) :
        HistAt (evs ++ [⟨op, w, (op.call w).1⟩]) (op.call w).2 r := by
      unfold HistAt; rw [e, trace_target (e := ⟨op, w, (op.call w).1⟩) ht]; exact h0.quiet q
    cases op <;> simp only [Op.target, Option.some.injEq, reduceCtorEq] at ht <;> subst ht
    case input r => exact fin (bind_ok (input_eq hr)) (h0.input hc)
    case constant r v => exact fin (bind_ok (constant_eq hr v)) (h0.constant hc v)
    case output r g =>
      cases hg : c.gateMap g with
      | none =>
        have e : (Op.output r g).call w = (.error (.unknownGate g), w) := bind_error (output_eq_err hr hg)
        exact same (by rw [e]; exact hr) (by rw [e]; exact quiet_error _ _ _)
      | some gate => exact fin (bind_ok (output_eq_ok hr hg)) h0.output
    case not r x =>
      refine fin (bind_ok (not_eq hr x)) (h0.logic (n := 1) ?_ ?_ ?_ ?_ ?_ ?_ ?_ ?_ ?_ ?_ ?_ ?_ ?_ ?_ ?_ ?_)
      · exact fun g y hg => (Circuit.not_appends hc x).mono hc hg
      all_goals first
        | (intro f; rfl)
        | (simp [Circuit.not, Circuit.addGate]; done)
        | simp [Ev.created, Ev.returned, Ev.inner, Ev.inputs, Ev.outputs, Ev.consts, Ev.logicGates]
    case xor r a b =>
      refine fin (bind_ok (xor_eq hr a b)) (h0.logic (n := 1) ?_ ?_ ?_ ?_ ?_ ?_ ?_ ?_ ?_ ?_ ?_ ?_ ?_ ?_ ?_ ?_)
      · exact fun g y hg => (Circuit.xor_appends hc a b).mono hc hg
      all_goals first
        | (intro f; rfl)
        | (simp [Circuit.xor, Circuit.addGate]; done)
        | simp [Ev.created, Ev.returned, Ev.inner, Ev.inputs, Ev.outputs, Ev.consts, Ev.logicGates]
    case and r a b =>
      refine fin (bind_ok (and_eq hr a b)) (h0.logic (n := 1) ?_ ?_ ?_ ?_ ?_ ?_ ?_ ?_ ?_ ?_ ?_ ?_ ?_ ?_ ?_ ?_)
      · exact fun g y hg => (Circuit.and_appends hc a b).mono hc hg
      all_goals first
        | (intro f; rfl)
        | (simp [Circuit.and, Circuit.addGate]; done)
        | simp [Ev.created, Ev.returned, Ev.inner, Ev.inputs, Ev.outputs, Ev.consts, Ev.logicGates]
    case or r a b =>
      refine fin (bind_ok (or_eq hr a b)) (h0.logic (n := 1) ?_ ?_ ?_ ?_ ?_ ?_ ?_ ?_ ?_ ?_ ?_ ?_ ?_ ?_ ?_ ?_)
      · exact fun g y hg => (Circuit.or_appends hc a b).mono hc hg
      all_goals first
        | (intro f; rfl)
        | (simp [Circuit.or, Circuit.addGate]; done)
        | simp [Ev.created, Ev.returned, Ev.inner, Ev.inputs, Ev.outputs, Ev.consts, Ev.logicGates]
    case equivalent r a b =>
      refine fin (bind_ok (equivalent_eq hr a b))
        (h0.logic (n := 2) ?_ ?_ ?_ ?_ ?_ ?_ ?_ ?_ ?_ ?_ ?_ ?_ ?_ ?_ ?_ ?_)
      · exact fun g y hg => (Circuit.not_appends (hc.xor a b) _).mono (hc.xor a b)
          ((Circuit.xor_appends hc a b).mono hc hg)
      all_goals first
        | (intro f; rfl)
        | (simp [Circuit.xor, Circuit.not, Circuit.addGate]; done)
        | simp [Ev.created, Ev.returned, Ev.inner, Ev.inputs, Ev.outputs, Ev.consts, Ev.logicGates, List.range']
    case identity r x =>
      refine fin (bind_ok (identity_eq hr x))
        (h0.logic (n := 2) ?_ ?_ ?_ ?_ ?_ ?_ ?_ ?_ ?_ ?_ ?_ ?_ ?_ ?_ ?_ ?_)
      · exact fun g y hg => (Circuit.not_appends (hc.not x) _).mono (hc.not x)
          ((Circuit.not_appends hc x).mono hc hg)
      all_goals first
        | (intro f; rfl)
        | (simp [Circuit.not, Circuit.addGate]; done)
        | simp [Ev.created, Ev.returned, Ev.inner, Ev.inputs, Ev.outputs, Ev.consts, Ev.logicGates, List.range']
    case registerModule r m =>
      refine same ?_ ?_
      · show ((registerModule r m >>= fun x => pure (Ret.mid x)) w).2.circs[r]? = some c
        rw [M.bind_apply]
        unfold registerModule
        rw [hr]
        simp only
        cases w.circs[m]? with
        | none => exact hr
        | some mc =>
          simp only
          cases w.stores[c.storage]? <;> exact hr
      · rcases (Op.call (.registerModule r m) w).1 with e | ret
        · exact quiet_error _ _ _
        · constructor <;> first | rfl | (intro f; rfl)
    case subCircuit r =>
      obtain ⟨st, hst⟩ : ∃ st, w.stores[c.storage]? = some st :=
        ⟨_, List.getElem?_eq_getElem (hw.store _ _ hr)⟩
      refine same ?_ ?_
      · have : (Op.call (.subCircuit r) w) = _ := bind_ok (subCircuit_eq hr hst)
        rw [this]
        simp only [M.pure_apply]
        rw [List.getElem?_append_left (lt_of_getElem? hr)]; exact hr
      · rcases (Op.call (.subCircuit r) w).1 with e | ret
        · exact quiet_error _ _ _
        · constructor <;> first | rfl | (intro f; rfl)
    case module r mid ids =>
      have err {e : Err} (he : CC.module r mid ids w = (.error e, w)) :
          HistAt (evs ++ [⟨.module r mid ids, w, ((Op.module r mid ids).call w).1⟩])
            ((Op.module r mid ids).call w).2 r := by
        have e' : (Op.module r mid ids).call w = (.error e, w) := bind_error he
        exact same (by rw [e']; exact hr) (by rw [e']; exact quiet_error _ _ _)
      cases hm : w.module? c mid with
      | none => exact err (by unfold CC.module; rw [hr]; simp only; rw [hm])
      | some mr =>
        by_cases hs : mr = r
        · exact err (e := .panic .alreadyBorrowed)
            (by unfold CC.module; rw [hr]; simp only; rw [hm]; simp only; rw [if_pos hs])
        · cases hmc : w.circs[mr]? with
          | none =>
            exact err (by unfold CC.module; rw [hr]; simp only; rw [hm]; simp only; rw [if_neg hs, hmc])
          | some m =>
            by_cases hroom : m.inputLen + m.outputLen ≤ m.numWire
            · obtain ⟨c', he, heff⟩ := module_eq_ok hc hr hm hs hmc hroom ids
              exact fin (bind_ok he) (h0.module hc heff (by unfold callee; rw [hr]; simp only; rw [hm]; exact hmc))
            · refine err (e := .panic .underflow) ?_
              rw [module_eq hr hm hs hmc, Circuit.module_err mid ids hroom]
              simp only; rw [setC_self hr]

theorem HistAt.of_run {w : World} {evs : List Ev} (h : Run w evs) (r : Ref) : HistAt evs w r := by
  induction h generalizing r with
  | nil => unfold HistAt; exact Hist.nil 0
  | step op h ih => exact Hist.step (WFw.of_run h) op ih r

theorem Hist.of_run {w : World} {evs : List Ev} (h : Run w evs) {r : Ref} {c : Circuit}
    (hr : w.circs[r]? = some c) : Hist (trace r evs) c := (HistAt.of_run h r).some hr

end CC
