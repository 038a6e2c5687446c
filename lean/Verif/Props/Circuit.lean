import Verif.Proofs.Reg
import Verif.Proofs.Readers

/-!
# C01–C09: the circuit API

`Run w evs`: `w` is the heap after an arbitrary history `evs` of API calls (any number of circuits, storages, any
arguments, including invalid ids and failing calls). `Later w w'`: `w'` is reached from `w` by further calls.
`trace r evs`: the calls of `evs` that were made on circuit `r`; a clone starts with those of its original.
-/

namespace CC.Props
open CC Spec

/-- the event of making call `op` in heap `w` -/
def ev (op : Op) (w : World) : Ev := ⟨op, w, (op.call w).1⟩

/-- A history used in the non-vacuity examples: two circuits sharing a table; circuit 1 computes a NAND and is
called twice by circuit 0, which also has a constant, XNOR and outputs. -/
def demo : List Op :=
  [.newStorage, .newCircuit 0, .subCircuit 0,
   .input 1, .input 1, .and 1 0 1, .not 1 2, .output 1 3, .output 1 2,
   .input 0, .input 0, .constant 0 true, .module 0 0 [0, 1], .equivalent 0 3 2, .module 0 0 [6, 6],
   .output 0 7, .output 0 6, .output 0 99, .identity 0 8, .registerModule 1 0, .input 0]

/-- heap and history after `demo` -/
def demoRun : World × List Ev := play demo (World.empty, [])

theorem demo_run : Run demoRun.1 demoRun.2 := play_run demo Run.nil

/-- `demo` goes on: circuit 0 is cloned, both develop further, and the clone is registered through the storage -/
def demoClone : World × List Ev := play [.clone 0, .and 2 0 1, .output 2 12, .or 0 0 1, .storeModule 0 2] demoRun

theorem demoClone_run : Run demoClone.1 demoClone.2 := play_run _ demo_run

/-! ### C01 -/

/-- C01 (freshness): the ids a call returns on circuit `r` were never returned on `r` before, are not inner gates of
an earlier `equivalent`/`identity`, and are pairwise different. If `r` is a clone, the ids of its original up to the cloning
count as well. -/
theorem C01_fresh {w : World} {evs : List Ev} (h : Run w evs) (op : Op) {r : Ref} (ht : op.target = some r) :
    (ev op w).returned.Nodup ∧
      ∀ g ∈ (ev op w).returned, g ∉ (trace r evs).flatMap Ev.returned ∧ g ∉ (trace r evs).flatMap Ev.inner := by
  have hn : ((trace r evs ++ [ev op w]).flatMap Ev.created).Nodup := by
    rw [← trace_target (e := ev op w) ht]
    have h1 : (trace r (evs ++ [ev op w])).flatMap Ev.created = _ := (HistAt.of_run (Run.step op h) r).created
    rw [h1]; exact List.nodup_range
  rw [List.flatMap_append, List.nodup_append] at hn
  obtain ⟨_, h2, h3⟩ := hn
  simp only [List.flatMap_cons, List.flatMap_nil, List.append_nil, Ev.created] at h2 h3
  refine ⟨(List.nodup_append.mp h2).2.1, ?_⟩
  intro g hg
  constructor
  · intro hmem
    obtain ⟨e, he, hge⟩ := List.mem_flatMap.mp hmem
    exact h3 g (List.mem_flatMap.mpr ⟨e, he, List.mem_append_right _ hge⟩) g (List.mem_append_right _ hg) rfl
  · intro hmem
    obtain ⟨e, he, hge⟩ := List.mem_flatMap.mp hmem
    exact h3 g (List.mem_flatMap.mpr ⟨e, he, List.mem_append_left _ hge⟩) g (List.mem_append_right _ hg) rfl

example : (ev (.xor 0 0 1) demoRun.1).returned = [12] ∧ (trace 0 demoRun.2).flatMap Ev.returned = [0, 1, 2, 3, 4, 6, 7, 8, 10, 11] := by
  constructor <;> rfl

example : (ev (.xor 2 0 1) demoClone.1).returned = [13] ∧
    (trace 2 demoClone.2).flatMap Ev.returned = [0, 1, 2, 3, 4, 6, 7, 8, 10, 11, 12] := by
  constructor <;> rfl

/-- every id ever returned names a gate -/
theorem getGate_of_returned {w : World} {evs : List Ev} (h : Run w evs) {r : Ref} {g : GateId}
    (hg : g ∈ (trace r evs).flatMap Ev.returned) :
    ∃ c gate, w.circs[r]? = some c ∧ c.gateMap g = some gate := by
  have hh := HistAt.of_run h r
  have hmem : g ∈ (trace r evs).flatMap Ev.created := by
    obtain ⟨e, he, hge⟩ := List.mem_flatMap.mp hg
    exact List.mem_flatMap.mpr ⟨e, he, List.mem_append_right _ hge⟩
  rw [hh.created, List.mem_range] at hmem
  cases hr : w.circs[r]? with
  | none => rw [hr] at hmem; simp [Circuit.new] at hmem
  | some c =>
    rw [hr] at hmem
    obtain ⟨gate, hgate⟩ := ((WFw.of_run h).circ r c hr).some_of_lt hmem
    exact ⟨c, gate, rfl, hgate⟩

/-- C01 (permanence): an id that was ever returned on `r` names a gate, and `get_gate` keeps answering that same
gate after any further calls on any circuit. -/
theorem C01_permanent {w : World} {evs : List Ev} (h : Run w evs) {r : Ref} {g : GateId}
    (hg : g ∈ (trace r evs).flatMap Ev.returned) :
    ∃ gate, w.getGate r g = .ok gate ∧ ∀ w', Later w w' → w'.getGate r g = .ok gate := by
  obtain ⟨c, gate, hr, hgate⟩ := getGate_of_returned h hg
  have key : ∀ w', Later w w' → w'.getGate r g = .ok gate := by
    intro w' hl
    obtain ⟨c', hr', hext⟩ := (ext_of_later (WFw.of_run h) hl).2.circs r c hr
    simp [World.getGate, World.circuit, hr', hext.gates g gate hgate, bind, Except.bind]
  exact ⟨gate, key w (Later.refl w), key⟩

example : 7 ∈ (trace 0 demoRun.2).flatMap Ev.returned ∧ demoRun.1.getGate 0 7 = .ok (.module 2 2 [6, 6] 0 0) := by
  refine ⟨?_, rfl⟩
  have : (trace 0 demoRun.2).flatMap Ev.returned = [0, 1, 2, 3, 4, 6, 7, 8, 10, 11] := rfl
  rw [this]; decide

/-- the gate definition requested by a call that returned `g` (for `equivalent`/`identity`: the outer NOT and the
inner gate) -/
def requested (w : World) (op : Op) (g : GateId) : List (GateId × Gate) :=
  match op with
  | .input r => match w.circs[r]? with
    | none => []
    | some c => [(g, .input c.inputLen)]
  | .constant _ v => [(g, .const v)]
  | .not _ x => [(g, .not x)]
  | .xor _ a b => [(g, .xor a b)]
  | .and _ a b => [(g, .and a b)]
  | .or _ a b => [(g, .or a b)]
  | .equivalent _ a b => [(g - 1, .xor a b), (g, .not (g - 1))]
  | .identity _ x => [(g - 1, .not x), (g, .not (g - 1))]
  | _ => []

/-- C01 (definitions): the id returned by a gate-creating call names exactly the requested gate. -/
theorem C01_definition {w : World} (hw : Reachable w) (op : Op) {r : Ref} (ht : op.target = some r) {g : GateId}
    (hok : (op.call w).1 = .ok (.gate g)) :
    ∀ p ∈ requested w op g, (op.call w).2.getGate r p.1 = .ok p.2 := by
  have hwf := WFw.of_reachable hw
  cases hr : w.circs[r]? with
  | none => rw [dangling_op op w r ht hr] at hok; cases hok
  | some c =>
    have hc := hwf.circ r c hr
    have fin {c' : Circuit} {g' : GateId} {gate : Gate} (hw' : (op.call w).2 = w.setC r c')
        (hg : c'.gateMap g' = some gate) : (op.call w).2.getGate r g' = .ok gate := by
      rw [hw']
      simp [World.getGate, World.circuit, setC_get hr, hg, bind, Except.bind]
    cases op <;> simp only [Op.target, Option.some.injEq, reduceCtorEq] at ht <;> subst ht
    case input r =>
      have e : (Op.input r).call w = _ := bind_ok (input_eq hr)
      rw [e] at hok; cases hok
      intro p hp; simp only [requested, hr, List.mem_singleton] at hp; subst hp
      exact fin (by rw [e]; rfl) ((Circuit.input_appends hc).new 0)
    case constant r v =>
      have e : (Op.constant r v).call w = _ := bind_ok (constant_eq hr v)
      rw [e] at hok; cases hok
      intro p hp; simp only [requested, List.mem_singleton] at hp; subst hp
      exact fin (by rw [e]; rfl) ((Circuit.constant_appends hc v).new 0)
    case not r x =>
      have e : (Op.not r x).call w = _ := bind_ok (not_eq hr x)
      rw [e] at hok; cases hok
      intro p hp; simp only [requested, List.mem_singleton] at hp; subst hp
      exact fin (by rw [e]; rfl) ((Circuit.not_appends hc x).new 0)
    case xor r a b =>
      have e : (Op.xor r a b).call w = _ := bind_ok (xor_eq hr a b)
      rw [e] at hok; cases hok
      intro p hp; simp only [requested, List.mem_singleton] at hp; subst hp
      exact fin (by rw [e]; rfl) ((Circuit.xor_appends hc a b).new 0)
    case and r a b =>
      have e : (Op.and r a b).call w = _ := bind_ok (and_eq hr a b)
      rw [e] at hok; cases hok
      intro p hp; simp only [requested, List.mem_singleton] at hp; subst hp
      exact fin (by rw [e]; rfl) ((Circuit.and_appends hc a b).new 0)
    case or r a b =>
      have e : (Op.or r a b).call w = _ := bind_ok (or_eq hr a b)
      rw [e] at hok; cases hok
      intro p hp; simp only [requested, List.mem_singleton] at hp; subst hp
      exact fin (by rw [e]; rfl) ((Circuit.or_appends hc a b).new 0)
    case equivalent r a b =>
      have e : (Op.equivalent r a b).call w = _ := bind_ok (equivalent_eq hr a b)
      rw [e] at hok; cases hok
      have h2 := Circuit.not_appends (hc.xor a b) c.gateIndex
      intro p hp
      simp only [requested, List.mem_cons, List.not_mem_nil, or_false, Nat.add_sub_cancel] at hp
      rcases hp with rfl | rfl
      · exact fin (by rw [e]; rfl) (h2.mono (hc.xor a b) ((Circuit.xor_appends hc a b).new 0))
      · refine fin (by rw [e]; rfl) ?_
        have := h2.new 0
        rw [xor_gateIndex] at this; exact this
    case identity r x =>
      have e : (Op.identity r x).call w = _ := bind_ok (identity_eq hr x)
      rw [e] at hok; cases hok
      have h2 := Circuit.not_appends (hc.not x) c.gateIndex
      intro p hp
      simp only [requested, List.mem_cons, List.not_mem_nil, or_false, Nat.add_sub_cancel] at hp
      rcases hp with rfl | rfl
      · exact fin (by rw [e]; rfl) (h2.mono (hc.not x) ((Circuit.not_appends hc x).new 0))
      · refine fin (by rw [e]; rfl) ?_
        have := h2.new 0
        rw [not_gateIndex] at this; exact this
    all_goals (intro p hp; simp [requested] at hp)

example : Reachable demoRun.1 ∧ ((Op.equivalent 0 3 2).call demoRun.1).1 = .ok (.gate 13) ∧
    requested demoRun.1 (.equivalent 0 3 2) 13 = [(12, .xor 3 2), (13, .not 12)] := ⟨⟨_, demo_run⟩, rfl, rfl⟩

/-! ### C02 -/

/-- C02: input wire `k` is the `k`-th successful `input()` call on this circuit; every other wire is unknown. -/
theorem C02_inputs {w : World} {evs : List Ev} (h : Run w evs) {r : Ref} {c : Circuit}
    (hr : w.circs[r]? = some c) :
    c.inputLen = ((trace r evs).flatMap Ev.inputs).length ∧
    ∀ k, w.inputToGateId r k =
      match ((trace r evs).flatMap Ev.inputs)[k]? with
      | some g => .ok g
      | none => .error (.unknownInput k) := by
  have hh := Hist.of_run h hr
  refine ⟨hh.inputLen, fun k => ?_⟩
  simp only [World.inputToGateId, World.circuit, hr, bind, Except.bind, hh.inputs]
  cases ((trace r evs).flatMap Ev.inputs)[k]? <;> rfl

example : demoRun.1.inputToGateId 0 1 = .ok 1 ∧ demoRun.1.inputToGateId 0 7 = .error (.unknownInput 7) :=
  ⟨(C02_inputs demo_run (r := 0) rfl).2 1, (C02_inputs demo_run (r := 0) rfl).2 7⟩

/-- C02: output wire `k` is the gate of the `k`-th successful `output(g)` call; every other wire is unknown. -/
theorem C02_outputs {w : World} {evs : List Ev} (h : Run w evs) {r : Ref} {c : Circuit}
    (hr : w.circs[r]? = some c) :
    c.outputLen = ((trace r evs).flatMap Ev.outputs).length ∧
    ∀ k, w.outputToGateId r k =
      match ((trace r evs).flatMap Ev.outputs)[k]? with
      | some g => .ok g
      | none => .error (.unknownOutput k) := by
  have hh := Hist.of_run h hr
  refine ⟨hh.outputLen, fun k => ?_⟩
  simp only [World.outputToGateId, World.circuit, hr, bind, Except.bind, hh.outputs]
  cases ((trace r evs).flatMap Ev.outputs)[k]? <;> rfl

example : demoRun.1.outputToGateId 1 0 = .ok 3 ∧ demoRun.1.outputToGateId 1 2 = .error (.unknownOutput 2) :=
  ⟨(C02_outputs demo_run (r := 1) rfl).2 0, (C02_outputs demo_run (r := 1) rfl).2 2⟩

/-- C02: the output call returns the number of the wire it defines. -/
theorem C02_output_wire {w : World} {evs : List Ev} (h : Run w evs) {r : Ref} {g : GateId} {i : WireId}
    (hok : (output r g w).1 = .ok i) : i = ((trace r evs).flatMap Ev.outputs).length := by
  cases hr : w.circs[r]? with
  | none => rw [output, onCircuit_none hr] at hok; cases hok
  | some c =>
    rw [← (C02_outputs h hr).1]
    cases hg : c.gateMap g with
    | none => rw [output_eq_err hr hg] at hok; cases hok
    | some gate => rw [output_eq_ok hr hg] at hok; cases hok; rfl

example : (trace 0 demoRun.2).flatMap Ev.inputs = [0, 1, 11] ∧ (trace 0 demoRun.2).flatMap Ev.outputs = [7, 6] ∧
    demoRun.1.inputToGateId 0 2 = .ok 11 ∧ demoRun.1.outputToGateId 0 1 = .ok 6 ∧
    demoRun.1.inputToGateId 0 3 = .error (.unknownInput 3) := ⟨rfl, rfl, rfl, rfl, rfl⟩

example : (trace 2 demoClone.2).flatMap Ev.inputs = [0, 1, 11] ∧ (trace 2 demoClone.2).flatMap Ev.outputs = [7, 6, 12] ∧
    (trace 0 demoClone.2).flatMap Ev.outputs = [7, 6] ∧ demoClone.1.outputToGateId 2 2 = .ok 12 := ⟨rfl, rfl, rfl, rfl⟩

/-! ### C03 -/

/-- C03: `output(g)` succeeds iff `g` was created by this circuit. -/
theorem C03_accepts {w : World} {evs : List Ev} (h : Run w evs) {r : Ref} {c : Circuit}
    (hr : w.circs[r]? = some c) (g : GateId) :
    (∃ i, (output r g w).1 = .ok i) ↔
      g ∈ (trace r evs).flatMap Ev.returned ∨ g ∈ (trace r evs).flatMap Ev.inner := by
  have hmem : g ∈ (trace r evs).flatMap Ev.created ↔
      g ∈ (trace r evs).flatMap Ev.returned ∨ g ∈ (trace r evs).flatMap Ev.inner := by
    simp only [List.mem_flatMap, Ev.created, List.mem_append]
    constructor
    · rintro ⟨e, he, h1 | h1⟩
      · exact Or.inr ⟨e, he, h1⟩
      · exact Or.inl ⟨e, he, h1⟩
    · rintro (⟨e, he, h1⟩ | ⟨e, he, h1⟩)
      · exact ⟨e, he, Or.inr h1⟩
      · exact ⟨e, he, Or.inl h1⟩
  rw [← hmem, (Hist.of_run h hr).created, List.mem_range]
  have hc := (WFw.of_run h).circ r c hr
  constructor
  · rintro ⟨i, hi⟩
    cases hg : c.gateMap g with
    | none => rw [output_eq_err hr hg] at hi; cases hi
    | some gate => exact hc.lt_of_some hg
  · intro hlt
    obtain ⟨gate, hg⟩ := hc.some_of_lt hlt
    exact ⟨_, by rw [output_eq_ok hr hg]⟩

example : ∃ i, (output 0 9 demoRun.1).1 = .ok i :=
  (C03_accepts demo_run (r := 0) rfl 9).mpr (Or.inr (by
    rw [show (trace 0 demoRun.2).flatMap Ev.inner = [5, 9] from rfl]; decide))

/-- C03: otherwise it returns `UnknownGate(g)` and changes nothing at all. -/
theorem C03_rejects {w : World} {evs : List Ev} (h : Run w evs) {r : Ref} {c : Circuit}
    (hr : w.circs[r]? = some c) {g : GateId} (h1 : g ∉ (trace r evs).flatMap Ev.returned)
    (h2 : g ∉ (trace r evs).flatMap Ev.inner) : output r g w = (.error (.unknownGate g), w) := by
  cases hg : c.gateMap g with
  | none => exact output_eq_err hr hg
  | some gate =>
    have := (C03_accepts h hr g).mp ⟨_, by rw [output_eq_ok hr hg]⟩
    exact absurd this (fun h => h.elim h1 h2)

example : (output 0 9 demoRun.1).1 = .ok 2 ∧ (output 0 12 demoRun.1).1 = .error (.unknownGate 12) ∧
    (trace 0 demoRun.2).flatMap Ev.inner = [5, 9] := ⟨rfl, rfl, rfl⟩

/-! ### C04 -/

/-- C04: `num_gate`, `num_const` and `num_wire` as sums over the history; a module call contributes the counters the
called circuit had at the time of the call. -/
theorem C04_counters {w : World} {evs : List Ev} (h : Run w evs) {r : Ref} {c : Circuit}
    (hr : w.circs[r]? = some c) :
    c.numGate = total Ev.logicGates (trace r evs) + total (Ev.ofCallee (·.numGate)) (trace r evs) ∧
    c.numConst = ((trace r evs).flatMap Ev.consts).length + total (Ev.ofCallee (·.numConst)) (trace r evs) ∧
    c.numWire = ((trace r evs).flatMap Ev.inputs).length + ((trace r evs).flatMap Ev.consts).length +
      total Ev.logicGates (trace r evs) + total (Ev.ofCallee (fun m => m.numWire - m.inputLen)) (trace r evs) :=
  let hh := Hist.of_run h hr
  ⟨hh.numGate, hh.numConst, hh.numWire⟩

example : (demoRun.1.circs[0]?).map (·.numGate) = some 8 ∧ (demoRun.1.circs[0]?).map (·.numWire) = some 12 ∧
    total (Ev.ofCallee (·.numGate)) (trace 0 demoRun.2) = 4 := ⟨rfl, rfl, rfl⟩

example : (demoClone.1.circs[2]?).map (·.numGate) = some 9 ∧ total Ev.logicGates (trace 2 demoClone.2) = 5 ∧
    total (Ev.ofCallee (·.numGate)) (trace 2 demoClone.2) = 4 := ⟨rfl, rfl, rfl⟩

/-! ### C05 -/

/-- how often `x` occurs among the operands of gate `g` of circuit `r` -/
def occurrences (w : World) (r : Ref) (g x : GateId) : Nat :=
  match w.getGate r g with
  | .error _ => 0
  | .ok gate => gate.operands.count x

/-- C05: `get_depended_gates(x)` contains `g` exactly as often as `x` occurs among `g`'s operands. -/
theorem C05_dependents {w : World} (hw : Reachable w) {r : Ref} {x : GateId} {l : List GateId}
    (hl : w.getDependedGates r x = .ok l) (g : GateId) : l.count g = occurrences w r g x := by
  cases hr : w.circs[r]? with
  | none => simp [World.getDependedGates, World.circuit, hr, bind, Except.bind] at hl
  | some c =>
    simp only [World.getDependedGates, World.circuit, hr, bind, Except.bind, Except.ok.injEq] at hl
    subst hl
    rw [((WFw.of_reachable hw).circ r c hr).dep]
    simp only [occurrences, World.getGate, World.circuit, hr, bind, Except.bind, Circuit.occ]
    cases c.gateMap g <;> rfl

example : ([7, 8, 7, 8] : List GateId).count 8 = occurrences demoRun.1 0 8 6 :=
  C05_dependents ⟨_, demo_run⟩ (l := [7, 8, 7, 8]) rfl 8

/-- C05: in particular a gate nobody reads has an empty list. -/
theorem C05_none {w : World} (hw : Reachable w) {r : Ref} {x : GateId} {l : List GateId}
    (hl : w.getDependedGates r x = .ok l) (h0 : ∀ g, occurrences w r g x = 0) : l = [] := by
  cases l with
  | nil => rfl
  | cons a as =>
    have h1 := C05_dependents hw hl a
    rw [h0 a] at h1; simp at h1

/-- the operands of each kind of gate, which several specifications refer to -/
example (i : Nat) (v : Bool) (x l r nIn nOut k mid : Nat) (ids : List GateId) :
    (Gate.input i).operands = [] ∧ (Gate.const v).operands = [] ∧ (Gate.not x).operands = [x] ∧ (Gate.xor l r).operands = [l, r] ∧
    (Gate.and l r).operands = [l, r] ∧ (Gate.or l r).operands = [l, r] ∧ (Gate.module nIn nOut ids k mid).operands = ids :=
  ⟨rfl, rfl, rfl, rfl, rfl, rfl, rfl⟩

/-- C05: the list, in order: the gates that read `x` in the order in which they were created, each once for each of its operands
that is `x`; for a module call, all gates of the call for the first argument that is `x`, then all again for the next. -/
theorem C05_list {w : World} (hw : Reachable w) {r : Ref} {c : Circuit} (hr : w.circs[r]? = some c) (x : GateId) :
    w.getDependedGates r x = .ok (readers c x) := by
  simp only [World.getDependedGates, World.circuit, hr, bind, Except.bind, (tracks hw hr).list]

example : (demoRun.1.circs[0]?).map (readers · 6) = some [7, 8, 7, 8] := by decide

example : demoRun.1.getDependedGates 0 6 = .ok [7, 8, 7, 8] ∧ occurrences demoRun.1 0 7 6 = 2 := ⟨rfl, rfl⟩

/-! ### C06 -/

/-- C06: `get_const_gates` is the list of ids returned by `constant()` in call order, which is strictly increasing. -/
theorem C06_const_gates {w : World} {evs : List Ev} (h : Run w evs) {r : Ref} {l : List GateId}
    (hl : w.getConstGates r = .ok l) :
    l = ((trace r evs).flatMap Ev.consts).map (·.1) ∧ l.Pairwise (· < ·) := by
  cases hr : w.circs[r]? with
  | none => simp [World.getConstGates, World.circuit, hr, bind, Except.bind] at hl
  | some c =>
    simp only [World.getConstGates, World.circuit, hr, bind, Except.bind, Except.ok.injEq] at hl
    subst hl
    exact ⟨(Hist.of_run h hr).consts.symm, ((WFw.of_run h).circ r c hr).const_sorted⟩

example : [2] = ((trace 0 demoRun.2).flatMap Ev.consts).map (·.1) := (C06_const_gates demo_run (r := 0) rfl).1

/-- C06: each of them is a Const gate with the requested value. -/
theorem C06_values {w : World} {evs : List Ev} (h : Run w evs) {r : Ref} {g : GateId} {v : Bool}
    (hg : (g, v) ∈ (trace r evs).flatMap Ev.consts) : w.getGate r g = .ok (.const v) := by
  cases hr : w.circs[r]? with
  | none =>
    have hh := HistAt.of_run h r
    have := hh.constVals g v hg
    rw [hr] at this; simp [Circuit.new] at this
  | some c =>
    simp [World.getGate, World.circuit, hr, bind, Except.bind, (Hist.of_run h hr).constVals g v hg]

example : demoRun.1.getGate 0 2 = .ok (.const true) :=
  C06_values demo_run (by rw [show (trace 0 demoRun.2).flatMap Ev.consts = [(2, true)] from rfl]; decide)

/-- C06: and every Const gate of the circuit is listed. -/
theorem C06_complete {w : World} (hw : Reachable w) {r : Ref} {l : List GateId}
    (hl : w.getConstGates r = .ok l) {g : GateId} {v : Bool} (hg : w.getGate r g = .ok (.const v)) : g ∈ l := by
  cases hr : w.circs[r]? with
  | none => simp [World.getConstGates, World.circuit, hr, bind, Except.bind] at hl
  | some c =>
    simp only [World.getConstGates, World.circuit, hr, bind, Except.bind, Except.ok.injEq] at hl
    subst hl
    simp only [World.getGate, World.circuit, hr, bind, Except.bind] at hg
    rw [((WFw.of_reachable hw).circ r c hr).const_iff]
    cases e : c.gateMap g with
    | none => rw [e] at hg; cases hg
    | some gate => rw [e] at hg; cases hg; exact ⟨v, rfl⟩

example : demoRun.1.getConstGates 0 = .ok [2] ∧ (trace 0 demoRun.2).flatMap Ev.consts = [(2, true)] := ⟨rfl, rfl⟩

/-! ### C07 -/

/-- the circuits registered so far in the table of circuit `c` -/
def table (evs : List Ev) (c : Circuit) : List Ref := evs.flatMap (Ev.registered c.storage)

/-- C07: `get_module(id)` is the `id`-th circuit registered in this circuit's table (by any circuit sharing it);
other ids are unknown. -/
theorem C07_lookup {w : World} {evs : List Ev} (h : Run w evs) {r : Ref} {c : Circuit}
    (hr : w.circs[r]? = some c) (mid : ModuleId) :
    w.getModule r mid =
      match (table evs c)[mid]? with
      | some m => .ok m
      | none => .error (.unknownModule mid) := by
  have hst : w.stores[c.storage]? = some _ := List.getElem?_eq_getElem ((WFw.of_run h).store r c hr)
  have hreg := (RegAt.of_run h c.storage).1 mid
  rw [hst] at hreg
  simp only [World.getModule, World.circuit, hr, bind, Except.bind, World.module?, hst]
  simp only [Option.getD_some] at hreg
  unfold table
  rw [hreg]
  cases (evs.flatMap (Ev.registered c.storage))[mid]? <;> rfl

example : demoRun.1.getModule 1 1 = .ok 0 ∧ demoRun.1.getModule 1 2 = .error (.unknownModule 2) :=
  ⟨C07_lookup demo_run (r := 1) rfl 1, C07_lookup demo_run (r := 1) rfl 2⟩

/-- C07: `register_module` returns consecutive ids. -/
theorem C07_register_id {w : World} {evs : List Ev} (h : Run w evs) {r m : Ref} {c : Circuit}
    (hr : w.circs[r]? = some c) {mid : ModuleId} (hok : (registerModule r m w).1 = .ok mid) :
    mid = (table evs c).length ∧ (registerModule r m w).2.getModule r mid = .ok m := by
  have hst : w.stores[c.storage]? = some _ := List.getElem?_eq_getElem ((WFw.of_run h).store r c hr)
  have hlt := (WFw.of_run h).store r c hr
  cases hm : w.circs[m]? with
  | none =>
    unfold registerModule at hok
    rw [hr] at hok; simp only at hok; rw [hm] at hok; cases hok
  | some mc =>
    have hreg := (RegAt.of_run h c.storage).2
    rw [hst] at hreg
    rw [registerModule_eq hr hm hst] at hok ⊢
    cases hok
    refine ⟨hreg, ?_⟩
    simp [World.getModule, World.circuit, hr, bind, Except.bind, World.module?, hlt, Storage.register]

example : 2 = (table demoRun.2 demoRun.1.circs[1]).length ∧ (registerModule 1 1 demoRun.1).2.getModule 1 2 = .ok 1 :=
  C07_register_id demo_run rfl rfl

/-- C07: `sub_circuit` registers a new empty circuit under the next id; the new ref did not exist before, and the
calling circuit can look it up. -/
theorem C07_sub_circuit {w : World} {evs : List Ev} (h : Run w evs) {r : Ref} {c : Circuit}
    (hr : w.circs[r]? = some c) :
    ∃ n w', subCircuit r w = (.ok ((table evs c).length, n), w') ∧ w.circs[n]? = none ∧
      w'.circs[n]? = some (Circuit.new c.storage) ∧ w'.getModule r (table evs c).length = .ok n := by
  have hst : w.stores[c.storage]? = some _ := List.getElem?_eq_getElem ((WFw.of_run h).store r c hr)
  have hlt := (WFw.of_run h).store r c hr
  have hreg := (RegAt.of_run h c.storage).2
  rw [hst] at hreg
  simp only [Option.getD_some] at hreg
  refine ⟨w.circs.length, (subCircuit r w).2, ?_, by simp, ?_, ?_⟩ <;> rw [subCircuit_eq hr hst]
  · rw [hreg]; rfl
  · simp
  · unfold table
    rw [← hreg]
    simp [World.getModule, World.circuit, List.getElem?_append_left (lt_of_getElem? hr), hr, bind, Except.bind,
      World.module?, hlt, Storage.register]

example : ∃ n w', subCircuit 1 demoRun.1 = (.ok (2, n), w') ∧ w'.getModule 1 2 = .ok n :=
  let ⟨n, w', h1, _, _, h2⟩ := C07_sub_circuit demo_run (r := 1) rfl
  ⟨n, w', h1, h2⟩

/-- C07: a registered id keeps meaning the same circuit after any further calls. -/
theorem C07_permanent {w w' : World} (hw : Reachable w) (hl : Later w w') {r : Ref} {mid : ModuleId} {m : Ref}
    (hm : w.getModule r mid = .ok m) : w'.getModule r mid = .ok m := by
  cases hr : w.circs[r]? with
  | none => simp [World.getModule, World.circuit, hr, bind, Except.bind] at hm
  | some c =>
    have hext := (ext_of_later (WFw.of_reachable hw) hl).2
    obtain ⟨c', hr', hc'⟩ := hext.circs r c hr
    simp only [World.getModule, World.circuit, hr, bind, Except.bind] at hm
    cases e : w.module? c mid with
    | none => rw [e] at hm; cases hm
    | some q =>
      rw [e] at hm; cases hm
      simp [World.getModule, World.circuit, hr', bind, Except.bind, hext.module? hc'.storage e]

example : ((Op.storeModule 0 1).call demoRun.1).2.getModule 0 1 = .ok 0 :=
  C07_permanent ⟨_, demo_run⟩ (.step _ (.refl _)) rfl

/-- C07: a sub-circuit sees the same modules as its parent at all later times. -/
theorem C07_shared {w : World} (hw : Reachable w) {r n : Ref} {k : ModuleId} {w1 w' : World}
    (hs : subCircuit r w = (.ok (k, n), w1)) (hl : Later w1 w') (mid : ModuleId) :
    w'.getModule n mid = w'.getModule r mid := by
  have hwf := WFw.of_reachable hw
  cases hr : w.circs[r]? with
  | none => unfold subCircuit at hs; rw [hr] at hs; cases hs
  | some c =>
    have hst : w.stores[c.storage]? = some _ := List.getElem?_eq_getElem (hwf.store r c hr)
    rw [subCircuit_eq hr hst] at hs
    have hwf1 : WFw w1 := by
      have := (good_subCircuit r w hwf).1
      rw [subCircuit_eq hr hst, hs] at this; exact this
    cases hs
    obtain ⟨hwf', hext⟩ := ext_of_later hwf1 hl
    obtain ⟨c1, h1, e1⟩ := hext.circs r c (by simp only; rw [List.getElem?_append_left (lt_of_getElem? hr)]; exact hr)
    obtain ⟨c2, h2, e2⟩ := hext.circs w.circs.length (Circuit.new c.storage) (by simp)
    have hs12 : c2.storage = c1.storage := by rw [e1.storage, e2.storage]; rfl
    have : w'.module? c2 mid = w'.module? c1 mid := World.module?_congr rfl hs12 mid
    simp only [World.getModule, World.circuit, h1, h2, bind, Except.bind, this]

example : demoRun.1.getModule 0 0 = .ok 1 ∧ demoRun.1.getModule 1 1 = .ok 0 ∧
    demoRun.1.getModule 0 1 = .ok 0 ∧ demoRun.1.getModule 0 2 = .error (.unknownModule 2) ∧
    (subCircuit 1 demoRun.1).1 = .ok (2, 2) := ⟨rfl, rfl, rfl, rfl, rfl⟩

example : demoClone.1.getModule 0 2 = .ok 2 ∧ demoClone.1.getModule 1 2 = .ok 2 := ⟨rfl, rfl⟩

/-! ### C08 -/

/-- C08: a call leaves every circuit that is not its target exactly as it was. -/
theorem C08_frame (w : World) (op : Op) (r : Ref) (h : op.target ≠ some r) (hr : r < w.circs.length) :
    (op.call w).2.circs[r]? = w.circs[r]? := frame_op op w r h hr

example : ((Op.and 0 0 1).call demoRun.1).2.circs[1]? = demoRun.1.circs[1]? :=
  C08_frame demoRun.1 (.and 0 0 1) 1 (by decide) (by decide)

/-- C08: registering modules and creating sub-circuits leaves even the calling circuit exactly as it was. -/
theorem C08_frame_register {w : World} (hw : Reachable w) (r m q : Ref) (hq : q < w.circs.length) :
    (registerModule r m w).2.circs[q]? = w.circs[q]? ∧ (subCircuit r w).2.circs[q]? = w.circs[q]? := by
  constructor
  · unfold registerModule
    cases hr : w.circs[r]? with
    | none => rfl
    | some c =>
      simp only
      cases w.circs[m]? with
      | none => rfl
      | some mc => simp only; cases w.stores[c.storage]? <;> rfl
  · cases hr : w.circs[r]? with
    | none => unfold subCircuit; rw [hr]
    | some c =>
      have hst : w.stores[c.storage]? = some _ :=
        List.getElem?_eq_getElem ((WFw.of_reachable hw).store r c hr)
      rw [subCircuit_eq hr hst]
      exact List.getElem?_append_left hq

example : (subCircuit 0 demoRun.1).2.circs[0]? = demoRun.1.circs[0]? :=
  (C08_frame_register ⟨_, demo_run⟩ 0 1 0 (by decide)).2

/-- C08: calls that do not register modules leave every existing module table as it was. -/
theorem C08_frame_modules (w : World) (op : Op) (h1 : ∀ r m, op ≠ .registerModule r m)
    (h2 : ∀ r, op ≠ .subCircuit r) (h3 : ∀ s m, op ≠ .storeModule s m) (s : StoreRef) (hs : s < w.stores.length) :
    (op.call w).2.stores[s]? = w.stores[s]? := by
  rcases stores_op op w h1 h2 h3 with e | ⟨_, e⟩
  · rw [e]
  · rw [e, List.getElem?_append_left hs]

example : ((Op.module 0 0 [1, 2]).call demoRun.1).2.stores[0]? = demoRun.1.stores[0]? :=
  C08_frame_modules _ _ (by intros; nofun) (by intros; nofun) (by intros; nofun) 0 (by decide)

example : (1 : Nat) < demoRun.1.circs.length ∧ (Op.and 0 0 1).target ≠ some 1 ∧
    ((Op.and 0 0 1).call demoRun.1).1 = .ok (.gate 12) := ⟨by decide, by decide, rfl⟩

/-! ### C09 -/

/-- C09: `module(mid, ids)` on a registered circuit other than itself returns exactly `output_len` fresh consecutive ids,
the `i`-th one a Module gate with `out_index i` over exactly `ids`. -/
theorem C09_module {w : World} (hw : Reachable w) {r q : Ref} {mid : ModuleId} {c m : Circuit}
    (hr : w.circs[r]? = some c) (hmod : w.getModule r mid = .ok q) (hq : q ≠ r) (hm : w.circs[q]? = some m)
    {ids outs : List GateId} (hok : (module r mid ids w).1 = .ok outs) :
    outs = List.range' c.gateIndex m.outputLen ∧
    ∀ i g, outs[i]? = some g →
      w.getGate r g = .error (.unknownGate g) ∧
      (module r mid ids w).2.getGate r g = .ok (.module m.inputLen m.outputLen ids i mid) := by
  have hc := (WFw.of_reachable hw).circ r c hr
  have hmq : w.module? c mid = some q := by
    simp only [World.getModule, World.circuit, hr, bind, Except.bind] at hmod
    cases e : w.module? c mid with
    | none => rw [e] at hmod; cases hmod
    | some q' => rw [e] at hmod; cases hmod; rfl
  by_cases hroom : m.inputLen + m.outputLen ≤ m.numWire
  · obtain ⟨c', he, heff⟩ := module_eq_ok hc hr hmq hq hm hroom ids
    rw [he] at hok ⊢
    cases hok
    refine ⟨rfl, fun i g hg => ?_⟩
    have hi : i < m.outputLen := by simpa using lt_of_getElem? hg
    rw [List.getElem?_range' hi] at hg
    simp only [Nat.one_mul, Option.some.injEq] at hg
    subst hg
    constructor
    · simp [World.getGate, World.circuit, hr, bind, Except.bind, hc.none_of_ge (Nat.le_add_right _ _)]
    · simp [World.getGate, World.circuit, setC_get hr, bind, Except.bind, heff.appends.new, moduleGates_get, hi]
  · rw [module_eq hr hmq hq hm, Circuit.module_err mid ids hroom] at hok
    cases hok

example : (module 0 0 [1, 2] demoRun.1).2.getGate 0 13 = .ok (.module 2 2 [1, 2] 1 0) :=
  ((C09_module ⟨_, demo_run⟩ (r := 0) (q := 1) rfl rfl (by decide) rfl rfl).2 1 13 rfl).2

/-- C09: the call succeeds whenever the callee has at least as many wires as declared inputs and outputs (always true of
a circuit whose outputs are distinct non-input gates); otherwise the subtraction in the code underflows. -/
theorem C09_succeeds_iff {w : World} (hw : Reachable w) {r q : Ref} {mid : ModuleId} {c m : Circuit}
    (hr : w.circs[r]? = some c) (hmod : w.getModule r mid = .ok q) (hq : q ≠ r) (hm : w.circs[q]? = some m)
    (ids : List GateId) :
    if m.inputLen + m.outputLen ≤ m.numWire then ∃ outs, (module r mid ids w).1 = .ok outs
    else module r mid ids w = (.error (.panic .underflow), w) := by
  have hc := (WFw.of_reachable hw).circ r c hr
  have hmq : w.module? c mid = some q := by
    simp only [World.getModule, World.circuit, hr, bind, Except.bind] at hmod
    cases e : w.module? c mid with
    | none => rw [e] at hmod; cases hmod
    | some q' => rw [e] at hmod; cases hmod; rfl
  split
  · next hroom =>
    obtain ⟨c', he, _⟩ := module_eq_ok hc hr hmq hq hm hroom ids
    exact ⟨_, by rw [he]⟩
  · next hroom =>
    rw [module_eq hr hmq hq hm, Circuit.module_err mid ids hroom, setC_self hr]

example : ∃ outs, (module 0 0 [1, 2] demoRun.1).1 = .ok outs :=
  C09_succeeds_iff ⟨_, demo_run⟩ (r := 0) (q := 1) (mid := 0) rfl rfl (by decide) rfl [1, 2]

/-- C09: an unregistered id gives `UnknownModule` and changes nothing. -/
theorem C09_unknown {w : World} {r : Ref} {mid : ModuleId} (hmod : w.getModule r mid = .error (.unknownModule mid))
    (ids : List GateId) : module r mid ids w = (.error (.unknownModule mid), w) := by
  cases hr : w.circs[r]? with
  | none => simp [World.getModule, World.circuit, hr, bind, Except.bind] at hmod
  | some c =>
    simp only [World.getModule, World.circuit, hr, bind, Except.bind] at hmod
    unfold module; rw [hr]; simp only
    cases e : w.module? c mid with
    | none => rfl
    | some q' => rw [e] at hmod; cases hmod

example : module 0 5 [1] demoRun.1 = (.error (.unknownModule 5), demoRun.1) := C09_unknown rfl [1]

/-- C09: a circuit that calls itself panics. -/
theorem C09_self {w : World} {r : Ref} {mid : ModuleId} (hmod : w.getModule r mid = .ok r) (ids : List GateId) :
    module r mid ids w = (.error (.panic .alreadyBorrowed), w) := by
  cases hr : w.circs[r]? with
  | none => simp [World.getModule, World.circuit, hr, bind, Except.bind] at hmod
  | some c =>
    simp only [World.getModule, World.circuit, hr, bind, Except.bind] at hmod
    unfold module; rw [hr]; simp only
    cases e : w.module? c mid with
    | none => rw [e] at hmod; cases hmod
    | some q' => rw [e] at hmod; cases hmod; simp only [if_true]

example : (module 0 0 [1, 2] demoRun.1).1 = .ok [12, 13] ∧
    (module 0 1 [1, 2] demoRun.1).1 = .error (.panic .alreadyBorrowed) ∧
    (module 0 5 [] demoRun.1).1 = .error (.unknownModule 5) ∧
    (module 0 0 [1, 2] demoRun.1).2.getGate 0 13 = .ok (.module 2 2 [1, 2] 1 0) := ⟨rfl, rfl, rfl, rfl⟩

/-- an underflowing call exists: a callee whose only gate is an input that is also its output -/
example : (module 0 0 [] (play [.newStorage, .newCircuit 0, .subCircuit 0, .input 1, .output 1 0]
    (World.empty, [])).1).1 = .error (.panic .underflow) := rfl

end CC.Props
