import Verif.Proofs.Circular
import Verif.Props.Circuit
import Verif.Props.Evaluator
import Verif.Proofs.FpC
import Verif.Proofs.Program

/-!
# C73, C74: which calls are refused; circular circuits
-/

namespace CC.Props
open CC Spec

/-- a call on an existing circuit that always returns a value -/
theorem onCircuit_ne {α β} {r : Ref} {w : World} (hr : r < w.circs.length) (f : Circuit → α × Circuit) (k : α → β) (e : Err) :
    ¬ ((do return k (← M.onCircuit r fun c => (.ok (f c).1, (f c).2)) : M β) w).1 = .error e := by
  intro h
  simp [M.bind_apply, M.onCircuit, List.getElem?_eq_getElem hr, M.pure_apply] at h

/-- **C73.** In every heap the API can produce, exactly these calls fail, each with this error: `output` for an id that is not a gate
of the circuit; `module` for an id the storage does not have, for the circuit itself, and for a circuit with more inputs and outputs
than wires. -/
theorem C73_exact {w : World} (h : Reachable w) {op : Op} (hr : op.Refs w) (e : Err) :
    (op.call w).1 = .error e ↔ Refused w op e := by
  have hwf := WFw.of_reachable h
  constructor
  · intro he
    cases op with
    | newStorage => cases he
    | newCircuit s =>
      have hs : s < w.stores.length := hr
      simp [Op.call, CC.newCircuit, M.bind_apply, M.pure_apply, List.getElem?_eq_getElem hs] at he
    | input r => exact absurd he (onCircuit_ne hr _ _ e)
    | output r g =>
      have hs : r < w.circs.length := hr
      simp only [Op.call, CC.output, M.bind_apply, M.onCircuit, List.getElem?_eq_getElem hs, Circuit.output] at he
      cases hg : w.circs[r].gateMap g with
      | none =>
        rw [hg] at he
        cases he
        refine .output ?_
        simp [World.getGate, World.circuit, List.getElem?_eq_getElem hs, bind, Except.bind, hg]
      | some x => rw [hg] at he; cases he
    | constant r v => exact absurd he (onCircuit_ne hr _ _ e)
    | not r x => exact absurd he (onCircuit_ne hr _ _ e)
    | xor r a b => exact absurd he (onCircuit_ne hr _ _ e)
    | and r a b => exact absurd he (onCircuit_ne hr _ _ e)
    | or r a b => exact absurd he (onCircuit_ne hr _ _ e)
    | equivalent r a b =>
      have hs : r < w.circs.length := hr
      simp [Op.call, CC.equivalent, CC.xor, CC.not, M.bind_apply, M.pure_apply, M.onCircuit, List.getElem?_eq_getElem hs,
        World.setC, List.getElem?_set_self hs] at he
    | identity r x =>
      have hs : r < w.circs.length := hr
      simp [Op.call, CC.identity, CC.not, M.bind_apply, M.pure_apply, M.onCircuit, List.getElem?_eq_getElem hs,
        World.setC, List.getElem?_set_self hs] at he
    | registerModule r m =>
      have hs : r < w.circs.length := hr.1
      have hm : m < w.circs.length := hr.2
      have hst := hwf.store r _ (List.getElem?_eq_getElem hs)
      simp [Op.call, CC.registerModule, M.bind_apply, M.pure_apply, List.getElem?_eq_getElem hs,
        List.getElem?_eq_getElem hm, List.getElem?_eq_getElem hst] at he
    | storeModule s m =>
      have hs : s < w.stores.length := hr.1
      have hm : m < w.circs.length := hr.2
      simp [Op.call, CC.storeModule, M.bind_apply, M.pure_apply, List.getElem?_eq_getElem hs,
        List.getElem?_eq_getElem hm] at he
    | subCircuit r =>
      have hs : r < w.circs.length := hr
      have hst := hwf.store r _ (List.getElem?_eq_getElem hs)
      simp [Op.call, CC.subCircuit, CC.newCircuit, CC.registerModule, M.bind_apply, M.pure_apply,
        List.getElem?_eq_getElem hs, List.getElem?_eq_getElem hst, List.getElem?_append_left hs] at he
    | clone r =>
      have hs : r < w.circs.length := hr
      simp [Op.call, CC.cloneCircuit, M.bind_apply, M.pure_apply, List.getElem?_eq_getElem hs] at he
    | module r mid ids =>
      have hs : r < w.circs.length := hr
      have hcr := List.getElem?_eq_getElem hs
      have he' : (CC.module r mid ids w).1 = .error e := by
        simp only [Op.call, M.bind_apply] at he
        revert he
        cases CC.module r mid ids w with
        | mk a w' => cases a <;> simp [M.pure_apply]
      cases hg : w.getModule r mid with
      | error e' =>
        have : e' = .unknownModule mid := by
          simp only [World.getModule, World.circuit, hcr, bind, Except.bind] at hg
          split at hg <;> cases hg
          rfl
        subst this
        rw [C09_unknown hg] at he'
        cases he'
        exact .unknown hg
      | ok m =>
        by_cases hmr : m = r
        · subst hmr
          rw [C09_self hg] at he'
          cases he'
          exact .itself hg
        · have hml : m < w.circs.length := by
            simp only [World.getModule, World.circuit, hcr, bind, Except.bind] at hg
            split at hg <;> cases hg
            rename_i hmod
            unfold World.module? at hmod
            split at hmod
            · cases hmod
            · rename_i s hs'
              exact hwf.mods_ref _ _ hs' _ _ hmod
          have hm := List.getElem?_eq_getElem hml
          have := C09_succeeds_iff h hcr hg hmr hm ids
          split at this
          · obtain ⟨outs, ho⟩ := this
            rw [ho] at he'
            cases he'
          · rename_i hlt
            rw [this] at he'
            cases he'
            exact .wires hg hmr hm (by omega)
  · intro hre
    cases hre with
    | @output r g hg =>
      have hs : r < w.circs.length := hr
      simp only [World.getGate, World.circuit, List.getElem?_eq_getElem hs, bind, Except.bind] at hg
      cases hx : w.circs[r].gateMap g with
      | none => simp [Op.call, CC.output, M.bind_apply, M.onCircuit, List.getElem?_eq_getElem hs, Circuit.output, hx]
      | some x => rw [hx] at hg; cases hg
    | unknown hg => simp only [Op.call, M.bind_apply]; rw [C09_unknown hg]
    | itself hg => simp only [Op.call, M.bind_apply]; rw [C09_self hg]
    | @wires r mid ids m c hg hmr hm hlt =>
      have hs : r < w.circs.length := hr
      have := C09_succeeds_iff h (List.getElem?_eq_getElem hs) hg hmr hm ids
      rw [if_neg (by omega)] at this
      simp only [Op.call, M.bind_apply]
      rw [this]

/-- **C73.** A call that fails changes nothing. -/
theorem C73_atomic {w : World} (h : Reachable w) {op : Op} (hr : op.Refs w) {e : Err} (he : (op.call w).1 = .error e) :
    (op.call w).2 = w := by
  cases (C73_exact h hr e).mp he with
  | @output r g hg =>
    have hs : r < w.circs.length := hr
    simp only [World.getGate, World.circuit, List.getElem?_eq_getElem hs, bind, Except.bind] at hg
    cases hx : w.circs[r].gateMap g with
    | none =>
      simp [Op.call, CC.output, M.bind_apply, M.onCircuit, List.getElem?_eq_getElem hs, Circuit.output, hx, World.setC]
    | some x => rw [hx] at hg; cases hg
  | unknown hg => simp only [Op.call, M.bind_apply]; rw [C09_unknown hg]
  | itself hg => simp only [Op.call, M.bind_apply]; rw [C09_self hg]
  | @wires r mid ids m c hg hmr hm hlt =>
    have hs : r < w.circs.length := hr
    have := C09_succeeds_iff h (List.getElem?_eq_getElem hs) hg hmr hm ids
    rw [if_neg (by omega)] at this
    simp only [Op.call, M.bind_apply]
    rw [this]

/-- circuit 0 has an input and calls circuit 1 (module 0), whose output is its input; module 1 is circuit 0 itself -/
def refusals : List Op := [.newStorage, .newCircuit 0, .subCircuit 0, .registerModule 0 0, .input 0, .input 1, .output 1 0]

example : Reachable (run refusals) ∧ (∀ op ∈ ([.output 0 1, .module 0 2 [0], .module 0 1 [0], .module 0 0 [0], .output 0 0, .not 0 5] :
      List Op), op.Refs (run refusals)) ∧
    ((Op.output 0 1).call (run refusals)).1 = .error (.unknownGate 1) ∧
    ((Op.module 0 2 [0]).call (run refusals)).1 = .error (.unknownModule 2) ∧
    ((Op.module 0 1 [0]).call (run refusals)).1 = .error (.panic .alreadyBorrowed) ∧
    ((Op.module 0 0 [0]).call (run refusals)).1 = .error (.panic .underflow) ∧
    ((Op.output 0 0).call (run refusals)).1 = .ok (.wire 0) ∧ ((Op.not 0 5).call (run refusals)).1 = .ok (.gate 1) := by
  refine ⟨run_reachable _, ?_, rfl, rfl, rfl, rfl, rfl, rfl⟩
  intro op hop
  have h0 : 0 < (run refusals).circs.length := by decide
  simp only [List.mem_cons, List.not_mem_nil, or_false] at hop
  rcases hop with h | h | h | h | h | h <;> rw [h] <;> exact h0

/-- **C73.** A circular circuit - through operands, or because circuits call each other - is never evaluated: no result, whatever the
inputs and the depth of the stack. -/
theorem C73_circular {w : World} (h : Reachable w) {r : Ref} (hr : Circular w r) (fuel : Nat) (ins outs : List Bool) :
    evalOutput w fuel r ins ≠ .ok outs :=
  circular_never (WFw.of_reachable h) hr

/-- **C73.** If an evaluation exhausts the stack whatever its size, the circuit is circular. -/
theorem C73_overflow {w : World} (h : Reachable w) {r : Ref} {ins : List Bool}
    (hf : ∀ fuel, evalOutput w fuel r ins = .error .outOfFuel) : Circular w r := by
  exact circular_of_overflow (WFw.of_reachable h) hf

/-- circuit 1 calls circuit 0, and afterwards circuit 0 calls circuit 1; every id that is used exists -/
def twoWay : List Op :=
  [.newStorage, .newCircuit 0, .subCircuit 0, .registerModule 1 0, .input 0, .not 0 0, .output 0 1,
    .input 1, .module 1 1 [0], .output 1 1, .module 0 0 [0], .output 0 2]

example : Reachable (run twoWay) ∧ Circular (run twoWay) 0 := by
  refine ⟨run_reachable _, _, 1, 2, (0, 2), rfl, rfl, .inl rfl, ?_⟩
  exact .cons (.inside (k := 0) rfl rfl rfl rfl rfl) (.one (.inside (k := 1) rfl rfl rfl rfl rfl))

/-- **C74, what holds.** An id that is not a gate of the circuit is refused as an output, and an unknown module is refused. -/
theorem C74_partial {w : World} (h : Reachable w) {r : Ref} (hr : r < w.circs.length) {g : GateId} {mid : ModuleId} (ids : List GateId) :
    (w.getGate r g = .error (.unknownGate g) → ((Op.output r g).call w).1 = .error (.unknownGate g)) ∧
    (w.getModule r mid = .error (.unknownModule mid) → ((Op.module r mid ids).call w).1 = .error (.unknownModule mid)) :=
  ⟨fun e => (C73_exact (op := .output r g) h hr _).mpr (.output e),
    fun e => (C73_exact (op := .module r mid ids) h hr _).mpr (.unknown e)⟩

/-- **C74, refuted.** "A call that is given an id the circuit has not issued is refused" is false for all calls that create gates; nor
is a module call with a wrong number of arguments. -/
theorem C74_false : ∃ w, Reachable w ∧ w.circs.length = 2 ∧ (∀ g, w.getGate 0 g = .error (.unknownGate g)) ∧
    (∃ w', Op.call (.not 0 7) w = (.ok (.gate 0), w')) ∧ (∃ w', Op.call (.xor 0 7 8) w = (.ok (.gate 0), w')) ∧
    (∃ c, callee w 0 0 = some c ∧ c.inputLen = 1 ∧ ∃ w', Op.call (.module 0 0 [7, 8]) w = (.ok (.gates [0]), w')) :=
  ⟨run [.newStorage, .newCircuit 0, .subCircuit 0, .input 1, .not 1 0, .output 1 1], run_reachable _, rfl, fun _ => rfl,
    ⟨_, rfl⟩, ⟨_, rfl⟩, _, rfl, rfl, _, rfl⟩

/-- a NOT gate that is its own operand -/
def selfNot : List Op := [.newStorage, .newCircuit 0, .input 0, .not 0 1, .output 0 1]

theorem selfNot_gate (fuel : Nat) : ∀ st : EvSt, st.evaled 1 = none → evalGate (run selfNot) fuel 0 1 st = .error .outOfFuel := by
  induction fuel with
  | zero => intro _ _; rfl
  | succ n ih =>
    intro st hst
    show (do
      let st ← ensure (evalGate (run selfNot) n 0) 1 st
      let b ← st.bit 1
      let st ← st.release 1
      Except.ok (st.record _ 1 (!b)) : Except Err EvSt) = _
    have : ensure (evalGate (run selfNot) n 0) 1 st = .error .outOfFuel := by
      unfold ensure
      rw [hst]
      exact ih st hst
    rw [this]
    rfl

/-- **C74.** Because ids are not checked, a gate can be made its own operand: the call succeeds, and evaluation then recurses for
ever. -/
theorem C74_loop : (∃ w', Op.call (.not 0 1) (run (selfNot.take 3)) = (.ok (.gate 1), w')) ∧
    ∀ b fuel, evalOutput (run selfNot) fuel 0 [b] = .error .outOfFuel := by
  refine ⟨⟨_, rfl⟩, fun b fuel => ?_⟩
  have := selfNot_gate fuel ((EvSt.empty.record ((run selfNot).circs[0]'(by decide)) 0 b)) rfl
  show (do
    let (b', st) ← (do
      let st ← evalGate (run selfNot) fuel 0 1 (EvSt.empty.record ((run selfNot).circs[0]'(by decide)) 0 b)
      let b'' ← st.bit 1
      Except.ok (b'', st) : Except Err (Bool × EvSt))
    let bs ← evalOutputs _ (evalGate (run selfNot) fuel 0) [b] 1 0 st
    Except.ok (b' :: bs) : Except Err (List Bool)) = _
  rw [this]
  rfl

/-- **C74.** The operators take the second operand's gate ids and nothing else of it: not the circuit it belongs to. -/
theorem C74_ignored (x y : Arith.AInt) (config : Arith.IntConfig) (n : Nat) :
    let y' : Arith.AInt := { y with config := config }
    x.add y = x.add y' ∧ x.sub y = x.sub y' ∧ x.mul y = x.mul y' ∧ x.eq y n = x.eq y' n ∧ x.neq y n = x.neq y' n ∧
      x.less y n = x.less y' n ∧ x.lessOrEq y n = x.lessOrEq y' n ∧ x.larger y n = x.larger y' n ∧
      x.largerOrEq y n = x.largerOrEq y' n :=
  ⟨rfl, rfl, rfl, rfl, rfl, rfl, rfl, rfl, rfl⟩

/-- **C74.** So do the operators on bit vectors. -/
theorem C74_ignored_bits (x y : Logic.Bits) (config : Logic.BitsConfig) (n : Nat) (g : GateId) :
    let y' : Logic.Bits := { y with config := config }
    x.eq y = x.eq y' ∧ x.neq y = x.neq y' ∧ x.mux y n g = x.mux y' n g ∧ x.and y = x.and y' ∧ x.or y = x.or y' ∧ x.xor y = x.xor y' :=
  ⟨rfl, rfl, rfl, rfl, rfl, rfl⟩

/-- **C74.** So do the operators on field elements. They do not even check that the operand is of the same field. -/
theorem C74_ignored_fp (x y : Fp.AFp) (config : Fp.FpConfig) (intConfig : Arith.IntConfig) (n : Nat) :
    let y' : Fp.AFp := { y with config := config, val := { y.val with config := intConfig } }
    x.eq y n = x.eq y' n ∧ x.neq y n = x.neq y' n ∧ x.add y n = x.add y' n ∧ x.sub y n = x.sub y' n ∧ x.mul y n = x.mul y' n :=
  ⟨rfl, rfl, rfl, rfl, rfl⟩

/-- two circuits; the sum of a value of the first and the `k`-th value of the second -/
def mixed (n k : Nat) : M (Ref × Ref) := do
  let st ← newStorage
  let r ← newCircuit st
  let q ← newCircuit st
  let cr ← Arith.IntConfig.new r n
  let cq ← Arith.IntConfig.new q n
  let x ← Arith.AInt.new cr n
  let _ ← M.replicate (Arith.AInt.new cq n) k
  let y ← Arith.AInt.new cq n
  let z ← x.add y
  z.output n
  pure (r, q)

/-- **C74, refuted.** "Adding values of two circuits is refused" is false: the sum of `x` in one circuit and `y` in another is `x + x`,
or, if `y` is not the other circuit's first value, a circuit that cannot be evaluated. -/
theorem C74_mixed_false :
    (∃ w, mixed 2 0 World.empty = (.ok (0, 1), w) ∧
      ∀ a b, ∀ fuel ≥ 100, evalOutput w fuel 0 [a, b] = .ok [false, a]) ∧
    (∃ w, mixed 1 1 World.empty = (.ok (0, 1), w) ∧ ∀ ins fuel outs, evalOutput w fuel 0 ins ≠ .ok outs) := by
  have pl (n k : Nat) : Plays (mixed n k) := by
    unfold mixed
    refine .bind (.op .newStorage (map_world _ _)) fun st => .bind (plays_newCircuit st) fun r => ?_
    refine .bind (plays_newCircuit st) fun q => .bind (plays_intConfig r n) fun cr => .bind (plays_intConfig q n) fun cq => ?_
    refine .bind (plays_AInt_new cr n) fun x => .bind (.replicate (plays_AInt_new cq n) k) fun _ => ?_
    exact .bind (plays_AInt_new cq n) fun y => .bind (plays_AInt_add x y) fun z =>
      .bind (plays_AInt_output z n) fun _ => .pure _
  constructor
  · have e1 : (mixed 2 0 World.empty).1 = .ok (0, 1) := by decide +kernel
    refine ⟨(mixed 2 0 World.empty).2, by rw [← e1], fun a b fuel hf => ?_⟩
    have h1 : ∀ a b, evalOutput (mixed 2 0 World.empty).2 100 0 [a, b] = .ok [false, a] := by decide +kernel
    rw [C13_stable _ (by rw [h1]; simp) hf]
    exact h1 a b
  · have e1 : (mixed 1 1 World.empty).1 = .ok (0, 1) := by decide +kernel
    refine ⟨(mixed 1 1 World.empty).2, by rw [← e1], fun ins fuel outs => ?_⟩
    have e2 : ((mixed 1 1 World.empty).2.circs[0]?.bind fun c => c.outputMap 0) = some 1 := by decide +kernel
    have e3 : (((mixed 1 1 World.empty).2.circs[0]?.bind fun c => c.gateMap 1).map Gate.operands) = some [0, 1] := by
      decide +kernel
    have hr : Reachable (mixed 1 1 World.empty).2 := later_reachable ⟨_, .nil⟩ (pl 1 1 _)
    revert e2 e3 hr
    generalize (mixed 1 1 World.empty).2 = w
    intro e2 e3 hr
    obtain ⟨c, hc, ho⟩ := Option.bind_eq_some_iff.mp e2
    obtain ⟨gate, hg, hx⟩ := Option.map_eq_some_iff.mp e3
    rw [hc] at hg
    exact C73_circular hr ⟨c, 0, 1, _, hc, ho, .inl rfl, .one (.operand hc hg (by rw [hx]; simp))⟩ fuel ins outs

end CC.Props
