import Verif.Proofs.ReleaseRun
import Verif.Proofs.Same

/-!
# Release builds: the statistics modulo 2^64
-/

namespace CC
open Spec

/-- every wire is an input, a constant or the output of a gate, modulo 2^64 -/
structure SumR (c : Circuit) : Prop where
  ids : IdsC c
  numGate : c.numGate < 2 ^ 64
  numConst : c.numConst < 2 ^ 64
  wires : c.numWire = (c.inputLen + c.numConst + c.numGate) % 2 ^ 64

theorem sumR_new (s : StoreRef) : SumR (Circuit.new s) := by
  have := Nat.two_pow_pos 64
  exact ⟨⟨this, this, this⟩, this, this, rfl⟩

theorem sumR_of_counters {c d : Circuit} (h : d.inputLen = c.inputLen ∧ d.outputLen = c.outputLen ∧
    d.numWire = c.numWire ∧ d.numGate = c.numGate ∧ d.numConst = c.numConst ∧ d.gateIndex = c.gateIndex)
    (k : SumR c) : SumR d := by
  obtain ⟨h1, h2, h3, h4, h5, h6⟩ := h
  obtain ⟨⟨k1, k2, k3⟩, k4, k5, k6⟩ := k
  exact ⟨⟨h1 ▸ k1, h2 ▸ k2, h6 ▸ k3⟩, h4 ▸ k4, h5 ▸ k5, by rw [h1, h3, h4, h5]; exact k6⟩

theorem sumR_input {c : Circuit} (h : SumR c) : SumR (Wrapping.input c).2 := by
  refine ⟨Wrapping.input_core.ids c h.ids, h.numGate, h.numConst, ?_⟩
  have := h.wires
  show (c.numWire + 1) % 2 ^ 64 = ((c.inputLen + 1) % 2 ^ 64 + c.numConst + c.numGate) % 2 ^ 64
  omega

theorem sumR_output {c : Circuit} (g : GateId) (h : SumR c) : SumR (Wrapping.output c g).2 := by
  have hi := (Wrapping.output_core g).ids c h.ids
  unfold Wrapping.output at hi ⊢
  split at hi
  · exact h
  · exact ⟨hi, h.numGate, h.numConst, h.wires⟩

theorem sumR_constant {c : Circuit} (v : Bool) (h : SumR c) : SumR (Wrapping.constant c v).2 := by
  refine ⟨(Wrapping.constant_core v).ids c h.ids, h.numGate, Wrapping.add_lt _ _, ?_⟩
  have := h.wires
  show (c.numWire + 1) % 2 ^ 64 = (c.inputLen + (c.numConst + 1) % 2 ^ 64 + c.numGate) % 2 ^ 64
  omega

theorem sumR_not {c : Circuit} (x : GateId) (h : SumR c) : SumR (Wrapping.not c x).2 := by
  obtain ⟨h1, h2, h3, h4, h5, h6⟩ := Checked.counters_addDependence (Wrapping.addGate c (.not x)).2 x c.gateIndex
  have := h.wires
  refine ⟨(Wrapping.not_core x).ids c h.ids, Wrapping.add_lt _ _, ?_, ?_⟩
  · exact Eq.subst (motive := (· < 2 ^ 64)) h5.symm h.numConst
  · show ((Wrapping.addGate c (.not x)).2.addDependence x c.gateIndex).numWire =
      (((Wrapping.addGate c (.not x)).2.addDependence x c.gateIndex).inputLen +
        ((Wrapping.addGate c (.not x)).2.addDependence x c.gateIndex).numConst +
        (((Wrapping.addGate c (.not x)).2.addDependence x c.gateIndex).numGate + 1) % 2 ^ 64) % 2 ^ 64
    rw [h1, h3, h4, h5]
    show (c.numWire + 1) % 2 ^ 64 = (c.inputLen + c.numConst + (c.numGate + 1) % 2 ^ 64) % 2 ^ 64
    omega

theorem sumR_binary {c : Circuit} (gate : Gate) (l r : GateId) (h : SumR c) : SumR (Wrapping.binary gate l r c).2 := by
  obtain ⟨h1, h2, h3, h4, h5, h6⟩ := Checked.counters_addDependence (Wrapping.addGate c gate).2 l c.gateIndex
  obtain ⟨k1, k2, k3, k4, k5, k6⟩ :=
    Checked.counters_addDependence ((Wrapping.addGate c gate).2.addDependence l c.gateIndex) r c.gateIndex
  have := h.wires
  refine ⟨(Wrapping.binary_core gate l r).ids c h.ids, Wrapping.add_lt _ _, ?_, ?_⟩
  · exact Eq.subst (motive := (· < 2 ^ 64)) (k5.trans h5).symm h.numConst
  · show (((Wrapping.addGate c gate).2.addDependence l c.gateIndex).addDependence r c.gateIndex).numWire =
      ((((Wrapping.addGate c gate).2.addDependence l c.gateIndex).addDependence r c.gateIndex).inputLen +
        (((Wrapping.addGate c gate).2.addDependence l c.gateIndex).addDependence r c.gateIndex).numConst +
        ((((Wrapping.addGate c gate).2.addDependence l c.gateIndex).addDependence r c.gateIndex).numGate + 1) % 2 ^ 64) %
          2 ^ 64
    rw [k1, k3, k4, k5, h1, h3, h4, h5]
    show (c.numWire + 1) % 2 ^ 64 = (c.inputLen + c.numConst + (c.numGate + 1) % 2 ^ 64) % 2 ^ 64
    omega

theorem addModuleGates_sumR (a b : Nat) (ids : List GateId) (mid : ModuleId) (k : Nat) : ∀ (c : Circuit) (i : Nat),
    c.numWire < 2 ^ 64 →
    (Wrapping.addModuleGates c a b ids mid i k).2.inputLen = c.inputLen ∧
      (Wrapping.addModuleGates c a b ids mid i k).2.numWire = (c.numWire + k) % 2 ^ 64 ∧
      (Wrapping.addModuleGates c a b ids mid i k).2.numGate = c.numGate ∧
      (Wrapping.addModuleGates c a b ids mid i k).2.numConst = c.numConst := by
  induction k with
  | zero => exact fun c i h => ⟨rfl, (Nat.mod_eq_of_lt h).symm, rfl, rfl⟩
  | succ k ih =>
    intro c i h
    obtain ⟨h1, h2, h3, h4⟩ := ih (Wrapping.addGate c (.module a b ids i mid)).2 (i + 1) (Wrapping.add_lt _ _)
    refine ⟨h1, h2.trans ?_, h3, h4⟩
    show ((c.numWire + 1) % 2 ^ 64 + k) % 2 ^ 64 = (c.numWire + (k + 1)) % 2 ^ 64
    omega

theorem sumR_module {c m : Circuit} (mid : ModuleId) (ids : List GateId) (h : SumR c) (hm : SumR m) :
    SumR (Wrapping.module c m mid ids).2 := by
  refine sumR_of_counters (Checked.counters_addModuleDeps _ ids _) ?_
  obtain ⟨h1, h2, h3, h4⟩ := addModuleGates_sumR m.inputLen m.outputLen ids mid m.outputLen { c with
      numWire := Wrapping.add c.numWire (Wrapping.sub (Wrapping.sub m.numWire m.inputLen) m.outputLen)
      numGate := Wrapping.add c.numGate m.numGate
      numConst := Wrapping.add c.numConst m.numConst } 0 (Wrapping.add_lt _ _)
  have hi := (Wrapping.addModuleGates_core m.inputLen m.outputLen ids mid m.outputLen 0).ids { c with
      numWire := Wrapping.add c.numWire (Wrapping.sub (Wrapping.sub m.numWire m.inputLen) m.outputLen)
      numGate := Wrapping.add c.numGate m.numGate
      numConst := Wrapping.add c.numConst m.numConst } ⟨h.ids.1, h.ids.2, h.ids.3⟩
  refine ⟨hi, ?_, ?_, ?_⟩
  · exact Eq.subst (motive := (· < 2 ^ 64)) h3.symm (Wrapping.add_lt _ _)
  · exact Eq.subst (motive := (· < 2 ^ 64)) h4.symm (Wrapping.add_lt _ _)
  · have e1 := h.wires
    have e2 := hm.wires
    have e3 := hm.ids.inputLen
    have e4 := hm.ids.outputLen
    rw [h1, h2, h3, h4]
    simp only [Wrapping.add, Wrapping.sub]
    omega

/-- a property of circuits preserved by all methods of a release build -/
theorem sumR_call (op : Op) {w : World} (h : AllC SumR w) : AllC SumR (op.callR w).2 := by
  have hret {α} (x : M α) (f : α → Ret) : ((do return f (← x) : M Ret) w).2 = (x w).2 := by
    simp only [M.bind_apply]
    cases x w with
    | mk a w' => cases a <;> rfl
  have hnot {w : World} (h : AllC SumR w) (r : Ref) (x : GateId) : AllC SumR (WrappingApi.not r x w).2 :=
    h.onCircuit r _ fun c k => sumR_not x k
  have hbin {w : World} (h : AllC SumR w) (r : Ref) (gate : Gate) (a b : GateId) :
      AllC SumR (WrappingApi.binary r gate a b w).2 := h.onCircuit r _ fun c k => sumR_binary gate a b k
  have hreg {w : World} (h : AllC SumR w) (r m : Ref) : AllC SumR (WrappingApi.registerModule r m w).2 := by
    unfold WrappingApi.registerModule
    repeat' split
    all_goals exact h
  have hnew (s : StoreRef) : AllC SumR (CC.newCircuit s w).2 := by
    unfold CC.newCircuit
    split
    · exact h
    · intro c hc
      rcases List.mem_append.mp hc with hc | hc
      · exact h c hc
      · rw [List.mem_singleton] at hc
        exact hc ▸ sumR_new s
  cases op with
  | newStorage =>
    simp only [Op.callR, hret]
    exact h
  | newCircuit s =>
    simp only [Op.callR, hret]
    exact hnew s
  | input r =>
    simp only [Op.callR, hret]
    exact h.onCircuit r _ fun c k => sumR_input k
  | output r g =>
    simp only [Op.callR, hret]
    exact h.onCircuit r _ fun c k => sumR_output g k
  | constant r v =>
    simp only [Op.callR, hret]
    exact h.onCircuit r _ fun c k => sumR_constant v k
  | not r x =>
    simp only [Op.callR, hret]
    exact hnot h r x
  | xor r a b =>
    simp only [Op.callR, hret]
    exact hbin h r _ a b
  | and r a b =>
    simp only [Op.callR, hret]
    exact hbin h r _ a b
  | or r a b =>
    simp only [Op.callR, hret]
    exact hbin h r _ a b
  | equivalent r a b =>
    simp only [Op.callR, hret]
    unfold WrappingApi.equivalent
    rw [M.bind_apply]
    have k := hbin h r (.xor a b) a b
    unfold WrappingApi.xor
    cases hx : WrappingApi.binary r (.xor a b) a b w with
    | mk x w' =>
      rw [hx] at k
      cases x with
      | ok x => exact hnot k r x
      | error e => exact k
  | identity r x =>
    simp only [Op.callR, hret]
    unfold WrappingApi.identity
    rw [M.bind_apply]
    have k := hnot h r x
    cases hx : WrappingApi.not r x w with
    | mk y w' =>
      rw [hx] at k
      cases y with
      | ok y => exact hnot k r y
      | error e => exact k
  | registerModule r m =>
    simp only [Op.callR, hret]
    exact hreg h r m
  | storeModule s m =>
    simp only [Op.callR, hret]
    unfold WrappingApi.storeModule
    repeat' split
    all_goals exact h
  | clone r =>
    simp only [Op.callR, hret]
    unfold cloneCircuit
    split
    · exact h
    · next c hc =>
      intro d hd
      rcases List.mem_append.mp hd with hd | hd
      · exact h d hd
      · rw [List.mem_singleton] at hd
        exact hd ▸ h.get hc
  | subCircuit r =>
    have e : ((Op.subCircuit r).callR w).2 = (WrappingApi.subCircuit r w).2 := by
      simp only [Op.callR, M.bind_apply]
      cases WrappingApi.subCircuit r w with
      | mk a w' => cases a <;> rfl
    rw [e]
    unfold WrappingApi.subCircuit
    split
    · exact h
    · next c hc =>
      rw [M.bind_apply]
      have k := hnew c.storage
      cases hn : CC.newCircuit c.storage w with
      | mk n w' =>
        rw [hn] at k
        cases n with
        | error e => exact k
        | ok n =>
          simp only [M.bind_apply]
          have k' := hreg k r n
          cases hr : WrappingApi.registerModule r n w' with
          | mk a w'' =>
            rw [hr] at k'
            cases a <;> exact k'
  | module r mid ids =>
    simp only [Op.callR, hret]
    unfold WrappingApi.module
    split
    · exact h
    · next c hc =>
      split
      · exact h
      · split
        · exact h
        · split
          · exact h
          · next m hm => exact h.setC (sumR_module mid ids (h.get hc) (h.get hm))

theorem Spec.RunR.sum {w : World} (h : RunR w) : AllC SumR w := by
  induction h with
  | nil => exact fun _ h => absurd h List.not_mem_nil
  | step op _ ih => exact sumR_call op ih

/-! ### no arithmetic panics -/

/-- the call does not panic on arithmetic -/
def NoArith {α} (x : M α) : Prop := ∀ w e, (x w).1 = .error e → ¬Arith e

theorem NoArith.pure {α} (a : α) : NoArith (Pure.pure a : M α) := fun _ _ h => by cases h

theorem NoArith.bind {α β} {x : M α} {f : α → M β} (hx : NoArith x) (hf : ∀ a, NoArith (f a)) : NoArith (x >>= f) := by
  intro w e h
  simp only [M.bind_apply] at h
  cases hxw : x w with
  | mk a w' =>
    rw [hxw] at h
    cases a with
    | ok a => exact hf a w' e h
    | error e' =>
      cases h
      exact hx w e (by rw [hxw])

theorem NoArith.onCircuit {α} (r : Ref) {f : Circuit → Except Err α × Circuit}
    (h : ∀ c e, (f c).1 = .error e → ¬Arith e) : NoArith (M.onCircuit r f) := by
  intro w e k
  unfold M.onCircuit at k
  split at k
  · cases k; exact fun h => h
  · exact h _ e k

theorem NoArith.ok {α} (r : Ref) (f : Circuit → α × Circuit) : NoArith (M.onCircuit r fun c => (.ok (f c).1, (f c).2)) :=
  .onCircuit r fun _ _ h => by cases h

theorem noArith_newCircuit (s : StoreRef) : NoArith (CC.newCircuit s) := by
  intro w e h
  unfold CC.newCircuit at h
  split at h
  · cases h; exact fun h => h
  · cases h

theorem noArith_registerModule (r m : Ref) : NoArith (WrappingApi.registerModule r m) := by
  intro w e h
  unfold WrappingApi.registerModule at h
  repeat' split at h
  all_goals (cases h; try exact fun h => h)

theorem noArith_storeModule (s : StoreRef) (m : Ref) : NoArith (WrappingApi.storeModule s m) := by
  intro w e h
  unfold WrappingApi.storeModule at h
  repeat' split at h
  all_goals (cases h; try exact fun h => h)

theorem noArith_clone (r : Ref) : NoArith (cloneCircuit r) := by
  intro w e h
  unfold cloneCircuit at h
  split at h
  all_goals (cases h; try exact fun h => h)

theorem noArith_subCircuit (r : Ref) : NoArith (WrappingApi.subCircuit r) := by
  intro w e h
  unfold WrappingApi.subCircuit at h
  split at h
  · cases h; exact fun h => h
  · next c hc =>
    exact ((noArith_newCircuit c.storage).bind fun n => (noArith_registerModule r n).bind fun mid =>
      NoArith.pure (mid, n)) w e h

theorem noArith_module (r : Ref) (mid : ModuleId) (ids : List GateId) : NoArith (WrappingApi.module r mid ids) := by
  intro w e h
  unfold WrappingApi.module at h
  repeat' split at h
  all_goals (cases h; try exact fun h => h)

theorem noArith_callR (op : Op) : NoArith op.callR := by
  have hnot r x : NoArith (WrappingApi.not r x) := .ok r fun c => Wrapping.not c x
  have hbin r gate a b : NoArith (WrappingApi.binary r gate a b) := .ok r (Wrapping.binary gate a b)
  cases op with
  | newStorage => exact NoArith.bind (fun _ _ h => by cases h) fun _ => .pure _
  | newCircuit s => exact (noArith_newCircuit s).bind fun _ => .pure _
  | input r => exact (NoArith.ok r Wrapping.input).bind fun _ => .pure _
  | output r g =>
    refine NoArith.bind (.onCircuit r fun c e h => ?_) fun _ => .pure _
    unfold Wrapping.output at h
    split at h <;> cases h
    exact fun h => h
  | constant r v => exact (NoArith.ok r fun c => Wrapping.constant c v).bind fun _ => .pure _
  | not r x => exact (hnot r x).bind fun _ => .pure _
  | xor r a b => exact (hbin r _ a b).bind fun _ => .pure _
  | and r a b => exact (hbin r _ a b).bind fun _ => .pure _
  | or r a b => exact (hbin r _ a b).bind fun _ => .pure _
  | equivalent r a b => exact ((hbin r _ a b).bind fun x => hnot r x).bind fun _ => .pure _
  | identity r x => exact ((hnot r x).bind fun y => hnot r y).bind fun _ => .pure _
  | registerModule r m => exact (noArith_registerModule r m).bind fun _ => .pure _
  | storeModule s m => exact (noArith_storeModule s m).bind fun _ => .pure _
  | clone r => exact (noArith_clone r).bind fun _ => .pure _
  | subCircuit r => exact (noArith_subCircuit r).bind fun _ => .pure _
  | module r mid ids => exact (noArith_module r mid ids).bind fun _ => .pure _

end CC
