import Verif.Proofs.Built
import Verif.Proofs.Checked
import Verif.Spec.Release

/-!
# Release builds

First, what does not overflow is the same as with unbounded counters. Then, whatever the three statistics `num_wire`,
`num_gate` and `num_const` do, the maps are those of the unbounded model.
-/

namespace CC
open Spec

namespace Wrapping

theorem add_of_lt {a b : Nat} (h : a + b < 2 ^ 64) : add a b = a + b := Nat.mod_eq_of_lt h

theorem add_lt (a b : Nat) : add a b < 2 ^ 64 := Nat.mod_lt _ (Nat.two_pow_pos 64)

theorem sub_of_le {a b : Nat} (h : b ≤ a) (ha : a < 2 ^ 64) : sub a b = a - b := by
  unfold sub
  omega

/-! ### no overflow -/

theorem addGate_fits {c : Circuit} {gate : Gate} (h : FitsC (c.addGate gate).2) : addGate c gate = c.addGate gate := by
  have h1 : c.gateIndex + 1 < 2 ^ 64 := h.gateIndex
  have h2 : c.numWire + 1 < 2 ^ 64 := h.numWire
  unfold addGate Circuit.addGate
  rw [add_of_lt h1, add_of_lt h2]

theorem input_fits {c : Circuit} (h : FitsC c.input.2) : input c = c.input := by
  have h1 : c.gateIndex + 1 < 2 ^ 64 := h.gateIndex
  have h2 : c.numWire + 1 < 2 ^ 64 := h.numWire
  have h3 : c.inputLen + 1 < 2 ^ 64 := h.inputLen
  simp only [input, Circuit.input, addGate, Circuit.addGate, add_of_lt h1, add_of_lt h2, add_of_lt h3]

theorem output_fits {c : Circuit} {g : GateId} (h : FitsC (c.output g).2) : output c g = c.output g := by
  unfold output Circuit.output at *
  cases hg : c.gateMap g with
  | none => rfl
  | some gate =>
    rw [hg] at h
    have h1 : c.outputLen + 1 < 2 ^ 64 := h.outputLen
    simp only [add_of_lt h1]

theorem constant_fits {c : Circuit} {v : Bool} (h : FitsC (c.constant v).2) : constant c v = c.constant v := by
  have h1 : c.gateIndex + 1 < 2 ^ 64 := h.gateIndex
  have h2 : c.numWire + 1 < 2 ^ 64 := h.numWire
  have h3 : c.numConst + 1 < 2 ^ 64 := h.numConst
  simp only [constant, Circuit.constant, addGate, Circuit.addGate, add_of_lt h1, add_of_lt h2, add_of_lt h3]

theorem not_fits {c : Circuit} {x : GateId} (h : FitsC (c.not x).2) : not c x = c.not x := by
  obtain ⟨_, _, a3, a4, _, a6⟩ := Checked.counters_addDependence (c.addGate (.not x)).2 x c.gateIndex
  have h1 : c.gateIndex + 1 < 2 ^ 64 := Eq.subst (motive := (· < 2 ^ 64)) a6 h.gateIndex
  have h2 : c.numWire + 1 < 2 ^ 64 := Eq.subst (motive := (· < 2 ^ 64)) a3 h.numWire
  have h3 : ((c.addGate (.not x)).2.addDependence x c.gateIndex).numGate + 1 < 2 ^ 64 := h.numGate
  simp only [Circuit.addGate] at h3
  simp only [not, Circuit.not, addGate, Circuit.addGate, add_of_lt h1, add_of_lt h2, add_of_lt h3]

/-- what `xor`, `and`, `or` do with unbounded counters -/
def binaryU (gate : Gate) (l r : GateId) (c : Circuit) : GateId × Circuit :=
  let (g, c1) := c.addGate gate
  let c2 := c1.addDependence l g
  let c3 := c2.addDependence r g
  (g, { c3 with numGate := c3.numGate + 1 })

theorem binary_fits {c : Circuit} {gate : Gate} {l r : GateId} (h : FitsC (binaryU gate l r c).2) :
    binary gate l r c = binaryU gate l r c := by
  obtain ⟨_, _, a3, a4, _, a6⟩ := Checked.counters_addDependence (c.addGate gate).2 l c.gateIndex
  obtain ⟨_, _, b3, b4, _, b6⟩ :=
    Checked.counters_addDependence ((c.addGate gate).2.addDependence l c.gateIndex) r c.gateIndex
  have h1 : c.gateIndex + 1 < 2 ^ 64 := Eq.subst (motive := (· < 2 ^ 64)) (b6.trans a6) h.gateIndex
  have h2 : c.numWire + 1 < 2 ^ 64 := Eq.subst (motive := (· < 2 ^ 64)) (b3.trans a3) h.numWire
  have h3 : (((c.addGate gate).2.addDependence l c.gateIndex).addDependence r c.gateIndex).numGate + 1 < 2 ^ 64 :=
    h.numGate
  simp only [Circuit.addGate] at h3
  simp only [binary, binaryU, addGate, Circuit.addGate, add_of_lt h1, add_of_lt h2, add_of_lt h3]

theorem addModuleGates_fits (a b : Nat) (ids : List GateId) (mid : ModuleId) (k : Nat) : ∀ (c : Circuit) (i : Nat),
    FitsC (c.addModuleGates a b ids mid i k).2 →
      addModuleGates c a b ids mid i k = c.addModuleGates a b ids mid i k := by
  induction k with
  | zero => exact fun _ _ _ => rfl
  | succ k ih =>
    intro c i h
    have hle := (Checked.addModuleGates_agrees a b ids mid k (i + 1)).le (c.addGate (.module a b ids i mid)).2
    have h1 : addGate c (.module a b ids i mid) = c.addGate (.module a b ids i mid) := addGate_fits (hle.fits h)
    have h2 := ih (c.addGate (.module a b ids i mid)).2 (i + 1) h
    simp only [addModuleGates, Circuit.addModuleGates, h1, h2]

theorem module_fits {c m : Circuit} {mid : ModuleId} {ids : List GateId} (hm : FitsC m)
    (hroom : m.inputLen + m.outputLen ≤ m.numWire) (h : FitsC (c.module m mid ids).2) :
    (.ok (module c m mid ids).1, (module c m mid ids).2) = c.module m mid ids := by
  have hm1 := hm.numWire
  have e1 : sub (sub m.numWire m.inputLen) m.outputLen = m.numWire - m.inputLen - m.outputLen := by
    rw [sub_of_le (a := m.numWire) (by omega) hm1, sub_of_le (by omega) (by omega)]
  unfold Circuit.module at h ⊢
  rw [if_neg (by omega), if_neg (by omega)] at h ⊢
  simp only at h ⊢
  obtain ⟨g1, g2, g3, g4, g5, g6⟩ := Checked.counters_addModuleDeps
    (Circuit.addModuleGates { c with
      numWire := c.numWire + (m.numWire - m.inputLen - m.outputLen)
      numGate := c.numGate + m.numGate
      numConst := c.numConst + m.numConst } m.inputLen m.outputLen ids mid 0 m.outputLen).2 ids
    (Circuit.addModuleGates { c with
      numWire := c.numWire + (m.numWire - m.inputLen - m.outputLen)
      numGate := c.numGate + m.numGate
      numConst := c.numConst + m.numConst } m.inputLen m.outputLen ids mid 0 m.outputLen).1
  have h1 : FitsC (Circuit.addModuleGates { c with
      numWire := c.numWire + (m.numWire - m.inputLen - m.outputLen)
      numGate := c.numGate + m.numGate
      numConst := c.numConst + m.numConst } m.inputLen m.outputLen ids mid 0 m.outputLen).2 :=
    ⟨g1 ▸ h.1, g2 ▸ h.2, g3 ▸ h.3, g4 ▸ h.4, g5 ▸ h.5, g6 ▸ h.6⟩
  have h2 := ((Checked.addModuleGates_agrees m.inputLen m.outputLen ids mid m.outputLen 0).le _).fits h1
  have k1 : c.numWire + (m.numWire - m.inputLen - m.outputLen) < 2 ^ 64 := h2.numWire
  have k2 : c.numGate + m.numGate < 2 ^ 64 := h2.numGate
  have k3 : c.numConst + m.numConst < 2 ^ 64 := h2.numConst
  unfold module
  simp only [e1, add_of_lt k1, add_of_lt k2, add_of_lt k3, addModuleGates_fits _ _ _ _ _ _ _ h1]

end Wrapping

/-! ### no overflow: heaps -/

/-- a call that wraps around nowhere -/
structure SameR {α} (fR f : M α) : Prop where
  le : ∀ w, LeW w (f w).2
  same : ∀ w, Fits (f w).2 → (f w).1 ≠ .error (.panic .underflow) → fR w = f w

theorem SameR.refl {α} (f : M α) (h : ∀ w, LeW w (f w).2) : SameR f f := ⟨h, fun _ _ _ => rfl⟩

theorem SameR.pure {α} (a : α) : SameR (Pure.pure a : M α) (Pure.pure a) := .refl _ fun _ => LeW.rfl'

theorem SameR.bind {α β} {xR x : M α} {fR f : α → M β} (hx : SameR xR x) (hf : ∀ a, SameR (fR a) (f a)) :
    SameR (xR >>= fR) (x >>= f) := by
  refine ⟨fun w => ?_, fun w h k => ?_⟩
  · have h := hx.le w
    simp only [M.bind_apply]
    cases hxw : x w with
    | mk a w' =>
      rw [hxw] at h
      cases a with
      | ok a => exact h.trans ((hf a).le w')
      | error e => exact h
  · simp only [M.bind_apply] at h k ⊢
    cases hxw : x w with
    | mk a w' =>
      rw [hxw] at h k
      cases a with
      | ok a =>
        have h1 := hx.same w (by rw [hxw]; exact ((hf a).le w').fits h) (by rw [hxw]; exact fun e => by cases e)
        rw [h1, hxw]
        exact (hf a).same w' h k
      | error e =>
        have h1 := hx.same w (by rw [hxw]; exact h) (by rw [hxw]; exact fun e' => k (by cases e'; rfl))
        rw [h1, hxw]

theorem SameR.onCircuit {α} (r : Ref) {fR f : Circuit → Except Err α × Circuit} (hle : ∀ c, Checked.Le c (f c).2)
    (h : ∀ c, FitsC (f c).2 → fR c = f c) : SameR (M.onCircuit r fR) (M.onCircuit r f) := by
  refine ⟨fun w => ?_, fun w => ?_⟩
  · unfold M.onCircuit
    cases hc : w.circs[r]? with
    | none => exact LeW.rfl'
    | some c => exact LeW.setC hc (hle c)
  · unfold M.onCircuit
    cases hc : w.circs[r]? with
    | none => exact fun _ _ => rfl
    | some c =>
      intro k _
      have := h c (fits_of_setC hc k)
      simp only [this]

theorem pair_eq {α β} {p q : α × β} (h : p = q) : ((.ok p.1, p.2) : Except Err α × β) = (.ok q.1, q.2) := by rw [h]

theorem sameR_not (r : Ref) (x : GateId) : SameR (WrappingApi.not r x) (CC.not r x) :=
  .onCircuit r (Checked.not_agrees x).le fun _ h => pair_eq (Wrapping.not_fits h)

theorem sameR_binary (r : Ref) (gate : Gate) (a b : GateId) :
    SameR (WrappingApi.binary r gate a b)
      (M.onCircuit r fun c => (.ok (Wrapping.binaryU gate a b c).1, (Wrapping.binaryU gate a b c).2)) :=
  .onCircuit r (Checked.binary_agrees gate a b).le fun _ h => pair_eq (Wrapping.binary_fits h)

theorem sameR_registerModule (r m : Ref) : SameR (WrappingApi.registerModule r m) (CC.registerModule r m) := by
  refine ⟨(registerModule_agrees r m).le, fun w h _ => ?_⟩
  unfold CC.registerModule at h
  unfold WrappingApi.registerModule CC.registerModule
  cases hr : w.circs[r]? with
  | none => rfl
  | some c =>
    rw [hr] at h
    simp only at h ⊢
    cases hm : w.circs[m]? with
    | none => rfl
    | some d =>
      rw [hm] at h
      simp only at h ⊢
      cases hs : w.stores[c.storage]? with
      | none => rfl
      | some s =>
        rw [hs] at h
        simp only at h ⊢
        have hlt := (List.getElem?_eq_some_iff.mp hs).1
        have h1 : s.numModule + 1 < 2 ^ 64 :=
          h.stores (s.register m).2 (List.mem_iff_getElem?.mpr ⟨c.storage, by simp [hlt]⟩)
        simp only [Wrapping.register, Storage.register, Wrapping.add_of_lt h1]

theorem sameR_storeModule (q : StoreRef) (m : Ref) : SameR (WrappingApi.storeModule q m) (CC.storeModule q m) := by
  refine ⟨(storeModule_agrees q m).le, fun w h _ => ?_⟩
  unfold CC.storeModule at h
  unfold WrappingApi.storeModule CC.storeModule
  cases hm : w.circs[m]? with
  | none => rfl
  | some d =>
    rw [hm] at h
    simp only at h ⊢
    cases hs : w.stores[q]? with
    | none => rfl
    | some s =>
      rw [hs] at h
      simp only at h ⊢
      have hlt := (List.getElem?_eq_some_iff.mp hs).1
      have h1 : s.numModule + 1 < 2 ^ 64 :=
        h.stores (s.register m).2 (List.mem_iff_getElem?.mpr ⟨q, by simp [hlt]⟩)
      simp only [Wrapping.register, Storage.register, Wrapping.add_of_lt h1]

theorem sameR_subCircuit (r : Ref) : SameR (WrappingApi.subCircuit r) (CC.subCircuit r) := by
  have key (s : StoreRef) : SameR
      (do let n ← newCircuit s; let mid ← WrappingApi.registerModule r n; pure (mid, n))
      (do let n ← newCircuit s; let mid ← CC.registerModule r n; pure (mid, n)) :=
    (SameR.refl _ (newCircuit_agrees s).le).bind fun n => (sameR_registerModule r n).bind fun mid => SameR.pure _
  refine ⟨(subCircuit_agrees r).le, fun w => ?_⟩
  unfold WrappingApi.subCircuit CC.subCircuit
  cases hr : w.circs[r]? with
  | none => exact fun _ _ => rfl
  | some c => exact (key c.storage).same w

theorem sameR_module (r : Ref) (mid : ModuleId) (ids : List GateId) :
    SameR (WrappingApi.module r mid ids) (CC.module r mid ids) := by
  refine ⟨(module_agreesW r mid ids).le, fun w h0 => ?_⟩
  have hfit := ((module_agreesW r mid ids).le w).fits h0
  revert h0
  unfold WrappingApi.module CC.module
  cases hr : w.circs[r]? with
  | none => exact fun _ _ => rfl
  | some c =>
    simp only
    cases hm : w.module? c mid with
    | none => exact fun _ _ => rfl
    | some mr =>
      simp only
      by_cases e : mr = r
      · simp only [if_pos e]
        exact fun _ _ => trivial
      · simp only [if_neg e]
        cases hmr : w.circs[mr]? with
        | none => exact fun _ _ => rfl
        | some m =>
          intro h k
          have hroom : m.inputLen + m.outputLen ≤ m.numWire := by
            refine Nat.le_of_not_lt fun hlt => k ?_
            show (c.module m mid ids).1 = _
            rw [Circuit.module_err mid ids (by omega)]
          have h1 := Wrapping.module_fits (hfit.circs m (List.mem_iff_getElem?.mpr ⟨mr, hmr⟩)) hroom (fits_of_setC hr h)
          simp only [← h1]

theorem callR_same (op : Op) : SameR op.callR op.call := by
  cases op with
  | newStorage => exact (SameR.refl _ newStorage_agrees.le).bind fun _ => SameR.pure _
  | newCircuit s => exact (SameR.refl _ (newCircuit_agrees s).le).bind fun _ => SameR.pure _
  | input r =>
    exact (SameR.onCircuit r Checked.input_agrees.le fun _ h => pair_eq (Wrapping.input_fits h)).bind
      fun _ => SameR.pure _
  | output r g =>
    exact (SameR.onCircuit r (Checked.output_agrees g).le fun _ h => Wrapping.output_fits h).bind fun _ => SameR.pure _
  | constant r v =>
    exact (SameR.onCircuit r (Checked.constant_agrees v).le fun _ h => pair_eq (Wrapping.constant_fits h)).bind
      fun _ => SameR.pure _
  | not r x => exact (sameR_not r x).bind fun _ => SameR.pure _
  | xor r a b => exact (sameR_binary r _ a b).bind fun _ => SameR.pure _
  | and r a b => exact (sameR_binary r _ a b).bind fun _ => SameR.pure _
  | or r a b => exact (sameR_binary r _ a b).bind fun _ => SameR.pure _
  | equivalent r a b => exact ((sameR_binary r _ a b).bind fun x => sameR_not r x).bind fun _ => SameR.pure _
  | identity r x => exact ((sameR_not r x).bind fun y => sameR_not r y).bind fun _ => SameR.pure _
  | registerModule r m => exact (sameR_registerModule r m).bind fun _ => SameR.pure _
  | storeModule s m => exact (sameR_storeModule s m).bind fun _ => SameR.pure _
  | clone r => exact (SameR.refl _ (clone_agrees r).le).bind fun _ => SameR.pure _
  | subCircuit r => exact (sameR_subCircuit r).bind fun _ => SameR.pure _
  | module r mid ids => exact (sameR_module r mid ids).bind fun _ => SameR.pure _

/-! ### the maps, whatever the statistics do -/

/-- everything but `num_wire`, `num_gate` and `num_const` is equal -/
structure Core (c d : Circuit) : Prop where
  inputMap : c.inputMap = d.inputMap
  outputMap : c.outputMap = d.outputMap
  gateMap : c.gateMap = d.gateMap
  storage : c.storage = d.storage
  depMap : c.depMap = d.depMap
  constGates : c.constGates = d.constGates
  inputLen : c.inputLen = d.inputLen
  outputLen : c.outputLen = d.outputLen
  gateIndex : c.gateIndex = d.gateIndex

theorem Core.rfl' {c : Circuit} : Core c c := ⟨rfl, rfl, rfl, rfl, rfl, rfl, rfl, rfl, rfl⟩

theorem Core.symm {c d : Circuit} (h : Core c d) : Core d c :=
  ⟨h.1.symm, h.2.symm, h.3.symm, h.4.symm, h.5.symm, h.6.symm, h.7.symm, h.8.symm, h.9.symm⟩

theorem Core.trans {a b c : Circuit} (h : Core a b) (k : Core b c) : Core a c :=
  ⟨h.1.trans k.1, h.2.trans k.2, h.3.trans k.3, h.4.trans k.4, h.5.trans k.5, h.6.trans k.6, h.7.trans k.7,
    h.8.trans k.8, h.9.trans k.9⟩

/-- the counters that hand out ids fit -/
structure IdsC (c : Circuit) : Prop where
  inputLen : c.inputLen < 2 ^ 64
  outputLen : c.outputLen < 2 ^ 64
  gateIndex : c.gateIndex < 2 ^ 64

/-- a method of a release build against the one with unbounded counters -/
structure CoreStep {α} (fR f : Circuit → α × Circuit) : Prop where
  ids : ∀ c, IdsC c → IdsC (fR c).2
  room : ∀ c, RoomC (fR c).2 → RoomC c
  core : ∀ c d, IdsC c → RoomC (fR c).2 → Core c d → (fR c).1 = (f d).1 ∧ Core (fR c).2 (f d).2

namespace Wrapping

theorem insert_none {α} {m : Map Nat α} {k j : Nat} {a : α} (h : m.insert k a j = none) : m j = none ∧ j ≠ k := by
  rw [Map.insert_apply] at h
  split at h
  · cases h
  · next e => exact ⟨h, e⟩

/-- a counter that hands out the id `n` while the largest id is not yet in use does not wrap around -/
theorem add_one {n : Nat} (h : n < 2 ^ 64) (k : top ≠ n) : add n 1 = n + 1 := by
  refine add_of_lt ?_
  simp only [top] at k
  omega

theorem roomC_addDependence {c : Circuit} {x g : GateId} (h : RoomC (c.addDependence x g)) : RoomC c := by
  unfold Circuit.addDependence at h
  split at h <;> exact ⟨h.1, h.2, h.3⟩

theorem idsC_addDependence {c : Circuit} {x g : GateId} (h : IdsC c) : IdsC (c.addDependence x g) := by
  unfold Circuit.addDependence
  split <;> exact ⟨h.1, h.2, h.3⟩

theorem core_addDependence {c d : Circuit} (h : Core c d) (x g : GateId) :
    Core (c.addDependence x g) (d.addDependence x g) := by
  unfold Circuit.addDependence
  rw [h.depMap]
  split <;> exact ⟨h.1, h.2, h.3, h.4, rfl, h.6, h.7, h.8, h.9⟩

theorem addGate_core (gate : Gate) : CoreStep (fun c => addGate c gate) (fun c => c.addGate gate) where
  ids c h := ⟨h.1, h.2, add_lt _ _⟩
  room c h := ⟨(insert_none h.1).1, h.2, h.3⟩
  core c d hi hr h := by
    have := add_one hi.gateIndex (insert_none hr.gate).2
    refine ⟨h.gateIndex, h.1, h.2, ?_, h.4, h.5, h.6, h.7, h.8, ?_⟩
    · show c.gateMap.insert c.gateIndex gate = d.gateMap.insert d.gateIndex gate
      rw [h.gateMap, h.gateIndex]
    · show add c.gateIndex 1 = d.gateIndex + 1
      rw [this, h.gateIndex]

theorem input_core : CoreStep input Circuit.input where
  ids c h := ⟨add_lt _ _, h.2, add_lt _ _⟩
  room c h := ⟨(insert_none h.1).1, (insert_none h.2).1, h.3⟩
  core c d hi hr h := by
    have a1 := add_one hi.gateIndex (insert_none hr.gate).2
    have a2 := add_one hi.inputLen (insert_none hr.input).2
    refine ⟨h.gateIndex, ?_, h.2, ?_, h.4, h.5, h.6, ?_, h.8, ?_⟩
    · show c.inputMap.insert c.inputLen c.gateIndex = d.inputMap.insert d.inputLen d.gateIndex
      rw [h.inputMap, h.gateIndex, h.inputLen]
    · show c.gateMap.insert c.gateIndex (.input c.inputLen) = d.gateMap.insert d.gateIndex (.input d.inputLen)
      rw [h.gateMap, h.gateIndex, h.inputLen]
    · show add c.inputLen 1 = d.inputLen + 1
      rw [a2, h.inputLen]
    · show add c.gateIndex 1 = d.gateIndex + 1
      rw [a1, h.gateIndex]

theorem output_core (g : GateId) : CoreStep (fun c => output c g) (fun c => c.output g) where
  ids c h := by
    simp only [output]
    split
    · exact h
    · exact ⟨h.1, add_lt _ _, h.3⟩
  room c h := by
    simp only [output] at h
    split at h
    · exact h
    · exact ⟨h.1, h.2, (insert_none h.3).1⟩
  core c d hi hr h := by
    simp only [output, Circuit.output] at hr ⊢
    rw [← h.gateMap]
    cases hg : c.gateMap g with
    | none => exact ⟨rfl, h⟩
    | some gate =>
      rw [hg] at hr
      have a1 := add_one hi.outputLen (insert_none hr.output).2
      refine ⟨by simp only [h.outputLen], h.1, ?_, rfl, h.4, h.5, h.6, h.7, ?_, h.9⟩
      · show c.outputMap.insert c.outputLen g = d.outputMap.insert d.outputLen g
        rw [h.outputMap, h.outputLen]
      · show add c.outputLen 1 = d.outputLen + 1
        rw [a1, h.outputLen]

theorem constant_core (v : Bool) : CoreStep (fun c => constant c v) (fun c => c.constant v) where
  ids c h := ⟨h.1, h.2, add_lt _ _⟩
  room c h := ⟨(insert_none h.1).1, h.2, h.3⟩
  core c d hi hr h := by
    obtain ⟨h1, h2⟩ := (addGate_core (.const v)).core c d hi ⟨hr.1, hr.2, hr.3⟩ h
    refine ⟨h1, h2.1, h2.2, h2.3, h2.4, h2.5, ?_, h2.7, h2.8, h2.9⟩
    show c.constGates ++ [c.gateIndex] = d.constGates ++ [d.gateIndex]
    rw [h.constGates, h.gateIndex]

theorem not_core (x : GateId) : CoreStep (fun c => not c x) (fun c => c.not x) where
  ids c h := by
    have := idsC_addDependence (x := x) (g := c.gateIndex) ((addGate_core (.not x)).ids c h)
    exact ⟨this.1, this.2, this.3⟩
  room c h := (addGate_core (.not x)).room c (roomC_addDependence (x := x) (g := c.gateIndex) ⟨h.1, h.2, h.3⟩)
  core c d hi hr h := by
    obtain ⟨h1, h2⟩ := (addGate_core (.not x)).core c d hi
      (roomC_addDependence (x := x) (g := c.gateIndex) ⟨hr.1, hr.2, hr.3⟩) h
    have h3 := core_addDependence h2 x c.gateIndex
    have h4 : Core (not c x).2 ((d.addGate (.not x)).2.addDependence x c.gateIndex) :=
      ⟨h3.1, h3.2, h3.3, h3.4, h3.5, h3.6, h3.7, h3.8, h3.9⟩
    rw [h.gateIndex] at h4
    exact ⟨h1, h4.1, h4.2, h4.3, h4.4, h4.5, h4.6, h4.7, h4.8, h4.9⟩

theorem binary_core (gate : Gate) (l r : GateId) : CoreStep (binary gate l r) (binaryU gate l r) where
  ids c h := by
    have := idsC_addDependence (x := r) (g := c.gateIndex)
      (idsC_addDependence (x := l) (g := c.gateIndex) ((addGate_core gate).ids c h))
    exact ⟨this.1, this.2, this.3⟩
  room c h := (addGate_core gate).room c (roomC_addDependence (x := l) (g := c.gateIndex)
    (roomC_addDependence (x := r) (g := c.gateIndex) ⟨h.1, h.2, h.3⟩))
  core c d hi hr h := by
    obtain ⟨h1, h2⟩ := (addGate_core gate).core c d hi
      (roomC_addDependence (x := l) (g := c.gateIndex)
        (roomC_addDependence (x := r) (g := c.gateIndex) ⟨hr.1, hr.2, hr.3⟩)) h
    have h3 := core_addDependence (core_addDependence h2 l c.gateIndex) r c.gateIndex
    have h4 : Core (binary gate l r c).2
        (((d.addGate gate).2.addDependence l c.gateIndex).addDependence r c.gateIndex) :=
      ⟨h3.1, h3.2, h3.3, h3.4, h3.5, h3.6, h3.7, h3.8, h3.9⟩
    rw [h.gateIndex] at h4
    exact ⟨h1, h4.1, h4.2, h4.3, h4.4, h4.5, h4.6, h4.7, h4.8, h4.9⟩

theorem addModuleGates_core (a b : Nat) (ids : List GateId) (mid : ModuleId) (k : Nat) : ∀ i : Nat,
    CoreStep (fun c => addModuleGates c a b ids mid i k) (fun c => c.addModuleGates a b ids mid i k) := by
  induction k with
  | zero => exact fun i => ⟨fun _ h => h, fun _ h => h, fun _ _ _ _ h => ⟨rfl, h⟩⟩
  | succ k ih =>
    intro i
    have s1 := addGate_core (.module a b ids i mid)
    have s2 := ih (i + 1)
    refine ⟨fun c h => s2.ids _ (s1.ids c h), fun c h => s1.room c (s2.room _ h), fun c d hi hr h => ?_⟩
    obtain ⟨h1, h2⟩ := s1.core c d hi (s2.room _ hr) h
    obtain ⟨h3, h4⟩ := s2.core _ _ (s1.ids c hi) hr h2
    refine ⟨?_, h4⟩
    show (addGate c (.module a b ids i mid)).1 :: (addModuleGates (addGate c (.module a b ids i mid)).2 a b ids mid (i + 1) k).1 =
      (d.addGate (.module a b ids i mid)).1 :: ((d.addGate (.module a b ids i mid)).2.addModuleGates a b ids mid (i + 1) k).1
    rw [h1, h3]

theorem foldl_room (ids outs : List GateId) : ∀ c : Circuit, RoomC (c.addModuleDeps ids outs) → RoomC c := by
  have inner (x : GateId) (outs : List GateId) : ∀ c : Circuit,
      RoomC (outs.foldl (fun c o => c.addDependence x o) c) → RoomC c := by
    induction outs with
    | nil => exact fun c h => h
    | cons o outs ih => exact fun c h => roomC_addDependence (ih _ h)
  unfold Circuit.addModuleDeps
  induction ids with
  | nil => exact fun c h => h
  | cons x ids ih => exact fun c h => inner x outs c (ih _ h)

theorem foldl_ids (ids outs : List GateId) : ∀ c : Circuit, IdsC c → IdsC (c.addModuleDeps ids outs) := by
  have inner (x : GateId) (outs : List GateId) : ∀ c : Circuit,
      IdsC c → IdsC (outs.foldl (fun c o => c.addDependence x o) c) := by
    induction outs with
    | nil => exact fun c h => h
    | cons o outs ih => exact fun c h => ih _ (idsC_addDependence h)
  unfold Circuit.addModuleDeps
  induction ids with
  | nil => exact fun c h => h
  | cons x ids ih => exact fun c h => ih _ (inner x outs c h)

theorem foldl_core (ids outs : List GateId) : ∀ c d : Circuit, Core c d →
    Core (c.addModuleDeps ids outs) (d.addModuleDeps ids outs) := by
  have inner (x : GateId) (outs : List GateId) : ∀ c d : Circuit, Core c d →
      Core (outs.foldl (fun c o => c.addDependence x o) c) (outs.foldl (fun c o => c.addDependence x o) d) := by
    induction outs with
    | nil => exact fun c d h => h
    | cons o outs ih => exact fun c d h => ih _ _ (core_addDependence h x o)
  unfold Circuit.addModuleDeps
  induction ids with
  | nil => exact fun c d h => h
  | cons x ids ih => exact fun c d h => ih _ _ (inner x outs c d h)

theorem module_ids {c m : Circuit} (mid : ModuleId) (ids : List GateId) (h : IdsC c) : IdsC (module c m mid ids).2 :=
  foldl_ids _ _ _ ((addModuleGates_core _ _ _ _ _ _).ids _ ⟨h.1, h.2, h.3⟩)

theorem module_room {c m : Circuit} {mid : ModuleId} {ids : List GateId} (h : RoomC (module c m mid ids).2) :
    RoomC c := by
  have := (addModuleGates_core m.inputLen m.outputLen ids mid m.outputLen 0).room _ (foldl_room _ _ _ h)
  exact ⟨this.1, this.2, this.3⟩

theorem module_core {c d m n : Circuit} {mid : ModuleId} {ids : List GateId} (hi : IdsC c)
    (hr : RoomC (module c m mid ids).2) (h : Core c d) (hm : Core m n) (hroom : n.inputLen + n.outputLen ≤ n.numWire) :
    (.ok (module c m mid ids).1 : Except Err (List GateId)) = (d.module n mid ids).1 ∧
      Core (module c m mid ids).2 (d.module n mid ids).2 := by
  unfold Circuit.module
  rw [if_neg (by omega), if_neg (by omega)]
  have s := addModuleGates_core m.inputLen m.outputLen ids mid m.outputLen 0
  obtain ⟨h1, h2⟩ := s.core { c with
      numWire := add c.numWire (sub (sub m.numWire m.inputLen) m.outputLen)
      numGate := add c.numGate m.numGate
      numConst := add c.numConst m.numConst } { d with
      numWire := d.numWire + (n.numWire - n.inputLen - n.outputLen)
      numGate := d.numGate + n.numGate
      numConst := d.numConst + n.numConst } ⟨hi.1, hi.2, hi.3⟩ (foldl_room _ _ _ hr)
    ⟨h.1, h.2, h.3, h.4, h.5, h.6, h.7, h.8, h.9⟩
  simp only [module] at h1 h2 ⊢
  rw [hm.inputLen, hm.outputLen] at h1 h2 ⊢
  rw [h1]
  exact ⟨rfl, foldl_core _ _ _ _ h2⟩

end Wrapping

end CC
