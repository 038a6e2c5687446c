import Verif.Proofs.Checked

/-!
# With checked additions the counters always fit, also after a panic
-/

namespace CC
open Spec

namespace Checked

/-- the method leaves counters that fit, also when it fails -/
def Keeps {α} (x : CM α) : Prop := ∀ c, FitsC c → FitsC (x c).2

theorem Keeps.bind {α β} {x : CM α} {f : α → CM β} (hx : Keeps x) (hf : ∀ a, Keeps (f a)) : Keeps (x >>= f) := by
  intro c h
  have h1 := hx c h
  rw [bind_def]
  generalize x c = p at h1
  rcases p with ⟨a | a, c'⟩
  · exact h1
  · exact hf a _ h1

theorem Keeps.pure {α} (a : α) : Keeps (Pure.pure a : CM α) := fun _ h => h
theorem Keeps.throw {α} (e : Err) : Keeps (Checked.throw e : CM α) := fun _ h => h
theorem Keeps.get : Keeps Checked.get := fun _ h => h

theorem Keeps.bump {field : Circuit → Nat} {set : Nat → Circuit → Circuit} (hs : ∀ n c, n < 2 ^ 64 → FitsC c → FitsC (set n c)) (n : Nat) :
    Keeps (Checked.bump field set n) := by
  intro c h
  unfold Checked.bump
  split
  · next hlt => exact hs _ _ hlt h
  · exact h

theorem Keeps.inputLen (n : Nat) : Keeps (bumpInputLen n) :=
  Keeps.bump (set := fun n c => { c with inputLen := n }) (fun _ _ hn h => ⟨hn, h.outputLen, h.numWire, h.numGate, h.numConst, h.gateIndex⟩) n
theorem Keeps.outputLen (n : Nat) : Keeps (bumpOutputLen n) :=
  Keeps.bump (set := fun n c => { c with outputLen := n }) (fun _ _ hn h => ⟨h.inputLen, hn, h.numWire, h.numGate, h.numConst, h.gateIndex⟩) n
theorem Keeps.numWire (n : Nat) : Keeps (bumpNumWire n) :=
  Keeps.bump (set := fun n c => { c with numWire := n }) (fun _ _ hn h => ⟨h.inputLen, h.outputLen, hn, h.numGate, h.numConst, h.gateIndex⟩) n
theorem Keeps.numGate (n : Nat) : Keeps (bumpNumGate n) :=
  Keeps.bump (set := fun n c => { c with numGate := n }) (fun _ _ hn h => ⟨h.inputLen, h.outputLen, h.numWire, hn, h.numConst, h.gateIndex⟩) n
theorem Keeps.numConst (n : Nat) : Keeps (bumpNumConst n) :=
  Keeps.bump (set := fun n c => { c with numConst := n }) (fun _ _ hn h => ⟨h.inputLen, h.outputLen, h.numWire, h.numGate, hn, h.gateIndex⟩) n
theorem Keeps.gateIndex (n : Nat) : Keeps (bumpGateIndex n) :=
  Keeps.bump (set := fun n c => { c with gateIndex := n }) (fun _ _ hn h => ⟨h.inputLen, h.outputLen, h.numWire, h.numGate, h.numConst, hn⟩) n

theorem Keeps.addGate (g : Gate) : Keeps (Checked.addGate g) :=
  Keeps.get.bind fun _ => Keeps.bind (fun _ h => { h with }) fun _ => (Keeps.gateIndex 1).bind fun _ => (Keeps.numWire 1).bind fun _ => .pure _

theorem FitsC.addDependence {c : Circuit} (h : FitsC c) (x g : GateId) : FitsC (c.addDependence x g) := by
  unfold Circuit.addDependence
  split <;> exact ⟨h.inputLen, h.outputLen, h.numWire, h.numGate, h.numConst, h.gateIndex⟩

theorem Keeps.dep (x g : GateId) : Keeps (Checked.addDependence x g) := fun _ h => FitsC.addDependence h x g

theorem Keeps.input : Keeps Checked.input :=
  Keeps.get.bind fun _ => (Keeps.inputLen 1).bind fun _ => (Keeps.addGate _).bind fun _ => Keeps.bind (fun _ h => { h with }) fun _ => .pure _

theorem Keeps.output (g : GateId) : Keeps (Checked.output g) := by
  refine Keeps.get.bind fun c => ?_
  cases c.gateMap g with
  | none => exact .throw _
  | some _ => exact Keeps.bind (fun _ h => { h with }) fun _ => (Keeps.outputLen 1).bind fun _ => .pure _

theorem Keeps.constant (v : Bool) : Keeps (Checked.constant v) :=
  (Keeps.addGate _).bind fun _ => Keeps.bind (fun _ h => { h with }) fun _ => (Keeps.numConst 1).bind fun _ => .pure _

theorem Keeps.not (x : GateId) : Keeps (Checked.not x) :=
  (Keeps.addGate _).bind fun _ => (Keeps.dep _ _).bind fun _ => (Keeps.numGate 1).bind fun _ => .pure _

theorem Keeps.binary (gate : Gate) (l r : GateId) : Keeps (Checked.binary gate l r) :=
  (Keeps.addGate _).bind fun _ => (Keeps.dep _ _).bind fun _ => (Keeps.dep _ _).bind fun _ => (Keeps.numGate 1).bind fun _ => .pure _

theorem Keeps.moduleGates (inLen outLen : Nat) (ids : List GateId) (mid : ModuleId) : ∀ k i, Keeps (addModuleGates inLen outLen ids mid i k)
  | 0, _ => .pure _
  | k + 1, i => (Keeps.addGate _).bind fun _ => (Keeps.moduleGates inLen outLen ids mid k (i + 1)).bind fun _ => .pure _

theorem FitsC.foldl {α} {f : Circuit → α → Circuit} (hf : ∀ c a, FitsC c → FitsC (f c a)) : ∀ (l : List α) (c : Circuit), FitsC c → FitsC (l.foldl f c)
  | [], _, h => h
  | a :: l, _, h => FitsC.foldl hf l _ (hf _ a h)

theorem FitsC.addModuleDeps {c : Circuit} (h : FitsC c) (ids outs : List GateId) : FitsC (c.addModuleDeps ids outs) :=
  FitsC.foldl (fun _ _ h => FitsC.foldl (fun _ _ h => FitsC.addDependence h _ _) _ _ h) _ _ h

theorem Keeps.module (m : Circuit) (mid : ModuleId) (ids : List GateId) : Keeps (Checked.module m mid ids) := by
  unfold Checked.module
  split
  · exact .throw _
  · split
    · exact .throw _
    · exact (Keeps.numWire _).bind fun _ => (Keeps.numGate _).bind fun _ => (Keeps.numConst _).bind fun _ =>
        (Keeps.moduleGates _ _ _ _ _ _).bind fun _ => Keeps.bind (fun _ h => FitsC.addModuleDeps h _ _) fun _ => .pure _

end Checked

/-- the call leaves counters that fit, also when it fails -/
def KeepsW {α} (f : M α) : Prop := ∀ w, Fits w → Fits (f w).2

theorem KeepsW.bind {α β} {x : M α} {f : α → M β} (hx : KeepsW x) (hf : ∀ a, KeepsW (f a)) : KeepsW (x >>= f) := by
  intro w h
  have h1 := hx w h
  rw [M.bind_apply]
  generalize x w = p at h1
  rcases p with ⟨a | a, w'⟩
  · exact h1
  · exact hf a _ h1

theorem KeepsW.pure {α} (a : α) : KeepsW (Pure.pure a : M α) := fun _ h => h

theorem KeepsW.onCircuit {α} (r : Ref) {f : Circuit → Except Err α × Circuit} (hf : ∀ c, FitsC c → FitsC (f c).2) : KeepsW (M.onCircuit r f) := by
  intro w h
  unfold M.onCircuit
  cases hc : w.circs[r]? with
  | none => exact h
  | some c => exact fits_setC h (hf c (h.circs c (List.mem_iff_getElem?.mpr ⟨r, hc⟩)))

theorem fits_setS {w : World} {s : StoreRef} {st : Storage} (h : Fits w) (k : st.numModule < 2 ^ 64) : Fits { w with stores := w.stores.set s st } where
  circs := h.circs
  stores x hx := by
    rcases List.mem_or_eq_of_mem_set hx with h1 | h1
    · exact h.stores x h1
    · exact h1 ▸ k

theorem KeepsW.registerModule (r m : Ref) : KeepsW (CheckedApi.registerModule r m) := by
  intro w h
  unfold CheckedApi.registerModule
  repeat' split
  all_goals first
    | exact h
    | exact fits_setS h ‹_›
    | next hs _ => have hm := h.stores _ (List.mem_of_getElem? hs); exact fits_setS h hm

theorem KeepsW.storeModule (s : StoreRef) (m : Ref) : KeepsW (CheckedApi.storeModule s m) := by
  intro w h
  unfold CheckedApi.storeModule
  repeat' split
  all_goals first
    | exact h
    | exact fits_setS h ‹_›
    | next hs _ => have hm := h.stores _ (List.mem_of_getElem? hs); exact fits_setS h hm

theorem KeepsW.of_agrees {α} {f : M α} (h : AgreesW f f) (hn : ∀ w, (f w).1 ≠ .error (.panic .overflow)) : KeepsW f :=
  fun w hw => Classical.byContradiction fun k => hn w (h.over w hw k)

theorem KeepsW.newCircuit (s : StoreRef) : KeepsW (CC.newCircuit s) := by
  refine .of_agrees (newCircuit_agrees s) fun w => ?_
  unfold CC.newCircuit
  split <;> intro h <;> cases h

theorem KeepsW.clone (r : Ref) : KeepsW (CC.cloneCircuit r) := by
  refine .of_agrees (clone_agrees r) fun w => ?_
  unfold CC.cloneCircuit
  split <;> intro h <;> cases h

theorem KeepsW.subCircuit (r : Ref) : KeepsW (CheckedApi.subCircuit r) := by
  intro w h
  unfold CheckedApi.subCircuit
  split
  · exact h
  · exact ((KeepsW.newCircuit _).bind fun _ => (KeepsW.registerModule _ _).bind fun _ => .pure _) w h

theorem KeepsW.module (r : Ref) (mid : ModuleId) (ids : List GateId) : KeepsW (CheckedApi.module r mid ids) := by
  intro w h
  unfold CheckedApi.module
  split
  · exact h
  · next c hc =>
    split
    · exact h
    · split
      · exact h
      · split
        · exact h
        · exact fits_setC h (Checked.Keeps.module _ _ _ c (h.circs c (List.mem_of_getElem? hc)))

/-- every call of the circuit API -/
theorem callC_keeps (op : Op) : KeepsW op.callC := by
  have hxor r a b : KeepsW (CheckedApi.xor r a b) := .onCircuit r (Checked.Keeps.binary _ a b)
  have hnot r x : KeepsW (CheckedApi.not r x) := .onCircuit r (Checked.Keeps.not x)
  cases op with
  | newStorage => exact (KeepsW.of_agrees newStorage_agrees fun w h => by cases h).bind fun _ => .pure _
  | newCircuit s => exact (KeepsW.newCircuit s).bind fun _ => .pure _
  | input r => exact (KeepsW.onCircuit r Checked.Keeps.input).bind fun _ => .pure _
  | output r g => exact (KeepsW.onCircuit r (Checked.Keeps.output g)).bind fun _ => .pure _
  | constant r v => exact (KeepsW.onCircuit r (Checked.Keeps.constant v)).bind fun _ => .pure _
  | not r x => exact (hnot r x).bind fun _ => .pure _
  | xor r a b => exact (hxor r a b).bind fun _ => .pure _
  | and r a b => exact (KeepsW.onCircuit r (Checked.Keeps.binary _ a b)).bind fun _ => .pure _
  | or r a b => exact (KeepsW.onCircuit r (Checked.Keeps.binary _ a b)).bind fun _ => .pure _
  | equivalent r a b => exact ((hxor r a b).bind fun x => hnot r x).bind fun _ => .pure _
  | identity r x => exact ((hnot r x).bind fun y => hnot r y).bind fun _ => .pure _
  | registerModule r m => exact (KeepsW.registerModule r m).bind fun _ => .pure _
  | storeModule s m => exact (KeepsW.storeModule s m).bind fun _ => .pure _
  | clone r => exact (KeepsW.clone r).bind fun _ => .pure _
  | subCircuit r => exact (KeepsW.subCircuit r).bind fun _ => .pure _
  | module r mid ids => exact (KeepsW.module r mid ids).bind fun _ => .pure _

theorem playC_fits (ops : List Op) : ∀ x : World × List Ev, Fits x.1 → Fits (playC ops x).1 := by
  induction ops with
  | nil => exact fun x h => h
  | cons op ops ih => exact fun x h => ih _ (callC_keeps op x.1 h)

end CC
