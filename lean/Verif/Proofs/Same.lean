import Verif.Model.Equality
import Verif.Spec.Semantics
import Verif.Spec.History

/-!
# Equal circuits, and an induction principle for circuits in reachable heaps
-/

namespace CC
open Spec

/-- the body shared by `xor`, `and`, `or` -/
def Circuit.binaryGate (c : Circuit) (gate : Gate) (l r : GateId) : Circuit :=
  let (g, c1) := c.addGate gate
  let c2 := c1.addDependence l g
  let c3 := c2.addDependence r g
  { c3 with numGate := c3.numGate + 1 }

/-- a property of circuits preserved by all methods -/
structure MethodInv (P : Circuit → Prop) : Prop where
  new : ∀ s, P (Circuit.new s)
  input : ∀ c, P c → P c.input.2
  output : ∀ c g, P c → P (c.output g).2
  constant : ∀ c v, P c → P (c.constant v).2
  not : ∀ c x, P c → P (c.not x).2
  binary : ∀ c gate l r, P c → P (c.binaryGate gate l r)
  module : ∀ c m mid ids, P c → P m → P (c.module m mid ids).2

def AllC (P : Circuit → Prop) (w : World) : Prop := ∀ c ∈ w.circs, P c

theorem AllC.setC {P : Circuit → Prop} {w : World} (h : AllC P w) {r : Ref} {c : Circuit} (k : P c) :
    AllC P (w.setC r c) := by
  intro d hd
  rcases List.mem_or_eq_of_mem_set hd with h1 | h1
  · exact h d h1
  · exact h1 ▸ k

theorem AllC.get {P : Circuit → Prop} {w : World} (h : AllC P w) {r : Ref} {c : Circuit} (k : w.circs[r]? = some c) :
    P c :=
  h c (List.mem_iff_getElem?.mpr ⟨r, k⟩)

theorem AllC.onCircuit {α} {P : Circuit → Prop} {w : World} (h : AllC P w) (r : Ref)
    (f : Circuit → Except Err α × Circuit) (hf : ∀ c, P c → P (f c).2) : AllC P (M.onCircuit r f w).2 := by
  unfold M.onCircuit
  cases hc : w.circs[r]? with
  | none => exact h
  | some c => exact h.setC (hf c (h.get hc))

/-- a property of circuits preserved by all methods, if module calls satisfy `Q` (caller, callee, module id) -/
structure MethodInvOn (Q : Circuit → Circuit → ModuleId → Prop) (P : Circuit → Prop) : Prop where
  new : ∀ s, P (Circuit.new s)
  input : ∀ c, P c → P c.input.2
  output : ∀ c g, P c → P (c.output g).2
  constant : ∀ c v, P c → P (c.constant v).2
  not : ∀ c x, P c → P (c.not x).2
  xor : ∀ c l r, P c → P (c.binaryGate (.xor l r) l r)
  and : ∀ c l r, P c → P (c.binaryGate (.and l r) l r)
  or : ∀ c l r, P c → P (c.binaryGate (.or l r) l r)
  module : ∀ c m mid ids, P c → P m → Q c m mid → P (c.module m mid ids).2

theorem MethodInvOn.call {P : Circuit → Prop} {Q : Circuit → Circuit → ModuleId → Prop} (hP : MethodInvOn Q P) (op : Op)
    {w : World} (hQ : ∀ (r mr : Ref) c m mid, w.circs[r]? = some c → w.module? c mid = some mr → w.circs[mr]? = some m → Q c m mid)
    (h : AllC P w) : AllC P (op.call w).2 := by
  have hret {α} (x : M α) (f : α → Ret) : ((do return f (← x) : M Ret) w).2 = (x w).2 := by
    simp only [M.bind_apply]
    cases x w with
    | mk a w' => cases a <;> rfl
  have hnot {w : World} (h : AllC P w) (r : Ref) (x : GateId) : AllC P (CC.not r x w).2 :=
    h.onCircuit r _ fun c k => hP.not c x k
  have hxor {w : World} (h : AllC P w) (r : Ref) (a b : GateId) : AllC P (CC.xor r a b w).2 :=
    h.onCircuit r _ fun c k => hP.xor c a b k
  have hreg {w : World} (h : AllC P w) (r m : Ref) : AllC P (CC.registerModule r m w).2 := by
    unfold CC.registerModule
    repeat' split
    all_goals exact h
  have hnew (s : StoreRef) : AllC P (CC.newCircuit s w).2 := by
    unfold CC.newCircuit
    split
    · exact h
    · intro c hc
      rcases List.mem_append.mp hc with hc | hc
      · exact h c hc
      · rw [List.mem_singleton] at hc
        exact hc ▸ hP.new s
  cases op with
  | newStorage =>
    simp only [Op.call, hret]
    exact h
  | newCircuit s =>
    simp only [Op.call, hret]
    exact hnew s
  | input r =>
    simp only [Op.call, hret]
    exact h.onCircuit r _ fun c k => hP.input c k
  | output r g =>
    simp only [Op.call, hret]
    exact h.onCircuit r _ fun c k => hP.output c g k
  | constant r v =>
    simp only [Op.call, hret]
    exact h.onCircuit r _ fun c k => hP.constant c v k
  | not r x =>
    simp only [Op.call, hret]
    exact hnot h r x
  | xor r a b =>
    simp only [Op.call, hret]
    exact hxor h r a b
  | and r a b =>
    simp only [Op.call, hret]
    exact h.onCircuit r _ fun c k => hP.and c a b k
  | or r a b =>
    simp only [Op.call, hret]
    exact h.onCircuit r _ fun c k => hP.or c a b k
  | equivalent r a b =>
    simp only [Op.call, hret]
    unfold CC.equivalent
    rw [M.bind_apply]
    have k := hxor h r a b
    cases hx : CC.xor r a b w with
    | mk x w' =>
      rw [hx] at k
      cases x with
      | ok x => exact hnot k r x
      | error e => exact k
  | identity r x =>
    simp only [Op.call, hret]
    unfold CC.identity
    rw [M.bind_apply]
    have k := hnot h r x
    cases hx : CC.not r x w with
    | mk y w' =>
      rw [hx] at k
      cases y with
      | ok y => exact hnot k r y
      | error e => exact k
  | registerModule r m =>
    simp only [Op.call, hret]
    exact hreg h r m
  | storeModule s m =>
    simp only [Op.call, hret]
    unfold CC.storeModule
    repeat' split
    all_goals exact h
  | clone r =>
    simp only [Op.call, hret]
    unfold cloneCircuit
    split
    · exact h
    · next c hc =>
      intro d hd
      rcases List.mem_append.mp hd with hd | hd
      · exact h d hd
      · rw [List.mem_singleton] at hd
        exact hd ▸ h.get hc
  | subCircuit r =>
    have e : ((Op.subCircuit r).call w).2 = (CC.subCircuit r w).2 := by
      simp only [Op.call, M.bind_apply]
      cases CC.subCircuit r w with
      | mk a w' => cases a <;> rfl
    rw [e]
    unfold CC.subCircuit
    split
    · exact h
    · next c hc =>
      rw [M.bind_apply]
      have k := hnew c.storage
      cases hn : CC.newCircuit c.storage w with
      | mk n w' =>
        rw [hn] at k
        cases n with
        | error e => exact k
        | ok n =>
          simp only [M.bind_apply]
          have k' := hreg k r n
          cases hr : CC.registerModule r n w' with
          | mk a w'' =>
            rw [hr] at k'
            cases a <;> exact k'
  | module r mid ids =>
    simp only [Op.call, hret]
    unfold CC.module
    split
    · exact h
    · next c hc =>
      split
      · exact h
      · next mr hmr =>
        split
        · exact h
        · split
          · exact h
          · next m hm => exact h.setC (hP.module c m mid ids (h.get hc) (h.get hm) (hQ r mr c m mid hc hmr hm))

theorem MethodInv.call {P : Circuit → Prop} (hP : MethodInv P) (op : Op) {w : World} (h : AllC P w) :
    AllC P (op.call w).2 :=
  MethodInvOn.call (Q := fun _ _ _ => True)
    { new := hP.new, input := hP.input, output := hP.output, constant := hP.constant, not := hP.not
      xor := fun c l r => hP.binary c _ l r, and := fun c l r => hP.binary c _ l r, or := fun c l r => hP.binary c _ l r
      module := fun c m mid ids h k _ => hP.module c m mid ids h k } op (fun _ _ _ _ _ _ _ _ => trivial) h

theorem MethodInv.reachable {P : Circuit → Prop} (hP : MethodInv P) {w : World} (h : Reachable w) : AllC P w := by
  obtain ⟨evs, hr⟩ := h
  induction hr with
  | nil => exact fun _ h => absurd h List.not_mem_nil
  | step op _ ih => exact hP.call op ih

/-! ### the counters of a circuit -/

/-- every wire is an input, a constant or the output of a gate, the ones of called modules included -/
def WireSum (c : Circuit) : Prop := c.numWire = c.inputLen + c.numConst + c.numGate

theorem WireSum.addDep {c : Circuit} {n : Nat} (h : c.numWire = c.inputLen + c.numConst + c.numGate + n) (x g : GateId) :
    (c.addDependence x g).numWire = (c.addDependence x g).inputLen + (c.addDependence x g).numConst +
      (c.addDependence x g).numGate + n := by
  unfold Circuit.addDependence
  split <;> exact h

theorem addModuleGates_sum (a b : Nat) (ids : List GateId) (mid : ModuleId) (k : Nat) : ∀ (c : Circuit) (i : Nat),
    (c.addModuleGates a b ids mid i k).2.inputLen = c.inputLen ∧
      (c.addModuleGates a b ids mid i k).2.numWire = c.numWire + k ∧
      (c.addModuleGates a b ids mid i k).2.numGate = c.numGate ∧
      (c.addModuleGates a b ids mid i k).2.numConst = c.numConst := by
  induction k with
  | zero => exact fun c i => ⟨rfl, rfl, rfl, rfl⟩
  | succ k ih =>
    intro c i
    obtain ⟨h1, h2, h3, h4⟩ := ih (c.addGate (.module a b ids i mid)).2 (i + 1)
    exact ⟨h1, h2.trans (by simp only [Circuit.addGate]; omega), h3, h4⟩

theorem wireSum_inv : MethodInv WireSum where
  new s := rfl
  input c h := by
    have : c.numWire = c.inputLen + c.numConst + c.numGate := h
    show c.numWire + 1 = c.inputLen + 1 + c.numConst + c.numGate
    omega
  output c g h := by
    unfold Circuit.output
    cases c.gateMap g <;> exact h
  constant c v h := by
    have : c.numWire = c.inputLen + c.numConst + c.numGate := h
    show c.numWire + 1 = c.inputLen + (c.numConst + 1) + c.numGate
    omega
  not c x h := by
    have : c.numWire = c.inputLen + c.numConst + c.numGate := h
    have k := WireSum.addDep (c := (c.addGate (.not x)).2) (n := 1)
      (by simp only [Circuit.addGate]; omega) x c.gateIndex
    exact k
  binary c gate l r h := by
    have : c.numWire = c.inputLen + c.numConst + c.numGate := h
    have k := WireSum.addDep (c := (c.addGate gate).2) (n := 1)
      (by simp only [Circuit.addGate]; omega) l c.gateIndex
    exact WireSum.addDep k r c.gateIndex
  module c m mid ids h hm := by
    have h' : c.numWire = c.inputLen + c.numConst + c.numGate := h
    have hm' : m.numWire = m.inputLen + m.numConst + m.numGate := hm
    unfold Circuit.module
    split
    · exact h
    · split
      · exact h
      · have hfold {c : Circuit} (hc : WireSum c) (outs : List GateId) : WireSum (c.addModuleDeps ids outs) := by
          unfold Circuit.addModuleDeps
          induction ids generalizing c with
          | nil => exact hc
          | cons x ids ih =>
            rw [List.foldl_cons]
            refine ih ?_
            clear ih
            induction outs generalizing c with
            | nil => exact hc
            | cons o outs ih =>
              rw [List.foldl_cons]
              exact ih (WireSum.addDep (n := 0) hc x o)
        refine hfold ?_ _
        obtain ⟨k1, k2, k3, k4⟩ := addModuleGates_sum m.inputLen m.outputLen ids mid m.outputLen
          { c with
            numWire := c.numWire + (m.numWire - m.inputLen - m.outputLen)
            numGate := c.numGate + m.numGate
            numConst := c.numConst + m.numConst } 0
        simp only at k1 k2 k3 k4
        unfold WireSum
        simp only [k1, k2, k3, k4]
        omega

/-! ### evaluation looks only at what `==` compares, and at the called modules -/

/-- the two circuits call the same modules -/
def SameCalls (w : World) (c d : Circuit) : Prop :=
  ∀ g nIn nOut ids oi mid, c.gateMap g = some (.module nIn nOut ids oi mid) → w.module? c mid = w.module? d mid

theorem record_same {c d : Circuit} (h : c.Same d) (st : EvSt) (g : GateId) (b : Bool) : st.record c g b = st.record d g b := by
  obtain ⟨_, _, _, h4, _⟩ := h
  simp only [EvSt.record, Circuit.dependedGates, h4]

theorem recordOutputs_same {c d : Circuit} (h : c.Same d) (first : GateId) (outs : List Bool) (k : Nat) :
    ∀ (i : Nat) (st : EvSt), recordOutputs c first outs i k st = recordOutputs d first outs i k st := by
  induction k with
  | zero => exact fun _ _ => rfl
  | succ k ih =>
    intro i st
    unfold recordOutputs
    cases outs[i]? with
    | none => rfl
    | some b => simp only [record_same h, ih]

theorem evalGate_same {w : World} {r r' : Ref} {c d : Circuit} (hr : w.circs[r]? = some c) (hr' : w.circs[r']? = some d)
    (h : c.Same d) (hm : SameCalls w c d) (fuel : Nat) : evalGate w fuel r = evalGate w fuel r' := by
  induction fuel with
  | zero => rfl
  | succ fuel ih =>
    funext g st
    have hc : w.circuit r = .ok c := by simp only [World.circuit, hr]
    have hd : w.circuit r' = .ok d := by simp only [World.circuit, hr']
    have hg : c.gateMap g = d.gateMap g := by rw [h.2.2.1]
    unfold evalGate
    simp only [hc, hd, ok_bind', ← hg]
    cases hgate : c.gateMap g with
    | none => rfl
    | some gate =>
      cases gate with
      | input k => rfl
      | const v => simp only [record_same h]
      | not x => simp only [ih, record_same h]
      | xor a b => simp only [evalBinary, ih, record_same h]
      | and a b => simp only [evalBinary, ih, record_same h]
      | or a b => simp only [evalBinary, ih, record_same h]
      | module nIn nOut ids oi mid =>
        simp only [ih, hm g nIn nOut ids oi mid hgate, recordOutputs_same h]
  where
    ok_bind' {α β : Type} (a : α) (f : α → Except Err β) : ((.ok a : Except Err α) >>= f) = f a := rfl

theorem evalOutput_same {w : World} {r r' : Ref} {c d : Circuit} (hr : w.circs[r]? = some c) (hr' : w.circs[r']? = some d)
    (h : c.Same d) (hm : SameCalls w c d) (fuel : Nat) (ins : List Bool) :
    evalOutput w fuel r ins = evalOutput w fuel r' ins := by
  have hc : w.circuit r = .ok c := by simp only [World.circuit, hr]
  have hd : w.circuit r' = .ok d := by simp only [World.circuit, hr']
  obtain ⟨h1, h2, h3, h4, h5, h6, h7, h8, h9, h10⟩ := id h
  have hseed (bs : List Bool) : ∀ (i : WireId) (st : EvSt), seedInputs c i bs st = seedInputs d i bs st := by
    induction bs with
    | nil => exact fun _ _ => rfl
    | cons b bs ih =>
      intro i st
      unfold seedInputs
      rw [h1]
      cases d.inputMap i with
      | none => rfl
      | some g => simp only [record_same h, ih]
  have houts (eg : GateId → EvSt → Except Err EvSt) (k : Nat) : ∀ (i : Nat) (st : EvSt),
      evalOutputs c eg ins i k st = evalOutputs d eg ins i k st := by
    induction k with
    | zero => exact fun _ _ => rfl
    | succ k ih =>
      intro i st
      simp only [evalOutputs, evalSingleOutput, h2, h6, h7, ih]
  unfold evalOutput
  rw [hc, hd]
  show evalOutputWith c (evalGate w fuel r) ins = evalOutputWith d (evalGate w fuel r') ins
  rw [evalGate_same hr hr' h hm]
  simp only [evalOutputWith, h6, h7, hseed, houts]

theorem val_same {w : World} {r r' : Ref} {c d : Circuit} (hr : w.circs[r]? = some c) (hr' : w.circs[r']? = some d)
    (h : c.Same d) (hm : SameCalls w c d) {ins : List Bool} {g : GateId} {b : Bool} (v : Val w r ins g b) :
    Val w r' ins g b := by
  have hg := h.2.2.1
  have key : ∀ {s ins g b}, Val w s ins g b → s = r → Val w r' ins g b := by
    intro s ins g b v
    induction v with
    | input h1 h2 h3 => rintro rfl; rw [hr] at h1; cases h1; exact .input hr' (hg ▸ h2) h3
    | const h1 h2 => rintro rfl; rw [hr] at h1; cases h1; exact .const hr' (hg ▸ h2)
    | not h1 h2 _ ih => rintro rfl; rw [hr] at h1; cases h1; exact .not hr' (hg ▸ h2) (ih rfl)
    | and h1 h2 _ _ ih ih' => rintro rfl; rw [hr] at h1; cases h1; exact .and hr' (hg ▸ h2) (ih rfl) (ih' rfl)
    | xor h1 h2 _ _ ih ih' => rintro rfl; rw [hr] at h1; cases h1; exact .xor hr' (hg ▸ h2) (ih rfl) (ih' rfl)
    | or h1 h2 _ _ ih ih' => rintro rfl; rw [hr] at h1; cases h1; exact .or hr' (hg ▸ h2) (ih rfl) (ih' rfl)
    | module h1 h2 h3 h4 h5 _ h7 h8 h9 ih _ =>
      rintro rfl
      rw [hr] at h1
      cases h1
      exact .module hr' (hg ▸ h2) (hm _ _ _ _ _ _ h2 ▸ h3) h4 h5 (fun i x a hx ha => ih i x a hx ha rfl) h7 h8 h9
  exact key v rfl

theorem Circuit.Same.symm {c d : Circuit} (h : c.Same d) : d.Same c :=
  ⟨h.1.symm, h.2.1.symm, h.2.2.1.symm, h.2.2.2.1.symm, h.2.2.2.2.1.symm, h.2.2.2.2.2.1.symm, h.2.2.2.2.2.2.1.symm,
    h.2.2.2.2.2.2.2.1.symm, h.2.2.2.2.2.2.2.2.1.symm, h.2.2.2.2.2.2.2.2.2.symm⟩

theorem SameCalls.symm {w : World} {c d : Circuit} (h : c.Same d) (k : SameCalls w c d) : SameCalls w d c :=
  fun g nIn nOut ids oi mid hg => (k g nIn nOut ids oi mid (h.2.2.1 ▸ hg)).symm

end CC
