import Verif.Proofs.Tower

/-!
# How fast counters can grow
-/

namespace CC
open Spec

/-- every counter of the circuit is at most `B` -/
structure BddC (B : Nat) (c : Circuit) : Prop where
  inputLen : c.inputLen ≤ B
  outputLen : c.outputLen ≤ B
  numWire : c.numWire ≤ B
  numGate : c.numGate ≤ B
  numConst : c.numConst ≤ B
  gateIndex : c.gateIndex ≤ B

/-- every counter in the heap is at most `B` -/
structure BddW (B : Nat) (w : World) : Prop where
  circs : ∀ c ∈ w.circs, BddC B c
  stores : ∀ s ∈ w.stores, s.numModule ≤ B

theorem BddC.mono {A B : Nat} {c : Circuit} (h : BddC A c) (k : A ≤ B) : BddC B c :=
  ⟨Nat.le_trans h.1 k, Nat.le_trans h.2 k, Nat.le_trans h.3 k, Nat.le_trans h.4 k, Nat.le_trans h.5 k,
    Nat.le_trans h.6 k⟩

theorem BddW.mono {A B : Nat} {w : World} (h : BddW A w) (k : A ≤ B) : BddW B w :=
  ⟨fun c hc => (h.circs c hc).mono k, fun s hs => Nat.le_trans (h.stores s hs) k⟩

theorem BddW.fits {B : Nat} {w : World} (h : BddW B w) (k : B < 2 ^ 64) : Fits w :=
  ⟨fun c hc => let x := h.circs c hc
    ⟨Nat.lt_of_le_of_lt x.1 k, Nat.lt_of_le_of_lt x.2 k, Nat.lt_of_le_of_lt x.3 k, Nat.lt_of_le_of_lt x.4 k,
      Nat.lt_of_le_of_lt x.5 k, Nat.lt_of_le_of_lt x.6 k⟩, fun s hs => Nat.lt_of_le_of_lt (h.stores s hs) k⟩

theorem BddW.setC {B : Nat} {w : World} (h : BddW B w) {r : Ref} {c : Circuit} (k : BddC B c) : BddW B (w.setC r c) where
  circs d hd := by
    rcases List.mem_or_eq_of_mem_set hd with h1 | h1
    · exact h.circs d h1
    · exact h1 ▸ k
  stores := h.stores

theorem BddW.get {B : Nat} {w : World} (h : BddW B w) {r : Ref} {c : Circuit} (k : w.circs[r]? = some c) : BddC B c :=
  h.circs c (List.mem_iff_getElem?.mpr ⟨r, k⟩)

theorem BddW.onCircuit {α} {A B : Nat} {w : World} (h : BddW A w) (hAB : A ≤ B) (r : Ref)
    (f : Circuit → Except Err α × Circuit) (hf : ∀ c, BddC A c → BddC B (f c).2) :
    BddW B (M.onCircuit r f w).2 := by
  unfold M.onCircuit
  cases hc : w.circs[r]? with
  | none => exact h.mono hAB
  | some c => exact (h.mono hAB).setC (hf c (h.get hc))

theorem BddC.input {B : Nat} {c : Circuit} (h : BddC B c) : BddC (B + 1) c.input.2 := by
  obtain ⟨h1, h2, h3, h4, h5, h6⟩ := h
  exact ⟨Nat.succ_le_succ h1, Nat.le_succ_of_le h2, Nat.succ_le_succ h3, Nat.le_succ_of_le h4, Nat.le_succ_of_le h5,
    Nat.succ_le_succ h6⟩

theorem BddC.output {B : Nat} {c : Circuit} (h : BddC B c) (g : GateId) : BddC (B + 1) (c.output g).2 := by
  unfold Circuit.output
  cases c.gateMap g with
  | none => exact h.mono (Nat.le_succ B)
  | some _ =>
    obtain ⟨h1, h2, h3, h4, h5, h6⟩ := h
    exact ⟨Nat.le_succ_of_le h1, Nat.succ_le_succ h2, Nat.le_succ_of_le h3, Nat.le_succ_of_le h4, Nat.le_succ_of_le h5,
      Nat.le_succ_of_le h6⟩

theorem BddC.constant {B : Nat} {c : Circuit} (h : BddC B c) (v : Bool) : BddC (B + 1) (c.constant v).2 := by
  obtain ⟨h1, h2, h3, h4, h5, h6⟩ := h
  exact ⟨Nat.le_succ_of_le h1, Nat.le_succ_of_le h2, Nat.succ_le_succ h3, Nat.le_succ_of_le h4, Nat.succ_le_succ h5,
    Nat.succ_le_succ h6⟩

theorem BddC.congr {B : Nat} {c c' : Circuit} (h : BddC B c)
    (e : c'.inputLen = c.inputLen ∧ c'.outputLen = c.outputLen ∧ c'.numWire = c.numWire ∧ c'.numGate = c.numGate ∧
      c'.numConst = c.numConst ∧ c'.gateIndex = c.gateIndex) : BddC B c' := by
  obtain ⟨e1, e2, e3, e4, e5, e6⟩ := e
  exact ⟨e1 ▸ h.1, e2 ▸ h.2, e3 ▸ h.3, e4 ▸ h.4, e5 ▸ h.5, e6 ▸ h.6⟩

theorem BddC.gate {B : Nat} {c : Circuit} (h : BddC B c) (gate : Gate) : BddC (B + 1) (c.addGate gate).2 := by
  obtain ⟨h1, h2, h3, h4, h5, h6⟩ := h
  exact ⟨Nat.le_succ_of_le h1, Nat.le_succ_of_le h2, Nat.succ_le_succ h3, Nat.le_succ_of_le h4, Nat.le_succ_of_le h5,
    Nat.succ_le_succ h6⟩

theorem BddC.not {B : Nat} {c : Circuit} (h : BddC B c) (x : GateId) : BddC (B + 1) (c.not x).2 := by
  have k := (h.gate (.not x)).congr (Checked.counters_addDependence _ x c.gateIndex)
  have e := (Checked.counters_addDependence (c.addGate (.not x)).2 x c.gateIndex).2.2.2.1
  exact ⟨k.1, k.2, k.3, Nat.succ_le_succ (Nat.le_trans (Nat.le_of_eq e) h.4), k.5, k.6⟩

theorem BddC.binary {B : Nat} {c : Circuit} (h : BddC B c) (gate : Gate) (l r : GateId) :
    BddC (B + 1) (let (g, c1) := c.addGate gate
      let c2 := c1.addDependence l g
      let c3 := c2.addDependence r g
      { c3 with numGate := c3.numGate + 1 }) := by
  have k := ((h.gate gate).congr (Checked.counters_addDependence _ l c.gateIndex)).congr
    (Checked.counters_addDependence _ r c.gateIndex)
  have e := (Checked.counters_addDependence ((c.addGate gate).2.addDependence l c.gateIndex) r c.gateIndex).2.2.2.1
  have e' := (Checked.counters_addDependence (c.addGate gate).2 l c.gateIndex).2.2.2.1
  exact ⟨k.1, k.2, k.3, Nat.succ_le_succ (Nat.le_trans (Nat.le_of_eq (e.trans e')) h.4), k.5, k.6⟩

theorem counters_addModuleGates (a b : Nat) (ids : List GateId) (mid : ModuleId) (k : Nat) : ∀ (c : Circuit) (i : Nat),
    (c.addModuleGates a b ids mid i k).2.inputLen = c.inputLen ∧
      (c.addModuleGates a b ids mid i k).2.outputLen = c.outputLen ∧
      (c.addModuleGates a b ids mid i k).2.numWire = c.numWire + k ∧
      (c.addModuleGates a b ids mid i k).2.numGate = c.numGate ∧
      (c.addModuleGates a b ids mid i k).2.numConst = c.numConst ∧
      (c.addModuleGates a b ids mid i k).2.gateIndex = c.gateIndex + k := by
  induction k with
  | zero => exact fun c i => ⟨rfl, rfl, rfl, rfl, rfl, rfl⟩
  | succ k ih =>
    intro c i
    obtain ⟨h1, h2, h3, h4, h5, h6⟩ := ih (c.addGate (.module a b ids i mid)).2 (i + 1)
    exact ⟨h1, h2, h3.trans (by simp only [Circuit.addGate]; omega), h4, h5,
      h6.trans (by simp only [Circuit.addGate]; omega)⟩

theorem BddC.module {B : Nat} {c m : Circuit} (h : BddC B c) (hm : BddC B m) (mid : ModuleId) (ids : List GateId) :
    BddC (B + B) (c.module m mid ids).2 := by
  unfold Circuit.module
  split
  · exact h.mono (Nat.le_add_right B B)
  · split
    · exact h.mono (Nat.le_add_right B B)
    · refine BddC.congr ?_ (Checked.counters_addModuleDeps _ ids _)
      obtain ⟨k1, k2, k3, k4, k5, k6⟩ := counters_addModuleGates m.inputLen m.outputLen ids mid m.outputLen
        { c with
          numWire := c.numWire + (m.numWire - m.inputLen - m.outputLen)
          numGate := c.numGate + m.numGate
          numConst := c.numConst + m.numConst } 0
      obtain ⟨h1, h2, h3, h4, h5, h6⟩ := h
      obtain ⟨m1, m2, m3, m4, m5, m6⟩ := hm
      simp only at k1 k2 k3 k4 k5 k6
      constructor <;> simp only [*] <;> omega

/-- a call that is no module call adds at most two -/
theorem call_bdd_plain (op : Op) (hop : ∀ r mid ids, op ≠ .module r mid ids) {B : Nat} {w : World} (h : BddW B w) :
    BddW (B + 2) (op.call w).2 := by
  have h1 : B ≤ B + 1 := Nat.le_succ B
  have h1' : B + 1 ≤ B + 2 := by omega
  have h2 : B + 1 + 1 ≤ B + 2 := by omega
  have h0 : B ≤ B + 2 := by omega
  have hret {α} (x : M α) (f : α → Ret) : ((do return f (← x) : M Ret) w).2 = (x w).2 := by
    simp only [M.bind_apply]
    cases x w with
    | mk a w' => cases a <;> rfl
  have hnot {A : Nat} {w : World} (h : BddW A w) (r : Ref) (x : GateId) : BddW (A + 1) (CC.not r x w).2 :=
    h.onCircuit (Nat.le_succ A) r _ fun c k => k.not x
  have hxor {A : Nat} {w : World} (h : BddW A w) (r : Ref) (a b : GateId) : BddW (A + 1) (CC.xor r a b w).2 :=
    h.onCircuit (Nat.le_succ A) r _ fun c k => k.binary (.xor a b) a b
  have hreg {A : Nat} {w : World} (h : BddW A w) (r m : Ref) : BddW (A + 1) (CC.registerModule r m w).2 := by
    unfold CC.registerModule
    split
    · exact h.mono (Nat.le_succ A)
    · split
      · exact h.mono (Nat.le_succ A)
      · split
        · exact h.mono (Nat.le_succ A)
        · next s hs =>
          refine ⟨fun c hc => (h.circs c hc).mono (Nat.le_succ A), fun x hx => ?_⟩
          rcases List.mem_or_eq_of_mem_set hx with h1 | h1
          · exact Nat.le_succ_of_le (h.stores x h1)
          · subst h1
            exact Nat.succ_le_succ (h.stores s (List.mem_iff_getElem?.mpr ⟨_, hs⟩))
  have hnew (s : StoreRef) : BddW B (CC.newCircuit s w).2 := by
    unfold CC.newCircuit
    split
    · exact h
    · refine ⟨fun c hc => ?_, h.stores⟩
      rcases List.mem_append.mp hc with hc | hc
      · exact h.circs c hc
      · rw [List.mem_singleton] at hc
        subst hc
        exact ⟨Nat.zero_le _, Nat.zero_le _, Nat.zero_le _, Nat.zero_le _, Nat.zero_le _, Nat.zero_le _⟩
  cases op with
  | newStorage =>
    simp only [Op.call, hret]
    refine ⟨fun c hc => (h.circs c hc).mono h0, fun s hs => ?_⟩
    rcases List.mem_append.mp hs with hs | hs
    · exact Nat.le_trans (h.stores s hs) h0
    · rw [List.mem_singleton] at hs
      subst hs
      exact Nat.zero_le _
  | newCircuit s =>
    simp only [Op.call, hret]
    exact (hnew s).mono h0
  | input r =>
    simp only [Op.call, hret]
    exact (h.onCircuit h1 r _ fun c k => k.input).mono h1'
  | output r g =>
    simp only [Op.call, hret]
    exact (h.onCircuit h1 r _ fun c k => k.output g).mono h1'
  | constant r v =>
    simp only [Op.call, hret]
    exact (h.onCircuit h1 r _ fun c k => k.constant v).mono h1'
  | not r x =>
    simp only [Op.call, hret]
    exact (hnot h r x).mono h1'
  | xor r a b =>
    simp only [Op.call, hret]
    exact (hxor h r a b).mono h1'
  | and r a b =>
    simp only [Op.call, hret]
    exact (h.onCircuit h1 r _ fun c k => k.binary (.and a b) a b).mono h1'
  | or r a b =>
    simp only [Op.call, hret]
    exact (h.onCircuit h1 r _ fun c k => k.binary (.or a b) a b).mono h1'
  | equivalent r a b =>
    simp only [Op.call, hret]
    unfold CC.equivalent
    rw [M.bind_apply]
    have k := hxor h r a b
    cases hx : CC.xor r a b w with
    | mk x w' =>
      rw [hx] at k
      cases x with
      | ok x => exact (hnot k r x).mono h2
      | error e => exact k.mono h1'
  | identity r x =>
    simp only [Op.call, hret]
    unfold CC.identity
    rw [M.bind_apply]
    have k := hnot h r x
    cases hx : CC.not r x w with
    | mk y w' =>
      rw [hx] at k
      cases y with
      | ok y => exact (hnot k r y).mono h2
      | error e => exact k.mono h1'
  | registerModule r m =>
    simp only [Op.call, hret]
    exact (hreg h r m).mono h1'
  | storeModule q m =>
    simp only [Op.call, hret]
    refine BddW.mono ?_ h1'
    unfold CC.storeModule
    split
    · exact h.mono h1
    · split
      · exact h.mono h1
      · next s hs =>
        refine ⟨fun c hc => (h.circs c hc).mono h1, fun x hx => ?_⟩
        rcases List.mem_or_eq_of_mem_set hx with h1 | h1
        · exact Nat.le_succ_of_le (h.stores x h1)
        · subst h1
          exact Nat.succ_le_succ (h.stores s (List.mem_iff_getElem?.mpr ⟨_, hs⟩))
  | clone r =>
    simp only [Op.call, hret]
    refine BddW.mono ?_ h0
    unfold cloneCircuit
    split
    · exact h
    · next d hd =>
      refine ⟨fun c hc => ?_, h.stores⟩
      rcases List.mem_append.mp hc with hc | hc
      · exact h.circs c hc
      · rw [List.mem_singleton] at hc
        subst hc
        exact h.circs c (List.mem_iff_getElem?.mpr ⟨r, hd⟩)
  | subCircuit r =>
    have e : ((Op.subCircuit r).call w).2 = (CC.subCircuit r w).2 := by
      simp only [Op.call, M.bind_apply]
      cases CC.subCircuit r w with
      | mk a w' => cases a <;> rfl
    rw [e]
    unfold CC.subCircuit
    split
    · exact h.mono h0
    · next c hc =>
      rw [M.bind_apply]
      have k := hnew c.storage
      cases hn : CC.newCircuit c.storage w with
      | mk n w' =>
        rw [hn] at k
        cases n with
        | error e => exact k.mono h0
        | ok n =>
          simp only [M.bind_apply]
          have k' := hreg k r n
          cases hr : CC.registerModule r n w' with
          | mk a w'' =>
            rw [hr] at k'
            cases a <;> exact k'.mono h1'
  | module r mid ids => exact absurd rfl (hop r mid ids)

/-- one call at most doubles the largest counter -/
theorem call_bdd (op : Op) {B : Nat} (hB : 2 ≤ B) {w : World} (h : BddW B w) : BddW (B + B) (op.call w).2 := by
  by_cases hop : ∀ r mid ids, op ≠ .module r mid ids
  · exact (call_bdd_plain op hop h).mono (by omega)
  · obtain ⟨r, mid, ids, rfl⟩ : ∃ r mid ids, op = .module r mid ids := by
      apply Classical.byContradiction
      intro k
      exact hop fun r mid ids e => k ⟨r, mid, ids, e⟩
    have h0 : B ≤ B + B := by omega
    have e : ((Op.module r mid ids).call w).2 = (CC.module r mid ids w).2 := by
      simp only [Op.call, M.bind_apply]
      cases CC.module r mid ids w with
      | mk a w' => cases a <;> rfl
    rw [e]
    unfold CC.module
    split
    · exact h.mono h0
    · next c hc =>
      split
      · exact h.mono h0
      · split
        · exact h.mono h0
        · split
          · exact h.mono h0
          · next m hm => exact (h.mono h0).setC ((h.get hc).module (h.get hm) mid ids)

theorem after_bdd_plain (ops : List Op) (hops : ∀ op ∈ ops, ∀ r mid ids, op ≠ .module r mid ids) :
    ∀ {B : Nat} {w : World}, BddW B w → BddW (B + 2 * ops.length) (after ops w) := by
  induction ops with
  | nil => exact fun h => h
  | cons op ops ih =>
    intro B w h
    rw [after_cons]
    refine (ih (fun o ho => hops o (List.mem_cons_of_mem _ ho))
      (call_bdd_plain op (hops op List.mem_cons_self) h)).mono ?_
    rw [List.length_cons]
    omega

theorem bddW_empty (B : Nat) : BddW B World.empty :=
  ⟨fun _ h => absurd h List.not_mem_nil, fun _ h => absurd h List.not_mem_nil⟩

theorem after_bdd (ops : List Op) : ∀ {B : Nat}, 2 ≤ B → ∀ {w : World}, BddW B w →
    BddW (2 ^ ops.length * B) (after ops w) := by
  induction ops with
  | nil =>
    intro B _ w h
    exact h.mono (by simp)
  | cons op ops ih =>
    intro B hB w h
    rw [after_cons]
    refine (ih (B := B + B) (by omega) (call_bdd op hB h)).mono ?_
    rw [List.length_cons, Nat.pow_succ, Nat.mul_assoc, ← Nat.two_mul]
    exact Nat.le_refl _

end CC
