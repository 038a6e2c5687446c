import Verif.Proofs.Checked

/-!
# A tower of modules whose size doubles with every level

Level 0 is a circuit with one input, two NOT gates and one output. Level `k + 1` feeds its input through two calls of
level `k`.
-/

namespace CC
open Spec

/-- the calls that build level `k + 1`, given levels `0..k` -/
def levelOps (k : Nat) : List Op :=
  [.newCircuit 0, .input (k + 1), .module (k + 1) k [0], .module (k + 1) k [1], .output (k + 1) 2,
    .registerModule (k + 1) (k + 1)]

/-- the calls that build levels `0..k` -/
def towerOps : Nat → List Op
  | 0 => [.newStorage, .newCircuit 0, .input 0, .not 0 0, .not 0 1, .output 0 2, .registerModule 0 0]
  | k + 1 => towerOps k ++ levelOps k

theorem towerOps_length (k : Nat) : (towerOps k).length = 6 * k + 7 := by
  induction k with
  | zero => rfl
  | succ k ih =>
    rw [towerOps, List.length_append, ih]
    simp only [levelOps, List.length_cons, List.length_nil]
    omega

/-- the counters of level `k` -/
structure LevelC (k : Nat) (c : Circuit) : Prop where
  storage : c.storage = 0
  inputLen : c.inputLen = 1
  outputLen : c.outputLen = 1
  numWire : c.numWire = 2 ^ (k + 1) + 1
  numGate : c.numGate = 2 ^ (k + 1)
  numConst : c.numConst = 0
  gateIndex : c.gateIndex = 3

/-- the heap holds levels `0..k` -/
structure TowerW (k : Nat) (w : World) : Prop where
  len : w.circs.length = k + 1
  levels : ∀ i, i ≤ k → ∃ c, w.circs[i]? = some c ∧ LevelC i c
  store : ∃ s, w.stores = [s] ∧ s.numModule = k + 1 ∧ s.moduleMap k = some k

theorem TowerW.fits {k : Nat} {w : World} (h : TowerW k w) (hk : k ≤ 62) : Fits w where
  circs c hc := by
    obtain ⟨i, hi⟩ := List.mem_iff_getElem?.mp hc
    have hlt := (List.getElem?_eq_some_iff.mp hi).1
    rw [h.len] at hlt
    obtain ⟨c', hc', l⟩ := h.levels i (by omega)
    rw [hi] at hc'
    cases hc'
    have h1 : 2 ^ (i + 1) ≤ 2 ^ 63 := Nat.pow_le_pow_right (by omega) (by omega)
    have h2 : (2 : Nat) ^ 63 + 2 ^ 63 = 2 ^ 64 := by decide
    have h3 : (4 : Nat) < 2 ^ 63 := by decide
    exact ⟨by rw [l.inputLen]; omega, by rw [l.outputLen]; omega, by rw [l.numWire]; omega,
      by rw [l.numGate]; omega, by rw [l.numConst]; omega, by rw [l.gateIndex]; omega⟩
  stores s hs := by
    obtain ⟨s', h1, h2, _⟩ := h.store
    rw [h1, List.mem_singleton] at hs
    subst hs
    rw [h2]
    have h3 : (2 : Nat) ^ 64 = 18446744073709551616 := by decide
    omega

/-- heap with one more circuit -/
def World.push (w : World) (c : Circuit) : World := { w with circs := w.circs ++ [c] }

theorem push_get (w : World) (c : Circuit) : (w.push c).circs[w.circs.length]? = some c := by
  simp [World.push]

theorem push_set (w : World) (c c' : Circuit) : (w.push c).setC w.circs.length c' = w.push c' := by
  simp [World.push, World.setC]

theorem push_old {w : World} {i : Nat} {d : Circuit} (c : Circuit) (h : w.circs[i]? = some d) :
    (w.push c).circs[i]? = some d := by
  simp only [World.push]
  rw [List.getElem?_append_left (List.getElem?_eq_some_iff.mp h).1]
  exact h

theorem onCircuit_push {α} (w : World) (c : Circuit) (f : Circuit → Except Err α × Circuit) :
    M.onCircuit w.circs.length f (w.push c) = ((f c).1, w.push (f c).2) := by
  simp only [M.onCircuit, push_get, push_set]

theorem input_counters (c : Circuit) : c.input.1 = c.gateIndex ∧ c.input.2.storage = c.storage ∧
    c.input.2.inputLen = c.inputLen + 1 ∧ c.input.2.outputLen = c.outputLen ∧ c.input.2.numWire = c.numWire + 1 ∧
    c.input.2.numGate = c.numGate ∧ c.input.2.numConst = c.numConst ∧ c.input.2.gateIndex = c.gateIndex + 1 :=
  ⟨rfl, rfl, rfl, rfl, rfl, rfl, rfl, rfl⟩

theorem addModuleDeps_frame (c : Circuit) (ids outs : List GateId) :
    (c.addModuleDeps ids outs).storage = c.storage ∧ (c.addModuleDeps ids outs).gateMap = c.gateMap := by
  have h1 (c : Circuit) (x g : GateId) :
      (c.addDependence x g).storage = c.storage ∧ (c.addDependence x g).gateMap = c.gateMap := by
    unfold Circuit.addDependence
    split <;> exact ⟨rfl, rfl⟩
  have h2 (x : GateId) (outs : List GateId) : ∀ c : Circuit,
      (outs.foldl (fun c o => c.addDependence x o) c).storage = c.storage ∧
        (outs.foldl (fun c o => c.addDependence x o) c).gateMap = c.gateMap := by
    induction outs with
    | nil => exact fun c => ⟨rfl, rfl⟩
    | cons o outs ih => exact fun c => ⟨(ih _).1.trans (h1 c x o).1, (ih _).2.trans (h1 c x o).2⟩
  induction ids generalizing c with
  | nil => exact ⟨rfl, rfl⟩
  | cons x ids ih =>
    exact ⟨(ih _).1.trans (h2 x outs c).1, (ih _).2.trans (h2 x outs c).2⟩

/-- a call of a level from a circuit -/
theorem module_level {k : Nat} {m : Circuit} (hm : LevelC k m) (c : Circuit) (ids : List GateId) :
    ∃ c', c.module m k ids = (.ok [c.gateIndex], c') ∧ c'.storage = c.storage ∧ c'.inputLen = c.inputLen ∧
      c'.outputLen = c.outputLen ∧ c'.numWire + 0 = c.numWire + 2 ^ (k + 1) ∧
      c'.numGate = c.numGate + 2 ^ (k + 1) ∧ c'.numConst = c.numConst ∧ c'.gateIndex = c.gateIndex + 1 ∧
      c'.gateMap = c.gateMap.insert c.gateIndex (.module 1 1 ids 0 k) := by
  have h0 : 0 < 2 ^ (k + 1) := Nat.two_pow_pos _
  refine ⟨(c.module m k ids).2, ?_⟩
  unfold Circuit.module
  rw [if_neg (by rw [hm.numWire, hm.inputLen]; omega),
    if_neg (by rw [hm.numWire, hm.inputLen, hm.outputLen]; omega)]
  simp only [hm.numWire, hm.inputLen, hm.outputLen, hm.numGate, hm.numConst, Circuit.addModuleGates, Circuit.addGate]
  obtain ⟨k1, k2, k3, k4, k5, k6⟩ := Checked.counters_addModuleDeps
    { c with
      gateMap := c.gateMap.insert c.gateIndex (.module 1 1 ids 0 k)
      numWire := c.numWire + (2 ^ (k + 1) + 1 - 1 - 1) + 1
      numGate := c.numGate + 2 ^ (k + 1)
      numConst := c.numConst + 0
      gateIndex := c.gateIndex + 1 } ids [c.gateIndex]
  obtain ⟨f1, f2⟩ := addModuleDeps_frame
    { c with
      gateMap := c.gateMap.insert c.gateIndex (.module 1 1 ids 0 k)
      numWire := c.numWire + (2 ^ (k + 1) + 1 - 1 - 1) + 1
      numGate := c.numGate + 2 ^ (k + 1)
      numConst := c.numConst + 0
      gateIndex := c.gateIndex + 1 } ids [c.gateIndex]
  exact ⟨trivial, f1, k1, k2, by rw [k3]; simp only; omega, k4, k5, k6, f2⟩

/-- the heap after a list of calls -/
def after (ops : List Op) (w : World) : World := (play ops (w, [])).1

theorem play_fst (ops : List Op) : ∀ (w : World) (evs evs' : List Ev), (play ops (w, evs)).1 = (play ops (w, evs')).1 := by
  induction ops with
  | nil => exact fun _ _ _ => rfl
  | cons op ops ih => exact fun w evs evs' => ih _ _ _

theorem after_cons (op : Op) (ops : List Op) (w : World) : after (op :: ops) w = after ops (op.call w).2 :=
  play_fst ops _ _ _

theorem after_append (ops ops' : List Op) : ∀ w : World, after (ops ++ ops') w = after ops' (after ops w) := by
  induction ops with
  | nil => exact fun _ => rfl
  | cons op ops ih =>
    intro w
    rw [List.cons_append, after_cons, after_cons, ih]

/-- all results of a list of calls are `Ok` -/
def AllOk : List Op → World → Prop
  | [], _ => True
  | op :: ops, w => (∃ a, (op.call w).1 = .ok a) ∧ AllOk ops (op.call w).2

theorem AllOk.append {ops ops' : List Op} : ∀ {w : World}, AllOk ops w → AllOk ops' (after ops w) →
    AllOk (ops ++ ops') w := by
  induction ops with
  | nil => exact fun _ h => h
  | cons op ops ih =>
    intro w h k
    rw [after_cons] at k
    exact ⟨h.1, ih h.2 k⟩

theorem AllOk.play {ops : List Op} : ∀ {w : World} {evs : List Ev}, AllOk ops w → (∀ e ∈ evs, ∃ a, e.res = .ok a) →
    ∀ e ∈ (play ops (w, evs)).2, ∃ a, e.res = .ok a := by
  induction ops with
  | nil => exact fun _ h => h
  | cons op ops ih =>
    intro w evs h k
    refine ih h.2 fun e he => ?_
    rcases List.mem_append.mp he with he | he
    · exact k e he
    · rw [List.mem_singleton] at he
      subst he
      exact h.1

/-- building the next level up to and including the first call -/
theorem level_start {k : Nat} {w : World} (h : TowerW k w) :
    ∃ c, AllOk [.newCircuit 0, .input (k + 1), .module (k + 1) k [0]] w ∧
      after [.newCircuit 0, .input (k + 1), .module (k + 1) k [0]] w = w.push c ∧ c.storage = 0 ∧ c.inputLen = 1 ∧
      c.outputLen = 0 ∧ c.numWire = 1 + 2 ^ (k + 1) ∧ c.numGate = 2 ^ (k + 1) ∧ c.numConst = 0 ∧ c.gateIndex = 2 := by
  obtain ⟨s, hs, hn, hmap⟩ := h.store
  obtain ⟨m, hm, lm⟩ := h.levels k (Nat.le_refl k)
  have h1 : (Op.newCircuit 0).call w = (.ok (.circuit (k + 1)), w.push (Circuit.new 0)) := by
    simp [Op.call, M.bind_apply, newCircuit, hs, M.pure_apply, h.len, World.push]
  have h2 : (Op.input (k + 1)).call (w.push (Circuit.new 0)) = (.ok (.gate 0), w.push (Circuit.new 0).input.2) := by
    simp only [Op.call, M.bind_apply, CC.input, ← h.len, onCircuit_push, M.pure_apply]
    rfl
  obtain ⟨c, e, p1, p2, p3, p4, p5, p6, p7, _⟩ := module_level lm (Circuit.new 0).input.2 [0]
  have h3 : (Op.module (k + 1) k [0]).call (w.push (Circuit.new 0).input.2) = (.ok (.gates [1]), w.push c) := by
    have hmod : (w.push (Circuit.new 0).input.2).module? (Circuit.new 0).input.2 k = some k := by
      have : (Circuit.new 0).input.2.storage = 0 := rfl
      simp [World.module?, World.push, this, hs, hmap]
    simp only [Op.call, M.bind_apply, CC.module, ← h.len, push_get, hmod, push_old _ hm, e, push_set, M.pure_apply]
    rw [if_neg (by rw [h.len]; omega)]
    rfl
  refine ⟨c, ⟨⟨_, congrArg Prod.fst h1⟩, ?_⟩, ?_, p1, p2, p3, ?_, p5.trans (Nat.zero_add _), p6, p7⟩
  · rw [h1]
    refine ⟨⟨_, congrArg Prod.fst h2⟩, ?_⟩
    rw [h2]
    exact ⟨⟨_, congrArg Prod.fst h3⟩, trivial⟩
  · rw [after_cons, h1, after_cons, h2, after_cons, h3]
    rfl
  · exact p4

theorem level_step {k : Nat} {w : World} (h : TowerW k w) : AllOk (levelOps k) w ∧ TowerW (k + 1) (after (levelOps k) w) := by
  obtain ⟨s, hs, hn, hmap⟩ := h.store
  obtain ⟨m, hm, lm⟩ := h.levels k (Nat.le_refl k)
  obtain ⟨c, hok, ha, q1, q2, q3, q4, q5, q6, q7⟩ := level_start h
  obtain ⟨d, e, p1, p2, p3, p4, p5, p6, p7, p8⟩ := module_level lm c [1]
  have h4 : (Op.module (k + 1) k [1]).call (w.push c) = (.ok (.gates [2]), w.push d) := by
    have hmod : (w.push c).module? c k = some k := by
      simp [World.module?, World.push, q1, hs, hmap]
    simp only [Op.call, M.bind_apply, CC.module, ← h.len, push_get, hmod, push_old _ hm, e, push_set, M.pure_apply, q7]
    rw [if_neg (by rw [h.len]; omega)]
  let d' : Circuit := { d with outputMap := d.outputMap.insert d.outputLen 2, outputLen := d.outputLen + 1 }
  have h5 : (Op.output (k + 1) 2).call (w.push d) = (.ok (.wire 0), w.push d') := by
    have hg : d.gateMap 2 = some (.module 1 1 [1] 0 k) := by rw [p8, q7]; simp [Map.insert]
    have ho : d.output 2 = (.ok 0, d') := by
      simp only [Circuit.output, hg, d', p3, q3]
    simp only [Op.call, M.bind_apply, CC.output, ← h.len, onCircuit_push, ho, M.pure_apply]
  let s' : Storage := (s.register (k + 1)).2
  have h6 : (Op.registerModule (k + 1) (k + 1)).call (w.push d') = (.ok (.mid (k + 1)), { w.push d' with stores := [s'] }) := by
    have hst : d'.storage = 0 := p1.trans q1
    have hss : (w.push d').stores = [s] := hs
    simp only [Op.call, M.bind_apply, CC.registerModule, ← h.len, push_get, hst, hss]
    simp [M.pure_apply, s', hn, h.len, Storage.register]
  have hops : levelOps k = [.newCircuit 0, .input (k + 1), .module (k + 1) k [0]] ++
      [.module (k + 1) k [1], .output (k + 1) 2, .registerModule (k + 1) (k + 1)] := rfl
  have haft : after (levelOps k) w = { w.push d' with stores := [s'] } := by
    rw [hops, after_append, ha, after_cons, h4, after_cons, h5, after_cons, h6]
    rfl
  constructor
  · rw [hops]
    refine hok.append ?_
    rw [ha]
    refine ⟨⟨_, congrArg Prod.fst h4⟩, ?_⟩
    rw [h4]
    refine ⟨⟨_, congrArg Prod.fst h5⟩, ?_⟩
    rw [h5]
    exact ⟨⟨_, congrArg Prod.fst h6⟩, trivial⟩
  · rw [haft]
    refine ⟨by simp [World.push, h.len], fun i hi => ?_, s', rfl, by simp [s', Storage.register, hn], ?_⟩
    · by_cases hik : i = k + 1
      · subst hik
        refine ⟨d', by rw [← h.len]; exact push_get w d', p1.trans q1, p2.trans q2, ?_, ?_, ?_, p6.trans q6, ?_⟩
        · simp only [d', p3, q3]
        · have : d'.numWire = d.numWire := rfl
          rw [this]
          have : 2 ^ (k + 1 + 1) = 2 * 2 ^ (k + 1) := by rw [Nat.pow_succ]; omega
          omega
        · have : d'.numGate = d.numGate := rfl
          rw [this]
          have : 2 ^ (k + 1 + 1) = 2 * 2 ^ (k + 1) := by rw [Nat.pow_succ]; omega
          omega
        · have : d'.gateIndex = d.gateIndex := rfl
          omega
      · obtain ⟨x, hx, lx⟩ := h.levels i (by omega)
        exact ⟨x, push_old d' hx, lx⟩
    · simp [s', Storage.register, hn, Map.insert]

theorem tower (k : Nat) : AllOk (towerOps k) World.empty ∧ TowerW k (after (towerOps k) World.empty) := by
  induction k with
  | zero =>
    refine ⟨⟨⟨_, rfl⟩, ⟨_, rfl⟩, ⟨_, rfl⟩, ⟨_, rfl⟩, ⟨_, rfl⟩, ⟨_, rfl⟩, ⟨_, rfl⟩, trivial⟩, rfl, fun i hi => ?_, _, rfl, rfl, rfl⟩
    obtain rfl : i = 0 := by omega
    exact ⟨_, rfl, rfl, rfl, rfl, rfl, rfl, rfl, rfl⟩
  | succ k ih =>
    obtain ⟨a, b⟩ := level_step ih.2
    exact ⟨ih.1.append a, by rw [towerOps, after_append]; exact b⟩

end CC
