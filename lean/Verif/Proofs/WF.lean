import Verif.Model.Circuit
import Verif.Spec.History

/-!
# Well-formedness of circuits and heaps, preserved by every API call
-/

namespace CC

/-- how often gate `g` reads gate `x` -/
def Circuit.occ (c : Circuit) (g x : GateId) : Nat :=
  match c.gateMap g with
  | none => 0
  | some gate => gate.operands.count x

/-- invariant of every circuit -/
structure WFc (c : Circuit) : Prop where
  gate_dom : ∀ g, (c.gateMap g).isSome ↔ g < c.gateIndex
  input_iff : ∀ k g, c.inputMap k = some g ↔ c.gateMap g = some (.input k)
  input_dom : ∀ k, (c.inputMap k).isSome ↔ k < c.inputLen
  output_dom : ∀ k, (c.outputMap k).isSome ↔ k < c.outputLen
  output_gate : ∀ k g, c.outputMap k = some g → g < c.gateIndex
  const_iff : ∀ g, g ∈ c.constGates ↔ ∃ v, c.gateMap g = some (.const v)
  const_sorted : c.constGates.Pairwise (· < ·)
  dep : ∀ x g, (c.dependedGates x).count g = c.occ g x
  group : ∀ g nIn nOut ids oi mid, c.gateMap g = some (.module nIn nOut ids oi mid) →
    oi < nOut ∧ oi ≤ g ∧ ∀ k < nOut, c.gateMap (g - oi + k) = some (.module nIn nOut ids k mid)
  wires : c.gateIndex ≤ c.numWire
  consts : c.constGates.length ≤ c.numConst

/-- `c'` is `c` with the gates `gs` appended -/
structure Appends (c c' : Circuit) (gs : List Gate) : Prop where
  idx : c'.gateIndex = c.gateIndex + gs.length
  gate : ∀ g, c'.gateMap g = if g < c.gateIndex then c.gateMap g else gs[g - c.gateIndex]?
  dep : ∀ x g, (c'.dependedGates x).count g =
    (c.dependedGates x).count g +
      if g < c.gateIndex then 0 else ((gs[g - c.gateIndex]?).map (·.operands.count x)).getD 0
  storage : c'.storage = c.storage
  outputMap : c'.outputMap = c.outputMap
  outputLen : c'.outputLen = c.outputLen

theorem WFc.none_of_ge {c : Circuit} (h : WFc c) {g : GateId} (hg : c.gateIndex ≤ g) : c.gateMap g = none := by
  cases e : c.gateMap g with
  | none => rfl
  | some x => have := (h.gate_dom g).mp (by simp [e]); omega

theorem WFc.lt_of_some {c : Circuit} (h : WFc c) {g : GateId} {x} (hg : c.gateMap g = some x) :
    g < c.gateIndex := (h.gate_dom g).mp (by simp [hg])

theorem WFc.some_of_lt {c : Circuit} (h : WFc c) {g : GateId} (hg : g < c.gateIndex) :
    ∃ x, c.gateMap g = some x := Option.isSome_iff_exists.mp ((h.gate_dom g).mpr hg)

theorem Appends.old {c c' gs} (h : Appends c c' gs) {g : GateId} (hg : g < c.gateIndex) :
    c'.gateMap g = c.gateMap g := by rw [h.gate, if_pos hg]

theorem Appends.mono {c c' gs} (hw : WFc c) (h : Appends c c' gs) {g : GateId} {x}
    (hg : c.gateMap g = some x) : c'.gateMap g = some x := by
  rw [h.old (hw.lt_of_some hg), hg]

theorem Appends.new {c c' gs} (h : Appends c c' gs) (i : Nat) :
    c'.gateMap (c.gateIndex + i) = gs[i]? := by
  rw [h.gate, if_neg (by omega)]; congr 1; omega

theorem Appends.occ {c c' gs} (hw : WFc c) (h : Appends c c' gs) (x g : GateId) :
    (c'.dependedGates x).count g = c'.occ g x := by
  rw [h.dep, hw.dep]
  unfold Circuit.occ
  rw [h.gate]
  by_cases hlt : g < c.gateIndex
  · simp [hlt]
  · rw [if_neg hlt, if_neg hlt, hw.none_of_ge (by omega)]
    cases gs[g - c.gateIndex]? <;> simp

/-- General preservation: appending gates, with the right book-keeping for inputs, constants and groups. -/
theorem WFc.append {c c' : Circuit} {gs : List Gate} (hw : WFc c) (h : Appends c c' gs)
    (hin : ∀ k g, c'.inputMap k = some g ↔ c'.gateMap g = some (.input k))
    (hin_dom : ∀ k, (c'.inputMap k).isSome ↔ k < c'.inputLen)
    (hco : ∀ g, g ∈ c'.constGates ↔ ∃ v, c'.gateMap g = some (.const v))
    (hsort : c'.constGates.Pairwise (· < ·))
    (hgrp : ∀ i nIn nOut ids oi mid, gs[i]? = some (Gate.module nIn nOut ids oi mid) →
      oi < nOut ∧ oi ≤ i ∧ ∀ k < nOut, gs[i - oi + k]? = some (Gate.module nIn nOut ids k mid))
    (hwires : c'.gateIndex ≤ c'.numWire) (hconsts : c'.constGates.length ≤ c'.numConst) : WFc c' where
  gate_dom g := by
    rw [h.gate, h.idx]
    split
    · next hlt => simp only [(hw.gate_dom g)]; omega
    · next hge =>
      constructor
      · intro hs
        obtain ⟨x, hx⟩ := Option.isSome_iff_exists.mp hs
        have := (List.getElem?_eq_some_iff.mp hx).1
        omega
      · intro hs
        rw [List.getElem?_eq_getElem (by omega)]; rfl
  input_iff := hin
  input_dom := hin_dom
  output_dom k := by rw [h.outputMap, h.outputLen]; exact hw.output_dom k
  output_gate k g hk := by
    rw [h.outputMap] at hk
    have := hw.output_gate k g hk
    rw [h.idx]; omega
  const_iff := hco
  const_sorted := hsort
  dep := h.occ hw
  group g nIn nOut ids oi mid hg := by
    rw [h.gate] at hg
    split at hg
    · next hlt =>
      obtain ⟨h1, h2, h3⟩ := hw.group g nIn nOut ids oi mid hg
      exact ⟨h1, h2, fun k hk => h.mono hw (h3 k hk)⟩
    · next hge =>
      obtain ⟨h1, h2, h3⟩ := hgrp _ _ _ _ _ _ hg
      refine ⟨h1, by omega, fun k hk => ?_⟩
      have : g - oi + k = c.gateIndex + (g - c.gateIndex - oi + k) := by omega
      rw [this, h.new, h3 k hk]
  wires := hwires
  consts := hconsts

/-! ### Effect of the primitive operations -/

@[simp] theorem Circuit.dependedGates_addDependence (c : Circuit) (i s x : GateId) :
    (c.addDependence i s).dependedGates x =
      if x = i then c.dependedGates x ++ [s] else c.dependedGates x := by
  unfold addDependence dependedGates
  by_cases hx : x = i
  · subst hx
    cases e : c.depMap x <;> simp [Map.insert]
  · cases e : c.depMap i <;> simp [Map.insert, hx]

section
variable (c : Circuit) (i s : GateId)
theorem Circuit.addDependence_fields :
    (c.addDependence i s).inputMap = c.inputMap ∧ (c.addDependence i s).outputMap = c.outputMap ∧
    (c.addDependence i s).gateMap = c.gateMap ∧ (c.addDependence i s).storage = c.storage ∧
    (c.addDependence i s).constGates = c.constGates ∧ (c.addDependence i s).inputLen = c.inputLen ∧
    (c.addDependence i s).outputLen = c.outputLen ∧ (c.addDependence i s).numWire = c.numWire ∧
    (c.addDependence i s).numGate = c.numGate ∧ (c.addDependence i s).numConst = c.numConst ∧
    (c.addDependence i s).gateIndex = c.gateIndex := by
  unfold addDependence
  cases c.depMap i <;> simp
@[simp] theorem Circuit.addDependence_inputMap : (c.addDependence i s).inputMap = c.inputMap :=
  (c.addDependence_fields i s).1
@[simp] theorem Circuit.addDependence_outputMap : (c.addDependence i s).outputMap = c.outputMap :=
  (c.addDependence_fields i s).2.1
@[simp] theorem Circuit.addDependence_gateMap : (c.addDependence i s).gateMap = c.gateMap :=
  (c.addDependence_fields i s).2.2.1
@[simp] theorem Circuit.addDependence_storage : (c.addDependence i s).storage = c.storage :=
  (c.addDependence_fields i s).2.2.2.1
@[simp] theorem Circuit.addDependence_constGates : (c.addDependence i s).constGates = c.constGates :=
  (c.addDependence_fields i s).2.2.2.2.1
@[simp] theorem Circuit.addDependence_inputLen : (c.addDependence i s).inputLen = c.inputLen :=
  (c.addDependence_fields i s).2.2.2.2.2.1
@[simp] theorem Circuit.addDependence_outputLen : (c.addDependence i s).outputLen = c.outputLen :=
  (c.addDependence_fields i s).2.2.2.2.2.2.1
@[simp] theorem Circuit.addDependence_numWire : (c.addDependence i s).numWire = c.numWire :=
  (c.addDependence_fields i s).2.2.2.2.2.2.2.1
@[simp] theorem Circuit.addDependence_numGate : (c.addDependence i s).numGate = c.numGate :=
  (c.addDependence_fields i s).2.2.2.2.2.2.2.2.1
@[simp] theorem Circuit.addDependence_numConst : (c.addDependence i s).numConst = c.numConst :=
  (c.addDependence_fields i s).2.2.2.2.2.2.2.2.2.1
@[simp] theorem Circuit.addDependence_gateIndex : (c.addDependence i s).gateIndex = c.gateIndex :=
  (c.addDependence_fields i s).2.2.2.2.2.2.2.2.2.2
end

theorem Circuit.dependedGates_eq_of {c c' : Circuit} (h : c'.depMap = c.depMap) (x : GateId) :
    c'.dependedGates x = c.dependedGates x := by unfold dependedGates; rw [h]

/-- gate-map part of `Appends` for one new gate -/
theorem insert_single {c : Circuit} (hw : WFc c) (gate : Gate) (g : GateId) :
    c.gateMap.insert c.gateIndex gate g =
      if g < c.gateIndex then c.gateMap g else [gate][g - c.gateIndex]? := by
  rw [Map.insert_apply]
  by_cases h1 : g = c.gateIndex
  · subst h1; simp
  · by_cases h2 : g < c.gateIndex
    · simp [h1, h2]
    · simp only [h1, h2, if_false]
      rw [hw.none_of_ge (by omega), List.getElem?_eq_none (by simp; omega)]

theorem count_single {n g : Nat} (gate : Gate) (x : GateId) :
    (if g < n then 0 else (([gate][g - n]?).map (·.operands.count x)).getD 0)
      = if g = n then gate.operands.count x else 0 := by
  by_cases h1 : g = n
  · subst h1; simp
  · by_cases h2 : g < n
    · simp [h1, h2]
    · simp only [h1, h2, if_false]
      rw [List.getElem?_eq_none (by simp; omega)]; simp

theorem Circuit.input_appends {c : Circuit} (hw : WFc c) : Appends c c.input.2 [.input c.inputLen] where
  idx := rfl
  gate g := insert_single hw _ g
  dep x g := by
    rw [count_single]
    rw [Circuit.dependedGates_eq_of (c := c) (c' := c.input.2) rfl]
    simp [Gate.operands]
  storage := rfl
  outputMap := rfl
  outputLen := rfl

theorem Circuit.constant_appends {c : Circuit} (hw : WFc c) (v : Bool) :
    Appends c (c.constant v).2 [.const v] where
  idx := rfl
  gate g := insert_single hw _ g
  dep x g := by
    rw [count_single]
    rw [Circuit.dependedGates_eq_of (c := c) (c' := (c.constant v).2) rfl]
    simp [Gate.operands]
  storage := rfl
  outputMap := rfl
  outputLen := rfl

theorem Circuit.not_appends {c : Circuit} (hw : WFc c) (x : GateId) :
    Appends c (c.not x).2 [.not x] where
  idx := by simp [Circuit.not, addGate]
  gate g := by
    have := insert_single hw (.not x) g
    simpa [Circuit.not, addGate] using this
  dep y g := by
    rw [count_single]
    have : (c.not x).2.dependedGates y = ((c.addGate (.not x)).2.addDependence x c.gateIndex).dependedGates y :=
      rfl
    rw [this, Circuit.dependedGates_addDependence,
      Circuit.dependedGates_eq_of (c := c) (c' := (c.addGate (.not x)).2) rfl]
    by_cases hy : y = x
    · subst hy
      by_cases hg : g = c.gateIndex
      · simp [Gate.operands, hg]
      · have hg' : ¬ c.gateIndex = g := fun h => hg h.symm
        simp [hg, hg']
    · have hy' : x ≠ y := Ne.symm hy
      simp [hy, Gate.operands, hy']
  storage := by simp [Circuit.not, addGate]
  outputMap := by simp [Circuit.not, addGate]
  outputLen := by simp [Circuit.not, addGate]

/-- book-keeping of a two-operand gate -/
theorem dep_binary (c : Circuit) (gate : Gate) (l r : GateId) (hops : gate.operands = [l, r])
    (c' : Circuit)
    (hc' : c'.depMap = (((c.addGate gate).2.addDependence l c.gateIndex).addDependence r c.gateIndex).depMap)
    (y g : GateId) :
    (c'.dependedGates y).count g = (c.dependedGates y).count g +
      if g = c.gateIndex then gate.operands.count y else 0 := by
  rw [Circuit.dependedGates_eq_of hc', Circuit.dependedGates_addDependence,
    Circuit.dependedGates_addDependence,
    Circuit.dependedGates_eq_of (c := c) (c' := (c.addGate gate).2) rfl, hops]
  by_cases h1 : y = l <;> by_cases h2 : y = r <;> by_cases hg : g = c.gateIndex <;>
    (try have h1' : ¬ l = y := fun h => h1 h.symm) <;> (try have h2' : ¬ r = y := fun h => h2 h.symm) <;>
    (try have hg' : ¬ c.gateIndex = g := fun h => hg h.symm) <;>
    simp_all [List.count_append]

theorem Circuit.xor_appends {c : Circuit} (hw : WFc c) (l r : GateId) :
    Appends c (c.xor l r).2 [.xor l r] where
  idx := by simp [Circuit.xor, addGate]
  gate g := by simpa [Circuit.xor, addGate] using insert_single hw (.xor l r) g
  dep y g := by rw [count_single]; exact dep_binary c (.xor l r) l r rfl _ rfl y g
  storage := by simp [Circuit.xor, addGate]
  outputMap := by simp [Circuit.xor, addGate]
  outputLen := by simp [Circuit.xor, addGate]

theorem Circuit.and_appends {c : Circuit} (hw : WFc c) (l r : GateId) :
    Appends c (c.and l r).2 [.and l r] where
  idx := by simp [Circuit.and, addGate]
  gate g := by simpa [Circuit.and, addGate] using insert_single hw (.and l r) g
  dep y g := by rw [count_single]; exact dep_binary c (.and l r) l r rfl _ rfl y g
  storage := by simp [Circuit.and, addGate]
  outputMap := by simp [Circuit.and, addGate]
  outputLen := by simp [Circuit.and, addGate]

theorem Circuit.or_appends {c : Circuit} (hw : WFc c) (l r : GateId) :
    Appends c (c.or l r).2 [.or l r] where
  idx := by simp [Circuit.or, addGate]
  gate g := by simpa [Circuit.or, addGate] using insert_single hw (.or l r) g
  dep y g := by rw [count_single]; exact dep_binary c (.or l r) l r rfl _ rfl y g
  storage := by simp [Circuit.or, addGate]
  outputMap := by simp [Circuit.or, addGate]
  outputLen := by simp [Circuit.or, addGate]

/-! ### module -/

theorem Circuit.addModuleGates_spec (nIn nOut : Nat) (ids : List GateId) (mid : ModuleId) (k : Nat) :
    ∀ (c : Circuit) (i : Nat),
      (c.addModuleGates nIn nOut ids mid i k).1 = List.range' c.gateIndex k ∧
      (c.addModuleGates nIn nOut ids mid i k).2.gateIndex = c.gateIndex + k ∧
      (∀ g, (c.addModuleGates nIn nOut ids mid i k).2.gateMap g =
        if c.gateIndex ≤ g ∧ g < c.gateIndex + k then some (.module nIn nOut ids (i + (g - c.gateIndex)) mid)
        else c.gateMap g) ∧
      (c.addModuleGates nIn nOut ids mid i k).2.depMap = c.depMap ∧
      (c.addModuleGates nIn nOut ids mid i k).2.inputMap = c.inputMap ∧
      (c.addModuleGates nIn nOut ids mid i k).2.outputMap = c.outputMap ∧
      (c.addModuleGates nIn nOut ids mid i k).2.storage = c.storage ∧
      (c.addModuleGates nIn nOut ids mid i k).2.constGates = c.constGates ∧
      (c.addModuleGates nIn nOut ids mid i k).2.inputLen = c.inputLen ∧
      (c.addModuleGates nIn nOut ids mid i k).2.outputLen = c.outputLen ∧
      (c.addModuleGates nIn nOut ids mid i k).2.numWire = c.numWire + k ∧
      (c.addModuleGates nIn nOut ids mid i k).2.numGate = c.numGate ∧
      (c.addModuleGates nIn nOut ids mid i k).2.numConst = c.numConst := by
  induction k with
  | zero =>
    intro c i
    simp only [addModuleGates, List.range'_zero, Nat.add_zero, and_self, and_true, true_and]
    intro g
    rw [if_neg (by omega)]
  | succ k ih =>
    intro c i
    simp only [addModuleGates]
    obtain ⟨h1, h2, h3, h4, h5, h6, h7, h8, h9, h10, h11, h12, h13⟩ :=
      ih (c.addGate (.module nIn nOut ids i mid)).2 (i + 1)
    refine ⟨?_, ?_, ?_, h4, h5, h6, h7, h8, h9, h10, ?_, h12, h13⟩
    · rw [h1]; simp [addGate, List.range'_succ]
    · rw [h2]; simp [addGate]; omega
    · intro g
      rw [h3]
      have e1 : (c.addGate (.module nIn nOut ids i mid)).2.gateIndex = c.gateIndex + 1 := rfl
      have e2 : (c.addGate (.module nIn nOut ids i mid)).2.gateMap =
        c.gateMap.insert c.gateIndex (.module nIn nOut ids i mid) := rfl
      rw [e1, e2, Map.insert_apply]
      by_cases hg : g = c.gateIndex
      · subst hg
        rw [if_neg (by omega), if_pos rfl, if_pos (by omega)]; simp
      · by_cases hr : c.gateIndex ≤ g ∧ g < c.gateIndex + (k + 1)
        · rw [if_pos (by omega), if_pos hr]
          have : i + 1 + (g - (c.gateIndex + 1)) = i + (g - c.gateIndex) := by omega
          rw [this]
        · rw [if_neg (by omega), if_neg hr, if_neg hg]
    · rw [h11]; simp [addGate]; omega

/-- folding `addDependence` changes nothing but the dependence map -/
structure SameBut (c c' : Circuit) : Prop where
  inputMap : c'.inputMap = c.inputMap
  outputMap : c'.outputMap = c.outputMap
  gateMap : c'.gateMap = c.gateMap
  storage : c'.storage = c.storage
  constGates : c'.constGates = c.constGates
  inputLen : c'.inputLen = c.inputLen
  outputLen : c'.outputLen = c.outputLen
  numWire : c'.numWire = c.numWire
  numGate : c'.numGate = c.numGate
  numConst : c'.numConst = c.numConst
  gateIndex : c'.gateIndex = c.gateIndex

theorem SameBut.rfl' (c : Circuit) : SameBut c c := by constructor <;> rfl

theorem SameBut.trans {a b c : Circuit} (h : SameBut a b) (k : SameBut b c) : SameBut a c := by
  constructor
  · rw [k.inputMap, h.inputMap]
  · rw [k.outputMap, h.outputMap]
  · rw [k.gateMap, h.gateMap]
  · rw [k.storage, h.storage]
  · rw [k.constGates, h.constGates]
  · rw [k.inputLen, h.inputLen]
  · rw [k.outputLen, h.outputLen]
  · rw [k.numWire, h.numWire]
  · rw [k.numGate, h.numGate]
  · rw [k.numConst, h.numConst]
  · rw [k.gateIndex, h.gateIndex]

theorem addDependence_sameBut (c : Circuit) (i s : GateId) : SameBut c (c.addDependence i s) := by
  constructor <;> simp

theorem foldDeps_inner (x : GateId) (outs : List GateId) : ∀ c : Circuit,
    SameBut c (outs.foldl (fun c o => c.addDependence x o) c) ∧
    ∀ y, (outs.foldl (fun c o => c.addDependence x o) c).dependedGates y =
      if y = x then c.dependedGates y ++ outs else c.dependedGates y := by
  induction outs with
  | nil => intro c; exact ⟨SameBut.rfl' c, by simp⟩
  | cons o os ih =>
    intro c
    obtain ⟨h1, h2⟩ := ih (c.addDependence x o)
    refine ⟨(addDependence_sameBut c x o).trans h1, ?_⟩
    intro y
    rw [List.foldl_cons, h2, Circuit.dependedGates_addDependence]
    by_cases hy : y = x <;> simp [hy]

theorem addModuleDeps_spec (outs ids : List GateId) : ∀ c : Circuit,
    SameBut c (c.addModuleDeps ids outs) ∧
    ∀ y g, ((c.addModuleDeps ids outs).dependedGates y).count g =
      (c.dependedGates y).count g + ids.count y * outs.count g := by
  induction ids with
  | nil => intro c; exact ⟨SameBut.rfl' c, by simp [Circuit.addModuleDeps]⟩
  | cons x xs ih =>
    intro c
    obtain ⟨h1, h2⟩ := ih (outs.foldl (fun c o => c.addDependence x o) c)
    obtain ⟨k1, k2⟩ := foldDeps_inner x outs c
    refine ⟨k1.trans h1, ?_⟩
    intro y g
    have : c.addModuleDeps (x :: xs) outs =
        (outs.foldl (fun c o => c.addDependence x o) c).addModuleDeps xs outs := rfl
    rw [this, h2, k2, List.count_cons]
    by_cases hy : y = x
    · subst hy; simp only [if_true, List.count_append, beq_self_eq_true]; rw [Nat.add_mul]; omega
    · have : (x == y) = false := by simp; exact fun h => hy h.symm
      simp [hy, this]

/-- the gates a module call appends -/
def moduleGates (nIn nOut : Nat) (ids : List GateId) (mid : ModuleId) : List Gate :=
  (List.range nOut).map fun i => .module nIn nOut ids i mid

theorem moduleGates_get (nIn nOut : Nat) (ids : List GateId) (mid : ModuleId) (i : Nat) :
    (moduleGates nIn nOut ids mid)[i]? = if i < nOut then some (.module nIn nOut ids i mid) else none := by
  unfold moduleGates
  by_cases h : i < nOut
  · simp [h]
  · simp [h]

/-- what a successful `module` call does -/
structure ModuleEffect (c m c' : Circuit) (mid : ModuleId) (ids outs : List GateId) : Prop where
  outs_eq : outs = List.range' c.gateIndex m.outputLen
  appends : Appends c c' (moduleGates m.inputLen m.outputLen ids mid)
  inputMap : c'.inputMap = c.inputMap
  constGates : c'.constGates = c.constGates
  inputLen : c'.inputLen = c.inputLen
  numWire : c'.numWire = c.numWire + (m.numWire - m.inputLen)
  numGate : c'.numGate = c.numGate + m.numGate
  numConst : c'.numConst = c.numConst + m.numConst
  room : m.inputLen + m.outputLen ≤ m.numWire

theorem Circuit.module_ok {c m : Circuit} (hw : WFc c) (mid : ModuleId) (ids : List GateId)
    (h1 : m.inputLen + m.outputLen ≤ m.numWire) :
    ∃ outs, (c.module m mid ids).1 = .ok outs ∧
      ModuleEffect c m (c.module m mid ids).2 mid ids outs := by
  unfold Circuit.module
  rw [if_neg (by omega), if_neg (by omega)]
  simp only
  generalize hc1 : ({ c with
      numWire := c.numWire + (m.numWire - m.inputLen - m.outputLen)
      numGate := c.numGate + m.numGate
      numConst := c.numConst + m.numConst } : Circuit) = c1
  have hidx : c1.gateIndex = c.gateIndex := by subst hc1; rfl
  have hgm : c1.gateMap = c.gateMap := by subst hc1; rfl
  obtain ⟨a1, a2, a3, a4, a5, a6, a7, a8, a9, a10, a11, a12, a13⟩ :=
    Circuit.addModuleGates_spec m.inputLen m.outputLen ids mid m.outputLen c1 0
  obtain ⟨b1, b2⟩ := addModuleDeps_spec
    (c1.addModuleGates m.inputLen m.outputLen ids mid 0 m.outputLen).1 ids
    (c1.addModuleGates m.inputLen m.outputLen ids mid 0 m.outputLen).2
  refine ⟨_, rfl, ?_⟩
  refine ⟨by rw [a1, hidx], ?_, by rw [b1.inputMap, a5]; subst hc1; rfl,
    by rw [b1.constGates, a8]; subst hc1; rfl, by rw [b1.inputLen, a9]; subst hc1; rfl,
    by rw [b1.numWire, a11]; subst hc1; simp only; omega,
    by rw [b1.numGate, a12]; subst hc1; rfl, by rw [b1.numConst, a13]; subst hc1; rfl, h1⟩
  refine ⟨?_, ?_, ?_, by rw [b1.storage, a7]; subst hc1; rfl, by rw [b1.outputMap, a6]; subst hc1; rfl,
    by rw [b1.outputLen, a10]; subst hc1; rfl⟩
  · rw [b1.gateIndex, a2, hidx]; simp [moduleGates]
  · intro g
    rw [b1.gateMap, a3, moduleGates_get, hidx, hgm]
    by_cases hlt : g < c.gateIndex
    · rw [if_neg (by omega), if_pos hlt]
    · rw [if_neg hlt]
      by_cases hk : g - c.gateIndex < m.outputLen
      · rw [if_pos (by omega), if_pos hk]; simp
      · rw [if_neg (by omega), if_neg hk, hw.none_of_ge (by omega)]
  · intro x g
    rw [b2, Circuit.dependedGates_eq_of (c := c) (by rw [a4]; subst hc1; rfl), a1, hidx, moduleGates_get]
    congr 1
    have hcount : (List.range' c.gateIndex m.outputLen).count g =
        if c.gateIndex ≤ g ∧ g < c.gateIndex + m.outputLen then 1 else 0 := by
      exact List.count_range_1'
    rw [hcount]
    by_cases hlt : g < c.gateIndex
    · rw [if_pos hlt, if_neg (by omega), Nat.mul_zero]
    · rw [if_neg hlt]
      by_cases hk : g - c.gateIndex < m.outputLen
      · rw [if_pos hk, if_pos (by omega)]
        simp [Gate.operands]
      · rw [if_neg hk, if_neg (by omega)]
        simp

theorem Circuit.module_err {c m : Circuit} (mid : ModuleId) (ids : List GateId)
    (h1 : ¬ m.inputLen + m.outputLen ≤ m.numWire) :
    c.module m mid ids = (.error (.panic .underflow), c) := by
  unfold Circuit.module
  by_cases h : m.numWire < m.inputLen
  · rw [if_pos h]
  · rw [if_neg h, if_pos (by omega)]

/-! ### every circuit operation preserves `WFc` -/

theorem WFc.new (s : StoreRef) : WFc (Circuit.new s) := by
  constructor <;> simp [Circuit.new, Circuit.dependedGates, Circuit.occ, Map.empty]

/-- appending gates that are neither inputs nor constants nor modules -/
theorem WFc.append_plain {c c' : Circuit} {gate : Gate} (hw : WFc c) (h : Appends c c' [gate])
    (hi : ∀ k, gate ≠ .input k) (hv : ∀ v, gate ≠ .const v)
    (hm : ∀ a b ids o m, gate ≠ .module a b ids o m)
    (e1 : c'.inputMap = c.inputMap) (e2 : c'.inputLen = c.inputLen) (e3 : c'.constGates = c.constGates)
    (e4 : c'.numWire = c.numWire + 1) (e5 : c'.numConst = c.numConst) : WFc c' := by
  have hnew : ∀ g, c.gateIndex ≤ g → ∀ x, [gate][g - c.gateIndex]? = some x → x = gate := by
    intro g _ x hx
    rw [List.getElem?_singleton] at hx
    split at hx <;> simp_all
  refine hw.append h ?_ ?_ ?_ ?_ ?_ ?_ ?_
  · intro k g
    rw [e1, hw.input_iff, h.gate]
    by_cases hlt : g < c.gateIndex
    · rw [if_pos hlt]
    · rw [if_neg hlt, hw.none_of_ge (by omega)]
      constructor
      · intro hh; cases hh
      · intro hh; exact absurd (hnew g (by omega) _ hh).symm (hi k)
  · intro k; rw [e1, e2]; exact hw.input_dom k
  · intro g
    rw [e3, hw.const_iff, h.gate]
    by_cases hlt : g < c.gateIndex
    · rw [if_pos hlt]
    · rw [if_neg hlt, hw.none_of_ge (by omega)]
      constructor
      · rintro ⟨v, hh⟩; cases hh
      · rintro ⟨v, hh⟩; exact absurd (hnew g (by omega) _ hh).symm (hv v)
  · rw [e3]; exact hw.const_sorted
  · intro i a b ids o m hh
    have : i = 0 := by
      rcases i with _ | i
      · rfl
      · simp at hh
    subst this
    simp only [List.getElem?_cons_zero, Option.some.injEq] at hh
    exact absurd hh (hm _ _ _ _ _)
  · rw [h.idx, e4]; have := hw.wires; simp; omega
  · rw [e3, e5]; exact hw.consts

theorem WFc.not {c : Circuit} (hw : WFc c) (x : GateId) : WFc (c.not x).2 :=
  hw.append_plain (Circuit.not_appends hw x) (by simp) (by simp) (by simp)
    (by simp [Circuit.not, Circuit.addGate]) (by simp [Circuit.not, Circuit.addGate])
    (by simp [Circuit.not, Circuit.addGate]) (by simp [Circuit.not, Circuit.addGate])
    (by simp [Circuit.not, Circuit.addGate])

theorem WFc.xor {c : Circuit} (hw : WFc c) (l r : GateId) : WFc (c.xor l r).2 :=
  hw.append_plain (Circuit.xor_appends hw l r) (by simp) (by simp) (by simp)
    (by simp [Circuit.xor, Circuit.addGate]) (by simp [Circuit.xor, Circuit.addGate])
    (by simp [Circuit.xor, Circuit.addGate]) (by simp [Circuit.xor, Circuit.addGate])
    (by simp [Circuit.xor, Circuit.addGate])

theorem WFc.and {c : Circuit} (hw : WFc c) (l r : GateId) : WFc (c.and l r).2 :=
  hw.append_plain (Circuit.and_appends hw l r) (by simp) (by simp) (by simp)
    (by simp [Circuit.and, Circuit.addGate]) (by simp [Circuit.and, Circuit.addGate])
    (by simp [Circuit.and, Circuit.addGate]) (by simp [Circuit.and, Circuit.addGate])
    (by simp [Circuit.and, Circuit.addGate])

theorem WFc.or {c : Circuit} (hw : WFc c) (l r : GateId) : WFc (c.or l r).2 :=
  hw.append_plain (Circuit.or_appends hw l r) (by simp) (by simp) (by simp)
    (by simp [Circuit.or, Circuit.addGate]) (by simp [Circuit.or, Circuit.addGate])
    (by simp [Circuit.or, Circuit.addGate]) (by simp [Circuit.or, Circuit.addGate])
    (by simp [Circuit.or, Circuit.addGate])

theorem WFc.constant {c : Circuit} (hw : WFc c) (v : Bool) : WFc (c.constant v).2 := by
  have h := Circuit.constant_appends hw v
  refine hw.append h ?_ ?_ ?_ ?_ ?_ ?_ ?_
  · intro k g
    have e1 : (c.constant v).2.inputMap = c.inputMap := rfl
    rw [e1, hw.input_iff, h.gate]
    by_cases hlt : g < c.gateIndex
    · rw [if_pos hlt]
    · rw [if_neg hlt, hw.none_of_ge (by omega), List.getElem?_singleton]
      split <;> simp
  · exact hw.input_dom
  · intro g
    have e3 : (c.constant v).2.constGates = c.constGates ++ [c.gateIndex] := rfl
    rw [e3, List.mem_append, hw.const_iff, h.gate, List.mem_singleton]
    by_cases hlt : g < c.gateIndex
    · rw [if_pos hlt]
      constructor
      · rintro (hh | hh)
        · exact hh
        · omega
      · exact Or.inl
    · rw [if_neg hlt, hw.none_of_ge (by omega), List.getElem?_singleton]
      by_cases hg : g = c.gateIndex
      · subst hg; simp
      · rw [if_neg (by omega)]; simp [hg]
  · have e3 : (c.constant v).2.constGates = c.constGates ++ [c.gateIndex] := rfl
    rw [e3, List.pairwise_append]
    refine ⟨hw.const_sorted, by simp, ?_⟩
    intro a ha b hb
    obtain ⟨v', hv'⟩ := (hw.const_iff a).mp ha
    have := hw.lt_of_some hv'
    rw [List.mem_singleton] at hb; omega
  · intro i a b ids o m hh
    rcases i with _ | i <;> simp at hh
  · have := hw.wires
    show c.gateIndex + 1 ≤ c.numWire + 1
    omega
  · have := hw.consts
    show (c.constGates ++ [c.gateIndex]).length ≤ c.numConst + 1
    simp; omega

theorem WFc.input {c : Circuit} (hw : WFc c) : WFc c.input.2 := by
  have h := Circuit.input_appends hw
  have e1 : c.input.2.inputMap = c.inputMap.insert c.inputLen c.gateIndex := rfl
  refine hw.append h ?_ ?_ ?_ ?_ ?_ ?_ ?_
  · intro k g
    rw [e1, Map.insert_apply, h.gate]
    by_cases hlt : g < c.gateIndex
    · rw [if_pos hlt]
      by_cases hk : k = c.inputLen
      · subst hk
        simp only [if_true, Option.some.injEq]
        constructor
        · intro hh; omega
        · intro hh
          have := (hw.input_iff _ _).mpr hh
          have := (hw.input_dom c.inputLen).mp (by simp [this])
          omega
      · simp only [hk, if_false]; exact hw.input_iff k g
    · rw [if_neg hlt, List.getElem?_singleton]
      by_cases hk : k = c.inputLen
      · subst hk
        simp only [if_true, Option.some.injEq]
        constructor
        · intro hh; subst hh; simp
        · intro hh
          split at hh
          · omega
          · cases hh
      · simp only [hk, if_false]
        constructor
        · intro hh
          have := hw.lt_of_some ((hw.input_iff _ _).mp hh); omega
        · intro hh
          split at hh
          · simp only [Option.some.injEq, Gate.input.injEq] at hh; omega
          · cases hh
  · intro k
    have e2 : c.input.2.inputLen = c.inputLen + 1 := rfl
    rw [e1, e2, Map.insert_apply]
    by_cases hk : k = c.inputLen
    · simp [hk]
    · simp only [hk, if_false]; rw [hw.input_dom]; omega
  · intro g
    have e3 : c.input.2.constGates = c.constGates := rfl
    rw [e3, hw.const_iff, h.gate]
    by_cases hlt : g < c.gateIndex
    · rw [if_pos hlt]
    · rw [if_neg hlt, hw.none_of_ge (by omega), List.getElem?_singleton]
      split <;> simp
  · exact hw.const_sorted
  · intro i a b ids o m hh
    rcases i with _ | i <;> simp at hh
  · have := hw.wires
    show c.gateIndex + 1 ≤ c.numWire + 1
    omega
  · exact hw.consts

theorem WFc.output {c : Circuit} (hw : WFc c) (g : GateId) : WFc (c.output g).2 := by
  unfold Circuit.output
  cases e : c.gateMap g with
  | none => exact hw
  | some gate =>
    refine ⟨hw.gate_dom, hw.input_iff, hw.input_dom, ?_, ?_, hw.const_iff, hw.const_sorted, hw.dep, hw.group,
      hw.wires, hw.consts⟩
    · intro k
      simp only [Map.insert_apply]
      by_cases hk : k = c.outputLen
      · simp [hk]
      · simp only [hk, if_false]; rw [hw.output_dom]; omega
    · intro k g' hk
      simp only [Map.insert_apply] at hk
      split at hk
      · cases hk; exact hw.lt_of_some e
      · exact hw.output_gate k g' hk

theorem WFc.ofModuleEffect {c m c' : Circuit} {mid ids outs} (hw : WFc c)
    (h : ModuleEffect c m c' mid ids outs) : WFc c' := by
  refine hw.append h.appends ?_ ?_ ?_ ?_ ?_ ?_ ?_
  · intro k g
    rw [h.inputMap, hw.input_iff, h.appends.gate, moduleGates_get]
    by_cases hlt : g < c.gateIndex
    · rw [if_pos hlt]
    · rw [if_neg hlt, hw.none_of_ge (by omega)]
      split <;> simp
  · intro k; rw [h.inputMap, h.inputLen]; exact hw.input_dom k
  · intro g
    rw [h.constGates, hw.const_iff, h.appends.gate, moduleGates_get]
    by_cases hlt : g < c.gateIndex
    · rw [if_pos hlt]
    · rw [if_neg hlt, hw.none_of_ge (by omega)]
      split <;> simp
  · rw [h.constGates]; exact hw.const_sorted
  · intro i a b ids' o m' hh
    rw [moduleGates_get] at hh
    split at hh
    · next hi =>
      simp only [Option.some.injEq, Gate.module.injEq] at hh
      obtain ⟨rfl, rfl, rfl, rfl, rfl⟩ := hh
      refine ⟨hi, Nat.le_refl _, fun k hk => ?_⟩
      rw [moduleGates_get, if_pos (by omega)]; simp
    · cases hh
  · rw [h.appends.idx, h.numWire]
    have := hw.wires
    have := h.room
    simp [moduleGates]; omega
  · rw [h.constGates, h.numConst]; have := hw.consts; omega

theorem WFc.module {c : Circuit} (hw : WFc c) (m : Circuit) (mid : ModuleId) (ids : List GateId) :
    WFc (c.module m mid ids).2 := by
  by_cases h : m.inputLen + m.outputLen ≤ m.numWire
  · obtain ⟨outs, _, he⟩ := Circuit.module_ok hw mid ids h
    exact hw.ofModuleEffect he
  · rw [Circuit.module_err mid ids h]; exact hw

/-! ### heaps -/

/-- invariant of every heap -/
structure WFw (w : World) : Prop where
  circ : ∀ (r : Ref) c, w.circs[r]? = some c → WFc c
  store : ∀ (r : Ref) c, w.circs[r]? = some c → c.storage < w.stores.length
  mods : ∀ (s : StoreRef) st, w.stores[s]? = some st → ∀ m, (st.moduleMap m).isSome ↔ m < st.numModule
  mods_ref : ∀ (s : StoreRef) st, w.stores[s]? = some st → ∀ m r, st.moduleMap m = some r → r < w.circs.length
  calls : ∀ (r : Ref) c, w.circs[r]? = some c → ∀ g nIn nOut ids oi mid,
    c.gateMap g = some (.module nIn nOut ids oi mid) → ∃ mr, w.module? c mid = some mr ∧ mr ≠ r

theorem WFw.empty : WFw World.empty := by
  constructor <;> simp [World.empty]

theorem World.module?_congr {w w' : World} {c c' : Circuit} (h1 : w'.stores = w.stores)
    (h2 : c'.storage = c.storage) (mid : ModuleId) : w'.module? c' mid = w.module? c mid := by
  unfold World.module?; rw [h1, h2]

theorem getElem?_setC {w : World} {r r' : Ref} {c : Circuit} (hr : r < w.circs.length) :
    (w.setC r c).circs[r']? = if r' = r then some c else w.circs[r']? := by
  unfold World.setC
  simp only [List.getElem?_set]
  by_cases h : r = r'
  · subst h; simp [hr]
  · have : ¬ r' = r := fun e => h e.symm
    simp [h, this]

theorem lt_of_getElem? {α} {l : List α} {i : Nat} {a : α} (h : l[i]? = some a) : i < l.length :=
  (List.getElem?_eq_some_iff.mp h).1

/-- replacing one circuit by a well-formed one with the same storage and resolvable module gates -/
theorem WFw.setC {w : World} (hw : WFw w) {r : Ref} {c c' : Circuit} (hr : w.circs[r]? = some c) (hc : WFc c')
    (hs : c'.storage = c.storage)
    (hcalls : ∀ g nIn nOut ids oi mid, c'.gateMap g = some (.module nIn nOut ids oi mid) →
      ∃ mr, w.module? c mid = some mr ∧ mr ≠ r) : WFw (w.setC r c') := by
  have hlt := lt_of_getElem? hr
  have hlen : (w.setC r c').circs.length = w.circs.length := by simp [World.setC]
  refine ⟨?_, ?_, hw.mods, ?_, ?_⟩
  · intro r' d hd
    rw [getElem?_setC hlt] at hd
    split at hd
    · cases hd; exact hc
    · exact hw.circ r' d hd
  · intro r' d hd
    rw [getElem?_setC hlt] at hd
    split at hd
    · cases hd; rw [hs]; exact hw.store r c hr
    · exact hw.store r' d hd
  · intro s st hst m q hq
    rw [hlen]; exact hw.mods_ref s st hst m q hq
  · intro r' d hd g nIn nOut ids oi mid hg
    rw [getElem?_setC hlt] at hd
    split at hd
    · next e =>
      cases hd; subst e
      obtain ⟨mr, h1, h2⟩ := hcalls g nIn nOut ids oi mid hg
      exact ⟨mr, by rw [← h1]; exact World.module?_congr rfl hs mid, h2⟩
    · obtain ⟨mr, h1, h2⟩ := hw.calls r' d hd g nIn nOut ids oi mid hg
      exact ⟨mr, by rw [← h1]; exact World.module?_congr rfl rfl mid, h2⟩

/-- appending non-module gates keeps module gates resolvable -/
theorem WFw.setC_append {w : World} (hw : WFw w) {r : Ref} {c c' : Circuit} {gs : List Gate}
    (hr : w.circs[r]? = some c) (hc : WFc c') (h : Appends c c' gs)
    (hm : ∀ gate ∈ gs, ∀ a b ids o m, gate = .module a b ids o m → ∃ mr, w.module? c m = some mr ∧ mr ≠ r) :
    WFw (w.setC r c') := by
  refine hw.setC hr hc h.storage ?_
  intro g nIn nOut ids oi mid hg
  rw [h.gate] at hg
  split at hg
  · exact hw.calls r c hr g nIn nOut ids oi mid hg
  · exact hm _ (List.mem_of_getElem? hg) _ _ _ _ _ rfl

/-! ### every API call preserves `WFw` -/

theorem bind_ok {α β} {x : M α} {f : α → M β} {w w' : World} {a : α} (h : x w = (.ok a, w')) :
    (x >>= f) w = f a w' := by rw [M.bind_apply, h]

theorem bind_error {α β} {x : M α} {f : α → M β} {w w' : World} {e : Err} (h : x w = (.error e, w')) :
    (x >>= f) w = (.error e, w') := by rw [M.bind_apply, h]

/-- a call keeps well-formedness -/
def KeepsWF {α} (x : M α) : Prop := ∀ w, WFw w → WFw (x w).2

theorem KeepsWF.pure {α} (a : α) : KeepsWF (pure a : M α) := fun _ h => h

theorem KeepsWF.bind {α β} {x : M α} {f : α → M β} (hx : KeepsWF x) (hf : ∀ a, KeepsWF (f a)) :
    KeepsWF (x >>= f) := by
  intro w hw
  have h1 := hx w hw
  rw [M.bind_apply]
  rcases e : x w with ⟨a | a, w'⟩ <;> rw [e] at h1
  · exact h1
  · exact hf a w' h1

theorem KeepsWF.onCircuit {α} {r : Ref} {f : Circuit → Except Err α × Circuit}
    (h : ∀ w c, WFw w → w.circs[r]? = some c → WFw (w.setC r (f c).2)) : KeepsWF (M.onCircuit r f) := by
  intro w hw
  unfold M.onCircuit
  cases e : w.circs[r]? with
  | none => exact hw
  | some c => exact h w c hw e

theorem keepsWF_input (r : Ref) : KeepsWF (input r) :=
  KeepsWF.onCircuit fun _ _ hw hr =>
    hw.setC_append hr (hw.circ r _ hr).input (Circuit.input_appends (hw.circ r _ hr)) (by simp)

theorem keepsWF_constant (r : Ref) (v : Bool) : KeepsWF (constant r v) :=
  KeepsWF.onCircuit fun _ _ hw hr =>
    hw.setC_append hr ((hw.circ r _ hr).constant v) (Circuit.constant_appends (hw.circ r _ hr) v) (by simp)

theorem keepsWF_not (r : Ref) (x : GateId) : KeepsWF (not r x) :=
  KeepsWF.onCircuit fun _ _ hw hr =>
    hw.setC_append hr ((hw.circ r _ hr).not x) (Circuit.not_appends (hw.circ r _ hr) x) (by simp)

theorem keepsWF_xor (r : Ref) (a b : GateId) : KeepsWF (xor r a b) :=
  KeepsWF.onCircuit fun _ _ hw hr =>
    hw.setC_append hr ((hw.circ r _ hr).xor a b) (Circuit.xor_appends (hw.circ r _ hr) a b) (by simp)

theorem keepsWF_and (r : Ref) (a b : GateId) : KeepsWF (and r a b) :=
  KeepsWF.onCircuit fun _ _ hw hr =>
    hw.setC_append hr ((hw.circ r _ hr).and a b) (Circuit.and_appends (hw.circ r _ hr) a b) (by simp)

theorem keepsWF_or (r : Ref) (a b : GateId) : KeepsWF (or r a b) :=
  KeepsWF.onCircuit fun _ _ hw hr =>
    hw.setC_append hr ((hw.circ r _ hr).or a b) (Circuit.or_appends (hw.circ r _ hr) a b) (by simp)

theorem keepsWF_output (r : Ref) (g : GateId) : KeepsWF (output r g) :=
  KeepsWF.onCircuit fun w c hw hr => by
    refine hw.setC hr ((hw.circ r c hr).output g) ?_ ?_
    · unfold Circuit.output; split <;> rfl
    · intro g' nIn nOut ids oi mid hg
      have : (c.output g).2.gateMap = c.gateMap := by unfold Circuit.output; split <;> rfl
      rw [this] at hg
      exact hw.calls r c hr g' nIn nOut ids oi mid hg

theorem keepsWF_equivalent (r : Ref) (a b : GateId) : KeepsWF (equivalent r a b) :=
  (keepsWF_xor r a b).bind fun x => keepsWF_not r x

theorem keepsWF_identity (r : Ref) (x : GateId) : KeepsWF (identity r x) :=
  (keepsWF_not r x).bind fun x => keepsWF_not r x

theorem keepsWF_newStorage : KeepsWF newStorage := by
  intro w hw
  simp only [newStorage]
  refine ⟨hw.circ, ?_, ?_, ?_, ?_⟩
  · intro r c hr; have := hw.store r c hr; simp; omega
  · intro s st hst m
    simp only [List.getElem?_append] at hst
    split at hst
    · exact hw.mods s st hst m
    · rw [List.getElem?_singleton] at hst
      split at hst
      · cases hst; simp [Storage.new]
      · cases hst
  · intro s st hst m r hm
    simp only [List.getElem?_append] at hst
    split at hst
    · exact hw.mods_ref s st hst m r hm
    · rw [List.getElem?_singleton] at hst
      split at hst
      · cases hst; simp [Storage.new] at hm
      · cases hst
  · intro r c hr g nIn nOut ids oi mid hg
    obtain ⟨mr, h1, h2⟩ := hw.calls r c hr g nIn nOut ids oi mid hg
    refine ⟨mr, ?_, h2⟩
    have := hw.store r c hr
    unfold World.module? at h1 ⊢
    rw [List.getElem?_append_left this]; exact h1

theorem getElem?_append_one {α} (l : List α) (a : α) (i : Nat) :
    (l ++ [a])[i]? = if i < l.length then l[i]? else if i = l.length then some a else none := by
  rw [List.getElem?_append]
  split
  · rfl
  · rw [List.getElem?_singleton]
    by_cases h : i = l.length
    · simp [h]
    · rw [if_neg (by omega), if_neg h]

theorem keepsWF_newCircuit (s : StoreRef) : KeepsWF (newCircuit s) := by
  intro w hw
  unfold newCircuit
  cases hs : w.stores[s]? with
  | none => exact hw
  | some st0 =>
    have hslt := lt_of_getElem? hs
    simp only
    refine ⟨?_, ?_, hw.mods, ?_, ?_⟩
    · intro r c hr
      simp only [getElem?_append_one] at hr
      split at hr
      · exact hw.circ r c hr
      · split at hr
        · cases hr; exact WFc.new s
        · cases hr
    · intro r c hr
      simp only [getElem?_append_one] at hr
      split at hr
      · exact hw.store r c hr
      · split at hr
        · cases hr; exact hslt
        · cases hr
    · intro s' st hst m r hm
      have := hw.mods_ref s' st hst m r hm
      simp; omega
    · intro r c hr g nIn nOut ids oi mid hg
      simp only [getElem?_append_one] at hr
      split at hr
      · obtain ⟨mr, h1, h2⟩ := hw.calls r c hr g nIn nOut ids oi mid hg
        exact ⟨mr, by rw [← h1]; exact World.module?_congr rfl rfl mid, h2⟩
      · split at hr
        · cases hr; simp [Circuit.new] at hg
        · cases hr

theorem keepsWF_storeModule (s : StoreRef) (m : Ref) : KeepsWF (storeModule s m) := by
  intro w hw
  unfold storeModule
  cases hm : w.circs[m]? with
  | none => exact hw
  | some mc =>
    simp only
    cases hs : w.stores[s]? with
    | none => exact hw
    | some st =>
      simp only
      have hslt := lt_of_getElem? hs
      have hmlt := lt_of_getElem? hm
      have get : ∀ s' st', (w.stores.set s (st.register m).2)[s']? = some st' →
          (s' = s ∧ st' = (st.register m).2) ∨ (s' ≠ s ∧ w.stores[s']? = some st') := by
        intro s' st' h
        rw [List.getElem?_set] at h
        split at h
        · next e => subst e; simp at h; exact Or.inl ⟨rfl, h.symm⟩
        · next e => exact Or.inr ⟨fun h => e h.symm, h⟩
      refine ⟨hw.circ, ?_, ?_, ?_, ?_⟩
      · intro r' c' hr'; simpa using hw.store r' c' hr'
      · intro s' st' hst' k
        rcases get s' st' hst' with ⟨rfl, rfl⟩ | ⟨_, h⟩
        · simp only [Storage.register, Map.insert_apply]
          by_cases hk : k = st.numModule
          · simp [hk]
          · simp only [hk, if_false]; rw [hw.mods _ _ hs]; omega
        · exact hw.mods s' st' h k
      · intro s' st' hst' k q hq
        rcases get s' st' hst' with ⟨rfl, rfl⟩ | ⟨_, h⟩
        · simp only [Storage.register, Map.insert_apply] at hq
          split at hq
          · cases hq; exact hmlt
          · exact hw.mods_ref _ _ hs k q hq
        · exact hw.mods_ref s' st' h k q hq
      · intro r' c' hr' g nIn nOut ids oi mid hg
        obtain ⟨mr, h1, h2⟩ := hw.calls r' c' hr' g nIn nOut ids oi mid hg
        refine ⟨mr, ?_, h2⟩
        unfold World.module? at h1 ⊢
        simp only [List.getElem?_set]
        by_cases e : s = c'.storage
        · rw [← e, hs] at h1
          simp only at h1
          simp only [← e, hslt, if_true, Storage.register, Map.insert_apply]
          have hlt := (hw.mods _ _ hs mid).mp (by simp [h1])
          rw [if_neg (by omega)]; exact h1
        · simp only [e, if_false]; exact h1

theorem registerModule_store {w : World} {r : Ref} {c : Circuit} (hr : w.circs[r]? = some c) (m : Ref) :
    registerModule r m w = storeModule c.storage m w := by
  unfold registerModule storeModule; rw [hr]

theorem keepsWF_registerModule (r m : Ref) : KeepsWF (registerModule r m) := by
  intro w hw
  cases hr : w.circs[r]? with
  | none => unfold registerModule; rw [hr]; exact hw
  | some c => rw [registerModule_store hr]; exact keepsWF_storeModule _ _ w hw

theorem keepsWF_clone (r : Ref) : KeepsWF (cloneCircuit r) := by
  intro w hw
  unfold cloneCircuit
  cases hs : w.circs[r]? with
  | none => exact hw
  | some c0 =>
    simp only
    refine ⟨?_, ?_, hw.mods, ?_, ?_⟩
    · intro r c hr
      simp only [getElem?_append_one] at hr
      split at hr
      · exact hw.circ r c hr
      · split at hr
        · cases hr; exact hw.circ _ _ hs
        · cases hr
    · intro r c hr
      simp only [getElem?_append_one] at hr
      split at hr
      · exact hw.store r c hr
      · split at hr
        · cases hr; exact hw.store _ _ hs
        · cases hr
    · intro s' st hst m r hm
      have := hw.mods_ref s' st hst m r hm
      simp; omega
    · intro r c hr g nIn nOut ids oi mid hg
      simp only [getElem?_append_one] at hr
      split at hr
      · obtain ⟨mr, h1, h2⟩ := hw.calls r c hr g nIn nOut ids oi mid hg
        exact ⟨mr, by rw [← h1]; exact World.module?_congr rfl rfl mid, h2⟩
      · split at hr
        · next h =>
          cases hr
          obtain ⟨mr, h1, h2⟩ := hw.calls _ _ hs g nIn nOut ids oi mid hg
          refine ⟨mr, by rw [← h1]; exact World.module?_congr rfl rfl mid, ?_⟩
          have h3 : w.stores[c0.storage]? = some _ := List.getElem?_eq_getElem (hw.store _ _ hs)
          unfold World.module? at h1
          rw [h3] at h1
          have := hw.mods_ref _ _ h3 _ _ h1
          omega
        · cases hr

theorem keepsWF_subCircuit (r : Ref) : KeepsWF (subCircuit r) := by
  intro w hw
  unfold subCircuit
  cases hr : w.circs[r]? with
  | none => exact hw
  | some c =>
    exact ((keepsWF_newCircuit c.storage).bind fun n =>
      (keepsWF_registerModule r n).bind fun mid => KeepsWF.pure (mid, n)) w hw

theorem keepsWF_module (r : Ref) (mid : ModuleId) (ids : List GateId) : KeepsWF (module r mid ids) := by
  intro w hw
  unfold module
  cases hr : w.circs[r]? with
  | none => exact hw
  | some c =>
    simp only
    cases hm : w.module? c mid with
    | none => exact hw
    | some mr =>
      simp only
      by_cases hself : mr = r
      · rw [if_pos hself]; exact hw
      · rw [if_neg hself]
        cases hmc : w.circs[mr]? with
        | none => exact hw
        | some m =>
          simp only
          have hc := hw.circ r c hr
          by_cases hroom : m.inputLen + m.outputLen ≤ m.numWire
          · obtain ⟨outs, _, he⟩ := Circuit.module_ok hc mid ids hroom
            refine hw.setC_append hr (hc.ofModuleEffect he) he.appends ?_
            intro gate hgate a b ids' o m' e
            subst e
            obtain ⟨i, _, hi⟩ := List.mem_map.mp hgate
            cases hi
            exact ⟨mr, hm, hself⟩
          · rw [Circuit.module_err mid ids hroom]
            refine hw.setC hr hc rfl ?_
            exact hw.calls r c hr

open Spec in
theorem keepsWF_op (op : Op) : KeepsWF op.call := by
  cases op <;> unfold Op.call
  · exact keepsWF_newStorage.bind fun _ => KeepsWF.pure _
  · exact (keepsWF_newCircuit _).bind fun _ => KeepsWF.pure _
  · exact (keepsWF_input _).bind fun _ => KeepsWF.pure _
  · exact (keepsWF_output _ _).bind fun _ => KeepsWF.pure _
  · exact (keepsWF_constant _ _).bind fun _ => KeepsWF.pure _
  · exact (keepsWF_not _ _).bind fun _ => KeepsWF.pure _
  · exact (keepsWF_xor _ _ _).bind fun _ => KeepsWF.pure _
  · exact (keepsWF_and _ _ _).bind fun _ => KeepsWF.pure _
  · exact (keepsWF_or _ _ _).bind fun _ => KeepsWF.pure _
  · exact (keepsWF_equivalent _ _ _).bind fun _ => KeepsWF.pure _
  · exact (keepsWF_identity _ _).bind fun _ => KeepsWF.pure _
  · exact (keepsWF_registerModule _ _).bind fun _ => KeepsWF.pure _
  · exact (keepsWF_storeModule _ _).bind fun _ => KeepsWF.pure _
  · exact (keepsWF_subCircuit _).bind fun _ => KeepsWF.pure _
  · exact (keepsWF_clone _).bind fun _ => KeepsWF.pure _
  · exact (keepsWF_module _ _ _).bind fun _ => KeepsWF.pure _

open Spec in
theorem WFw.of_run {w : World} {evs : List Ev} (h : Run w evs) : WFw w := by
  induction h with
  | nil => exact WFw.empty
  | step op _ ih => exact keepsWF_op op _ ih

open Spec in
theorem WFw.of_reachable {w : World} (h : Reachable w) : WFw w := by
  obtain ⟨evs, h⟩ := h; exact WFw.of_run h

end CC
