import Verif.Spec.Bounded

/-!
# Checked and unbounded counters agree as long as everything fits
-/

namespace CC
open Spec

namespace Checked

theorem bind_def {α β} (x : CM α) (f : α → CM β) (c : Circuit) :
    (x >>= f) c = match x c with
      | (.ok a, c') => f a c'
      | (.error e, c') => (.error e, c') := rfl

theorem pure_def {α} (a : α) (c : Circuit) : (pure a : CM α) c = (.ok a, c) := rfl

/-- no counter gets smaller -/
structure Le (c c' : Circuit) : Prop where
  inputLen : c.inputLen ≤ c'.inputLen
  outputLen : c.outputLen ≤ c'.outputLen
  numWire : c.numWire ≤ c'.numWire
  numGate : c.numGate ≤ c'.numGate
  numConst : c.numConst ≤ c'.numConst
  gateIndex : c.gateIndex ≤ c'.gateIndex

theorem Le.rfl' {c : Circuit} : Le c c := ⟨le_refl, le_refl, le_refl, le_refl, le_refl, le_refl⟩
  where le_refl {n : Nat} : n ≤ n := Nat.le_refl n

theorem Le.trans {a b c : Circuit} (h : Le a b) (k : Le b c) : Le a c :=
  ⟨Nat.le_trans h.1 k.1, Nat.le_trans h.2 k.2, Nat.le_trans h.3 k.3, Nat.le_trans h.4 k.4, Nat.le_trans h.5 k.5,
    Nat.le_trans h.6 k.6⟩

theorem Le.fits {c c' : Circuit} (h : Le c c') (k : FitsC c') : FitsC c :=
  ⟨Nat.lt_of_le_of_lt h.1 k.1, Nat.lt_of_le_of_lt h.2 k.2, Nat.lt_of_le_of_lt h.3 k.3, Nat.lt_of_le_of_lt h.4 k.4,
    Nat.lt_of_le_of_lt h.5 k.5, Nat.lt_of_le_of_lt h.6 k.6⟩

/-- what relates a checked method to the unbounded one -/
structure Agrees {α} (fC f : Circuit → Except Err α × Circuit) : Prop where
  le : ∀ c, Le c (f c).2
  same : ∀ c, FitsC (f c).2 → fC c = f c
  over : ∀ c, FitsC c → ¬FitsC (f c).2 → (fC c).1 = .error (.panic .overflow)

/-- the step rule: an agreeing step whose result always succeeds, then an agreeing rest -/
theorem Agrees.bind {α β} {xC : CM α} {x : Circuit → α × Circuit} {fC : α → CM β}
    {f : α → Circuit → Except Err β × Circuit}
    (hx : Agrees xC fun c => (.ok (x c).1, (x c).2)) (hf : ∀ a, Agrees (fC a) (f a)) :
    Agrees (xC >>= fC) fun c => f (x c).1 (x c).2 where
  le c := (hx.le c).trans ((hf _).le _)
  same c h := by
    have h1 : FitsC (x c).2 := ((hf (x c).1).le _).fits h
    have h2 := hx.same c h1
    simp only [bind_def, h2]
    exact (hf _).same _ h
  over c h k := by
    by_cases h1 : FitsC (x c).2
    · have h2 := hx.same c h1
      simp only [bind_def, h2]
      exact (hf _).over _ h1 k
    · have h2 := hx.over c h h1
      simp only [bind_def]
      cases hxc : xC c with
      | mk a c' =>
        rw [hxc] at h2
        cases h2
        rfl

theorem Agrees.pure {α} (a : α) : Agrees (Pure.pure a : CM α) fun c => (.ok a, c) :=
  ⟨fun _ => Le.rfl', fun _ _ => rfl, fun _ h k => absurd h k⟩

theorem Agrees.throw {α} (e : Err) : Agrees (Checked.throw e : CM α) fun c => (.error e, c) :=
  ⟨fun _ => Le.rfl', fun _ _ => rfl, fun _ h k => absurd h k⟩

/-- reading the circuit first -/
theorem Agrees.get {β} {fC : Circuit → CM β} {f : Circuit → Circuit → Except Err β × Circuit}
    (hf : ∀ c, Agrees (fC c) (f c)) : Agrees (Checked.get >>= fC) fun c => f c c where
  le c := (hf c).le c
  same c h := (hf c).same c h
  over c h k := (hf c).over c h k

theorem Agrees.modify (g : Circuit → Circuit)
    (h : ∀ c, (g c).inputLen = c.inputLen ∧ (g c).outputLen = c.outputLen ∧ (g c).numWire = c.numWire ∧
      (g c).numGate = c.numGate ∧ (g c).numConst = c.numConst ∧ (g c).gateIndex = c.gateIndex) :
    Agrees (Checked.modify g) fun c => (.ok (), g c) where
  le c := by
    obtain ⟨h1, h2, h3, h4, h5, h6⟩ := h c
    exact ⟨h1 ▸ Nat.le_refl _, h2 ▸ Nat.le_refl _, h3 ▸ Nat.le_refl _, h4 ▸ Nat.le_refl _, h5 ▸ Nat.le_refl _,
      h6 ▸ Nat.le_refl _⟩
  same c _ := rfl
  over c k k' := by
    obtain ⟨h1, h2, h3, h4, h5, h6⟩ := h c
    exact absurd ⟨h1 ▸ k.1, h2 ▸ k.2, h3 ▸ k.3, h4 ▸ k.4, h5 ▸ k.5, h6 ▸ k.6⟩ k'

theorem bumpInputLen_agrees (n : Nat) :
    Agrees (bumpInputLen n) fun c => (.ok (), { c with inputLen := c.inputLen + n }) where
  le c := ⟨Nat.le_add_right _ _, Nat.le_refl _, Nat.le_refl _, Nat.le_refl _, Nat.le_refl _, Nat.le_refl _⟩
  same c h := if_pos h.inputLen
  over c h k := by
    simp only [bumpInputLen, bump]
    rw [if_neg fun h' => k ⟨h', h.2, h.3, h.4, h.5, h.6⟩]

theorem bumpOutputLen_agrees (n : Nat) :
    Agrees (bumpOutputLen n) fun c => (.ok (), { c with outputLen := c.outputLen + n }) where
  le c := ⟨Nat.le_refl _, Nat.le_add_right _ _, Nat.le_refl _, Nat.le_refl _, Nat.le_refl _, Nat.le_refl _⟩
  same c h := if_pos h.outputLen
  over c h k := by
    simp only [bumpOutputLen, bump]
    rw [if_neg fun h' => k ⟨h.1, h', h.3, h.4, h.5, h.6⟩]

theorem bumpNumWire_agrees (n : Nat) :
    Agrees (bumpNumWire n) fun c => (.ok (), { c with numWire := c.numWire + n }) where
  le c := ⟨Nat.le_refl _, Nat.le_refl _, Nat.le_add_right _ _, Nat.le_refl _, Nat.le_refl _, Nat.le_refl _⟩
  same c h := if_pos h.numWire
  over c h k := by
    simp only [bumpNumWire, bump]
    rw [if_neg fun h' => k ⟨h.1, h.2, h', h.4, h.5, h.6⟩]

theorem bumpNumGate_agrees (n : Nat) :
    Agrees (bumpNumGate n) fun c => (.ok (), { c with numGate := c.numGate + n }) where
  le c := ⟨Nat.le_refl _, Nat.le_refl _, Nat.le_refl _, Nat.le_add_right _ _, Nat.le_refl _, Nat.le_refl _⟩
  same c h := if_pos h.numGate
  over c h k := by
    simp only [bumpNumGate, bump]
    rw [if_neg fun h' => k ⟨h.1, h.2, h.3, h', h.5, h.6⟩]

theorem bumpNumConst_agrees (n : Nat) :
    Agrees (bumpNumConst n) fun c => (.ok (), { c with numConst := c.numConst + n }) where
  le c := ⟨Nat.le_refl _, Nat.le_refl _, Nat.le_refl _, Nat.le_refl _, Nat.le_add_right _ _, Nat.le_refl _⟩
  same c h := if_pos h.numConst
  over c h k := by
    simp only [bumpNumConst, bump]
    rw [if_neg fun h' => k ⟨h.1, h.2, h.3, h.4, h', h.6⟩]

theorem bumpGateIndex_agrees (n : Nat) :
    Agrees (bumpGateIndex n) fun c => (.ok (), { c with gateIndex := c.gateIndex + n }) where
  le c := ⟨Nat.le_refl _, Nat.le_refl _, Nat.le_refl _, Nat.le_refl _, Nat.le_refl _, Nat.le_add_right _ _⟩
  same c h := if_pos h.gateIndex
  over c h k := by
    simp only [bumpGateIndex, bump]
    rw [if_neg fun h' => k ⟨h.1, h.2, h.3, h.4, h.5, h'⟩]

/-- the rules for a step that returns nothing -/
theorem Agrees.seq {β} {xC : CM Unit} {x : Circuit → Circuit} {fC : Unit → CM β}
    {f : Circuit → Except Err β × Circuit}
    (hx : Agrees xC fun c => (.ok (), x c)) (hf : ∀ u, Agrees (fC u) f) :
    Agrees (xC >>= fC) fun c => f (x c) :=
  Agrees.bind (x := fun c => ((), x c)) (f := fun _ => f) hx hf

theorem addGate_agrees (gate : Gate) :
    Agrees (addGate gate) fun c => (.ok (c.addGate gate).1, (c.addGate gate).2) := by
  have h := Agrees.get fun c : Circuit =>
    Agrees.seq (Agrees.modify (fun c' => { c' with gateMap := c'.gateMap.insert c.gateIndex gate }) fun _ => ⟨rfl, rfl, rfl, rfl, rfl, rfl⟩) fun _ =>
    Agrees.seq (bumpGateIndex_agrees 1) fun _ =>
    Agrees.seq (bumpNumWire_agrees 1) fun _ =>
    Agrees.pure c.gateIndex
  exact h

theorem counters_addDependence (c : Circuit) (x g : GateId) :
    (c.addDependence x g).inputLen = c.inputLen ∧ (c.addDependence x g).outputLen = c.outputLen ∧
      (c.addDependence x g).numWire = c.numWire ∧ (c.addDependence x g).numGate = c.numGate ∧
      (c.addDependence x g).numConst = c.numConst ∧ (c.addDependence x g).gateIndex = c.gateIndex := by
  unfold Circuit.addDependence
  split <;> exact ⟨rfl, rfl, rfl, rfl, rfl, rfl⟩

theorem addDependence_agrees (x g : GateId) :
    Agrees (addDependence x g) fun c => (.ok (), c.addDependence x g) :=
  Agrees.modify _ fun c => counters_addDependence c x g

theorem counters_foldl {α} (f : Circuit → α → Circuit)
    (hf : ∀ c a, (f c a).inputLen = c.inputLen ∧ (f c a).outputLen = c.outputLen ∧ (f c a).numWire = c.numWire ∧
      (f c a).numGate = c.numGate ∧ (f c a).numConst = c.numConst ∧ (f c a).gateIndex = c.gateIndex)
    (l : List α) : ∀ c, (l.foldl f c).inputLen = c.inputLen ∧ (l.foldl f c).outputLen = c.outputLen ∧
      (l.foldl f c).numWire = c.numWire ∧ (l.foldl f c).numGate = c.numGate ∧
      (l.foldl f c).numConst = c.numConst ∧ (l.foldl f c).gateIndex = c.gateIndex := by
  induction l with
  | nil => exact fun c => ⟨rfl, rfl, rfl, rfl, rfl, rfl⟩
  | cons a l ih =>
    intro c
    obtain ⟨h1, h2, h3, h4, h5, h6⟩ := hf c a
    obtain ⟨k1, k2, k3, k4, k5, k6⟩ := ih (f c a)
    exact ⟨k1.trans h1, k2.trans h2, k3.trans h3, k4.trans h4, k5.trans h5, k6.trans h6⟩

theorem counters_addModuleDeps (c : Circuit) (ids outs : List GateId) :
    (c.addModuleDeps ids outs).inputLen = c.inputLen ∧ (c.addModuleDeps ids outs).outputLen = c.outputLen ∧
      (c.addModuleDeps ids outs).numWire = c.numWire ∧ (c.addModuleDeps ids outs).numGate = c.numGate ∧
      (c.addModuleDeps ids outs).numConst = c.numConst ∧ (c.addModuleDeps ids outs).gateIndex = c.gateIndex :=
  counters_foldl _ (fun c x => counters_foldl _ (fun c o => counters_addDependence c x o) outs c) ids c

theorem input_agrees : Agrees input fun c => (.ok c.input.1, c.input.2) := by
  have h := Agrees.get fun c : Circuit =>
    Agrees.seq (bumpInputLen_agrees 1) fun _ =>
    Agrees.bind (addGate_agrees (.input c.inputLen)) fun g =>
    Agrees.seq
      (Agrees.modify (fun c' => { c' with inputMap := c'.inputMap.insert c.inputLen g }) fun _ => ⟨rfl, rfl, rfl, rfl, rfl, rfl⟩) fun _ =>
    Agrees.pure g
  exact h

theorem output_agrees (g : GateId) : Agrees (output g) fun c => c.output g := by
  have h : Agrees (output g) fun c => match c.gateMap g with
      | none => (.error (.unknownGate g), c)
      | some _ => (.ok c.outputLen,
        { c with outputMap := c.outputMap.insert c.outputLen g, outputLen := c.outputLen + 1 }) := by
    refine Agrees.get (f := fun d c => match d.gateMap g with
      | none => (.error (.unknownGate g), c)
      | some _ => (.ok d.outputLen,
        { c with outputMap := c.outputMap.insert d.outputLen g, outputLen := c.outputLen + 1 })) fun d => ?_
    cases d.gateMap g with
    | none => exact Agrees.throw _
    | some gate =>
      have h := Agrees.seq (Agrees.modify (fun c' => { c' with outputMap := c'.outputMap.insert d.outputLen g })
          fun _ => ⟨rfl, rfl, rfl, rfl, rfl, rfl⟩) fun _ =>
        Agrees.seq (bumpOutputLen_agrees 1) fun _ => Agrees.pure d.outputLen
      exact h
  exact h

theorem constant_agrees (v : Bool) : Agrees (constant v) fun c => (.ok (c.constant v).1, (c.constant v).2) := by
  have h := Agrees.bind (addGate_agrees (.const v)) fun g =>
    Agrees.seq
      (Agrees.modify (fun c => { c with constGates := c.constGates ++ [g] }) fun _ => ⟨rfl, rfl, rfl, rfl, rfl, rfl⟩) fun _ =>
    Agrees.seq (bumpNumConst_agrees 1) fun _ =>
    Agrees.pure g
  exact h

theorem not_agrees (x : GateId) : Agrees (Checked.not x) fun c => (.ok (c.not x).1, (c.not x).2) := by
  have h := Agrees.bind (addGate_agrees (.not x)) fun g =>
    Agrees.seq (addDependence_agrees x g) fun _ =>
    Agrees.seq (bumpNumGate_agrees 1) fun _ =>
    Agrees.pure g
  exact h

theorem binary_agrees (gate : Gate) (l r : GateId) :
    Agrees (binary gate l r) fun c =>
      let (g, c1) := c.addGate gate
      let c2 := c1.addDependence l g
      let c3 := c2.addDependence r g
      (.ok g, { c3 with numGate := c3.numGate + 1 }) := by
  have h := Agrees.bind (addGate_agrees gate) fun g =>
    Agrees.seq (addDependence_agrees l g) fun _ =>
    Agrees.seq (addDependence_agrees r g) fun _ =>
    Agrees.seq (bumpNumGate_agrees 1) fun _ =>
    Agrees.pure g
  exact h

theorem addModuleGates_agrees (inLen outLen : Nat) (ids : List GateId) (mid : ModuleId) (k : Nat) :
    ∀ i, Agrees (addModuleGates inLen outLen ids mid i k) fun c =>
      (.ok (c.addModuleGates inLen outLen ids mid i k).1, (c.addModuleGates inLen outLen ids mid i k).2) := by
  induction k with
  | zero => exact fun i => Agrees.pure _
  | succ k ih =>
    exact fun i => Agrees.bind (addGate_agrees (.module inLen outLen ids i mid)) fun g =>
      Agrees.bind (f := fun gs c => (.ok (g :: gs), c)) (ih (i + 1)) fun gs => Agrees.pure _

theorem module_agrees (m : Circuit) (mid : ModuleId) (ids : List GateId) :
    Agrees (Checked.module m mid ids) fun c => c.module m mid ids := by
  unfold Checked.module Circuit.module
  by_cases h1 : m.numWire < m.inputLen
  · simp only [if_pos h1]
    exact Agrees.throw _
  · simp only [if_neg h1]
    by_cases h2 : m.numWire - m.inputLen < m.outputLen
    · simp only [if_pos h2]
      exact Agrees.throw _
    · simp only [if_neg h2]
      have h := Agrees.seq (bumpNumWire_agrees (m.numWire - m.inputLen - m.outputLen)) fun _ =>
        Agrees.seq (bumpNumGate_agrees m.numGate) fun _ =>
        Agrees.seq (bumpNumConst_agrees m.numConst) fun _ =>
        Agrees.bind (f := fun outs c => (.ok outs, c.addModuleDeps ids outs))
          (addModuleGates_agrees m.inputLen m.outputLen ids mid m.outputLen 0) fun outs =>
        Agrees.seq (Agrees.modify _ fun c => counters_addModuleDeps c ids outs) fun _ =>
        Agrees.pure outs
      exact h

end Checked

/-! ### heaps -/

/-- no counter gets smaller, nothing disappears -/
structure LeW (w w' : World) : Prop where
  circs : ∀ (r : Ref) c, w.circs[r]? = some c → ∃ c', w'.circs[r]? = some c' ∧ Checked.Le c c'
  stores : ∀ (r : StoreRef) s, w.stores[r]? = some s → ∃ s', w'.stores[r]? = some s' ∧ s.numModule ≤ s'.numModule

theorem LeW.rfl' {w : World} : LeW w w :=
  ⟨fun _ c h => ⟨c, h, Checked.Le.rfl'⟩, fun _ s h => ⟨s, h, Nat.le_refl _⟩⟩

theorem LeW.trans {a b c : World} (h : LeW a b) (k : LeW b c) : LeW a c where
  circs r x hx := by
    obtain ⟨y, hy, l⟩ := h.circs r x hx
    obtain ⟨z, hz, l'⟩ := k.circs r y hy
    exact ⟨z, hz, l.trans l'⟩
  stores r x hx := by
    obtain ⟨y, hy, l⟩ := h.stores r x hx
    obtain ⟨z, hz, l'⟩ := k.stores r y hy
    exact ⟨z, hz, Nat.le_trans l l'⟩

theorem LeW.fits {w w' : World} (h : LeW w w') (k : Fits w') : Fits w where
  circs c hc := by
    obtain ⟨r, hr⟩ := List.mem_iff_getElem?.mp hc
    obtain ⟨c', hc', l⟩ := h.circs r c hr
    exact l.fits (k.circs c' (List.mem_iff_getElem?.mpr ⟨r, hc'⟩))
  stores s hs := by
    obtain ⟨r, hr⟩ := List.mem_iff_getElem?.mp hs
    obtain ⟨s', hs', l⟩ := h.stores r s hr
    exact Nat.lt_of_le_of_lt l (k.stores s' (List.mem_iff_getElem?.mpr ⟨r, hs'⟩))

/-- what relates a checked call to the unbounded one -/
structure AgreesW {α} (fC f : M α) : Prop where
  le : ∀ w, LeW w (f w).2
  same : ∀ w, Fits (f w).2 → fC w = f w
  over : ∀ w, Fits w → ¬Fits (f w).2 → (fC w).1 = .error (.panic .overflow)

theorem AgreesW.pure {α} (a : α) : AgreesW (Pure.pure a : M α) (Pure.pure a) :=
  ⟨fun _ => LeW.rfl', fun _ _ => rfl, fun _ h k => absurd h k⟩

theorem AgreesW.refl {α} (f : M α) (hle : ∀ w, LeW w (f w).2) (hf : ∀ w, Fits w → Fits (f w).2) : AgreesW f f :=
  ⟨hle, fun _ _ => rfl, fun w h k => absurd (hf w h) k⟩

theorem AgreesW.bind {α β} {xC x : M α} {fC f : α → M β} (hx : AgreesW xC x) (hf : ∀ a, AgreesW (fC a) (f a)) :
    AgreesW (xC >>= fC) (x >>= f) := by
  have hle : ∀ w, LeW w ((x >>= f) w).2 ∧ LeW (x w).2 ((x >>= f) w).2 := by
    intro w
    have h := hx.le w
    simp only [M.bind_apply]
    cases hxw : x w with
    | mk a w' =>
      rw [hxw] at h
      cases a with
      | ok a => exact ⟨h.trans ((hf a).le w'), (hf a).le w'⟩
      | error e => exact ⟨h, LeW.rfl'⟩
  refine ⟨fun w => (hle w).1, ?_, ?_⟩
  · intro w h
    have h1 := hx.same w ((hle w).2.fits h)
    revert h
    simp only [M.bind_apply, h1]
    cases hxw : x w with
    | mk a w' =>
      cases a with
      | ok a => exact fun h => (hf a).same w' h
      | error e => exact fun _ => rfl
  · intro w h k
    by_cases h1 : Fits (x w).2
    · have h2 := hx.same w h1
      revert k
      simp only [M.bind_apply, h2]
      cases hxw : x w with
      | mk a w' =>
        rw [hxw] at h1
        cases a with
        | ok a => exact fun k => (hf a).over w' h1 k
        | error e => exact fun k => absurd h1 k
    · have h2 := hx.over w h h1
      simp only [M.bind_apply]
      cases hxw : xC w with
      | mk a w' =>
        rw [hxw] at h2
        cases h2
        rfl

theorem LeW.setC {w : World} {r : Ref} {c c' : Circuit} (hc : w.circs[r]? = some c) (h : Checked.Le c c') :
    LeW w (w.setC r c') where
  circs r' d hd := by
    by_cases e : r' = r
    · subst e
      rw [hc] at hd
      cases hd
      exact ⟨c', by simp [World.setC, (List.getElem?_eq_some_iff.mp hc).1], h⟩
    · refine ⟨d, ?_, Checked.Le.rfl'⟩
      simpa [World.setC, List.getElem?_set, Ne.symm e] using hd
  stores r s h := ⟨s, h, Nat.le_refl _⟩

theorem fits_setC {w : World} {r : Ref} {c' : Circuit} (h : Fits w) (k : FitsC c') : Fits (w.setC r c') where
  circs c hc := by
    rcases List.mem_or_eq_of_mem_set hc with h1 | h1
    · exact h.circs c h1
    · exact h1 ▸ k
  stores := h.stores

theorem fits_of_setC {w : World} {r : Ref} {c c' : Circuit} (hc : w.circs[r]? = some c) (h : Fits (w.setC r c')) :
    FitsC c' :=
  h.circs c' (List.mem_iff_getElem?.mpr ⟨r, by simp [World.setC, (List.getElem?_eq_some_iff.mp hc).1]⟩)

theorem onCircuit_agrees {α} (r : Ref) {fC f : Circuit → Except Err α × Circuit} (h : Checked.Agrees fC f) :
    AgreesW (M.onCircuit r fC) (M.onCircuit r f) where
  le w := by
    unfold M.onCircuit
    cases hc : w.circs[r]? with
    | none => exact LeW.rfl'
    | some c => exact LeW.setC hc (h.le c)
  same w := by
    unfold M.onCircuit
    cases hc : w.circs[r]? with
    | none => exact fun _ => rfl
    | some c =>
      intro k
      have := h.same c (fits_of_setC hc k)
      simp only [this]
  over w := by
    unfold M.onCircuit
    cases hc : w.circs[r]? with
    | none => exact fun h k => absurd h k
    | some c =>
      intro k k'
      exact h.over c (k.circs c (List.mem_iff_getElem?.mpr ⟨r, hc⟩)) fun k'' => k' (fits_setC k k'')

theorem newStorage_le (w : World) : LeW w (newStorage w).2 where
  circs r c h := ⟨c, h, Checked.Le.rfl'⟩
  stores r s h := ⟨s, by
    simp only [newStorage]
    rw [List.getElem?_append_left (List.getElem?_eq_some_iff.mp h).1]
    exact h, Nat.le_refl _⟩

theorem newStorage_agrees : AgreesW newStorage newStorage :=
  AgreesW.refl _ newStorage_le fun w h => ⟨h.circs, fun s hs => by
    simp only [newStorage, List.mem_append, List.mem_singleton] at hs
    rcases hs with hs | rfl
    · exact h.stores s hs
    · exact Nat.two_pow_pos 64⟩

theorem newCircuit_agrees (s : StoreRef) : AgreesW (newCircuit s) (newCircuit s) := by
  refine AgreesW.refl _ (fun w => ?_) fun w h => ?_
  · unfold newCircuit
    cases w.stores[s]? with
    | none => exact LeW.rfl'
    | some st =>
      refine ⟨fun r c h => ⟨c, ?_, Checked.Le.rfl'⟩, fun r s h => ⟨s, h, Nat.le_refl _⟩⟩
      simp only
      rw [List.getElem?_append_left (List.getElem?_eq_some_iff.mp h).1]
      exact h
  · unfold newCircuit
    cases w.stores[s]? with
    | none => exact h
    | some st =>
      refine ⟨fun c hc => ?_, h.stores⟩
      simp only [List.mem_append, List.mem_singleton] at hc
      rcases hc with hc | rfl
      · exact h.circs c hc
      · have := Nat.two_pow_pos 64
        exact ⟨this, this, this, this, this, this⟩

theorem registerModule_agrees (r m : Ref) : AgreesW (CheckedApi.registerModule r m) (registerModule r m) := by
  refine ⟨fun w => ?_, fun w => ?_, fun w => ?_⟩ <;> unfold registerModule <;> try unfold CheckedApi.registerModule
  all_goals
    cases hr : w.circs[r]? with
    | none => first | exact LeW.rfl' | exact fun _ => rfl | exact fun h k => absurd h k
    | some c =>
      cases hm : w.circs[m]? with
      | none => first | exact LeW.rfl' | exact fun _ => rfl | exact fun h k => absurd h k
      | some d =>
        simp only
        cases hs : w.stores[c.storage]? with
        | none => first | exact LeW.rfl' | exact fun _ => rfl | exact fun h k => absurd h k
        | some s =>
          have hlt := (List.getElem?_eq_some_iff.mp hs).1
          simp only
          first
          | refine ⟨fun r c h => ⟨c, h, Checked.Le.rfl'⟩, fun r' s' h => ?_⟩
            by_cases e : r' = c.storage
            · subst e
              rw [hs] at h
              cases h
              exact ⟨(s.register m).2, by simp [hlt], Nat.le_succ _⟩
            · exact ⟨s', by simpa [List.getElem?_set, Ne.symm e] using h, Nat.le_refl _⟩
          | intro h
            exact if_pos (h.stores (s.register m).2 (List.mem_iff_getElem?.mpr ⟨c.storage, by simp [hlt]⟩))
          | intro h k
            rw [if_neg]
            intro h'
            refine k ⟨h.circs, fun x hx => ?_⟩
            rcases List.mem_or_eq_of_mem_set hx with h1 | h1
            · exact h.stores x h1
            · exact h1 ▸ h'

theorem storeModule_agrees (q : StoreRef) (m : Ref) : AgreesW (CheckedApi.storeModule q m) (storeModule q m) := by
  refine ⟨fun w => ?_, fun w => ?_, fun w => ?_⟩ <;> unfold storeModule <;> try unfold CheckedApi.storeModule
  all_goals
    cases hm : w.circs[m]? with
    | none => first | exact LeW.rfl' | exact fun _ => rfl | exact fun h k => absurd h k
    | some d =>
      simp only
      cases hs : w.stores[q]? with
      | none => first | exact LeW.rfl' | exact fun _ => rfl | exact fun h k => absurd h k
      | some s =>
        have hlt := (List.getElem?_eq_some_iff.mp hs).1
        simp only
        first
        | refine ⟨fun r c h => ⟨c, h, Checked.Le.rfl'⟩, fun r' s' h => ?_⟩
          by_cases e : r' = q
          · subst e
            rw [hs] at h
            cases h
            exact ⟨(s.register m).2, by simp [hlt], Nat.le_succ _⟩
          · exact ⟨s', by simpa [List.getElem?_set, Ne.symm e] using h, Nat.le_refl _⟩
        | intro h
          exact if_pos (h.stores (s.register m).2 (List.mem_iff_getElem?.mpr ⟨q, by simp [hlt]⟩))
        | intro h k
          rw [if_neg]
          intro h'
          refine k ⟨h.circs, fun x hx => ?_⟩
          rcases List.mem_or_eq_of_mem_set hx with h1 | h1
          · exact h.stores x h1
          · exact h1 ▸ h'

theorem clone_agrees (r : Ref) : AgreesW (cloneCircuit r) (cloneCircuit r) := by
  refine AgreesW.refl _ (fun w => ?_) fun w h => ?_
  · unfold cloneCircuit
    cases w.circs[r]? with
    | none => exact LeW.rfl'
    | some st =>
      refine ⟨fun r c h => ⟨c, ?_, Checked.Le.rfl'⟩, fun r s h => ⟨s, h, Nat.le_refl _⟩⟩
      simp only
      rw [List.getElem?_append_left (List.getElem?_eq_some_iff.mp h).1]
      exact h
  · unfold cloneCircuit
    cases hr : w.circs[r]? with
    | none => exact h
    | some d =>
      refine ⟨fun c hc => ?_, h.stores⟩
      simp only [List.mem_append, List.mem_singleton] at hc
      rcases hc with hc | rfl
      · exact h.circs c hc
      · exact h.circs c (List.mem_iff_getElem?.mpr ⟨r, hr⟩)

theorem subCircuit_agrees (r : Ref) : AgreesW (CheckedApi.subCircuit r) (subCircuit r) := by
  have key (s : StoreRef) : AgreesW
      (do let n ← newCircuit s; let mid ← CheckedApi.registerModule r n; pure (mid, n))
      (do let n ← newCircuit s; let mid ← registerModule r n; pure (mid, n)) :=
    (newCircuit_agrees s).bind fun n => (registerModule_agrees r n).bind fun mid => AgreesW.pure _
  refine ⟨fun w => ?_, fun w => ?_, fun w => ?_⟩ <;> unfold subCircuit <;> try unfold CheckedApi.subCircuit
  all_goals
    cases hr : w.circs[r]? with
    | none => first | exact LeW.rfl' | exact fun _ => rfl | exact fun h k => absurd h k
    | some c => first | exact (key c.storage).le w | exact (key c.storage).same w | exact (key c.storage).over w

theorem module_agreesW (r : Ref) (mid : ModuleId) (ids : List GateId) :
    AgreesW (CheckedApi.module r mid ids) (CC.module r mid ids) := by
  refine ⟨fun w => ?_, fun w => ?_, fun w => ?_⟩ <;> unfold CC.module <;> try unfold CheckedApi.module
  all_goals
    cases hr : w.circs[r]? with
    | none => first | exact LeW.rfl' | exact fun _ => rfl | exact fun _ => trivial | exact fun h k => absurd h k
    | some c =>
      simp only
      cases hm : w.module? c mid with
      | none => first | exact LeW.rfl' | exact fun _ => rfl | exact fun _ => trivial | exact fun h k => absurd h k
      | some mr =>
        by_cases e : mr = r
        · simp only [if_pos e]
          first | exact LeW.rfl' | exact fun _ => rfl | exact fun _ => trivial | exact fun h k => absurd h k
        · simp only [if_neg e]
          cases hmr : w.circs[mr]? with
          | none => first | exact LeW.rfl' | exact fun _ => rfl | exact fun _ => trivial | exact fun h k => absurd h k
          | some m =>
            have a := Checked.module_agrees m mid ids
            first
            | exact LeW.setC hr (a.le c)
            | intro k
              have := a.same c (fits_of_setC hr k)
              simp only [this]
            | intro k k'
              exact a.over c (k.circs c (List.mem_iff_getElem?.mpr ⟨r, hr⟩)) fun k'' => k' (fits_setC k k'')

/-- every call of the circuit API -/
theorem callC_agrees (op : Op) : AgreesW op.callC op.call := by
  have hxor r a b : AgreesW (CheckedApi.xor r a b) (CC.xor r a b) := onCircuit_agrees r (Checked.binary_agrees _ a b)
  have hnot r x : AgreesW (CheckedApi.not r x) (CC.not r x) := onCircuit_agrees r (Checked.not_agrees x)
  cases op with
  | newStorage => exact newStorage_agrees.bind fun _ => AgreesW.pure _
  | newCircuit s => exact (newCircuit_agrees s).bind fun _ => AgreesW.pure _
  | input r => exact (onCircuit_agrees r Checked.input_agrees).bind fun _ => AgreesW.pure _
  | output r g => exact (onCircuit_agrees r (Checked.output_agrees g)).bind fun _ => AgreesW.pure _
  | constant r v => exact (onCircuit_agrees r (Checked.constant_agrees v)).bind fun _ => AgreesW.pure _
  | not r x => exact (hnot r x).bind fun _ => AgreesW.pure _
  | xor r a b => exact (hxor r a b).bind fun _ => AgreesW.pure _
  | and r a b => exact (onCircuit_agrees r (Checked.binary_agrees _ a b)).bind fun _ => AgreesW.pure _
  | or r a b => exact (onCircuit_agrees r (Checked.binary_agrees _ a b)).bind fun _ => AgreesW.pure _
  | equivalent r a b => exact ((hxor r a b).bind fun x => hnot r x).bind fun _ => AgreesW.pure _
  | identity r x => exact ((hnot r x).bind fun y => hnot r y).bind fun _ => AgreesW.pure _
  | registerModule r m => exact (registerModule_agrees r m).bind fun _ => AgreesW.pure _
  | storeModule s m => exact (storeModule_agrees s m).bind fun _ => AgreesW.pure _
  | clone r => exact (clone_agrees r).bind fun _ => AgreesW.pure _
  | subCircuit r => exact (subCircuit_agrees r).bind fun _ => AgreesW.pure _
  | module r mid ids => exact (module_agreesW r mid ids).bind fun _ => AgreesW.pure _

theorem play_le (ops : List Op) : ∀ x : World × List Ev, LeW x.1 (play ops x).1 := by
  induction ops with
  | nil => exact fun x => LeW.rfl'
  | cons op ops ih => exact fun x => ((callC_agrees op).le x.1).trans (ih (_, _))

theorem playC_eq (ops : List Op) : ∀ x : World × List Ev, Fits (play ops x).1 → playC ops x = play ops x := by
  induction ops with
  | nil => exact fun x _ => rfl
  | cons op ops ih =>
    intro x h
    have h1 := (callC_agrees op).same x.1 ((play_le ops _).fits h)
    show playC ops ((op.callC x.1).2, x.2 ++ [⟨op, x.1, (op.callC x.1).1⟩]) = _
    rw [h1]
    exact ih _ h

end CC
