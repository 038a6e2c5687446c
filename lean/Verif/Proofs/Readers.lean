import Verif.Proofs.Same
import Verif.Proofs.WF
import Verif.Spec.Readers

/-!
# The lists of dependents are determined by the gates
-/

namespace CC
open Spec

structure Tracks (c : Circuit) : Prop where
  none : ∀ g, c.gateIndex ≤ g → c.gateMap g = none
  list : ∀ x, c.dependedGates x = readers c x
  full : ∀ x, c.depMap x ≠ some []

theorem readersAt_congr {c d : Circuit} {g : GateId} (h : d.gateMap g = c.gateMap g) (x : GateId) :
    readersAt d x g = readersAt c x g := by
  unfold readersAt; rw [h]

theorem readers_append {c d : Circuit} (hi : c.gateIndex ≤ d.gateIndex) (h : ∀ g, g < c.gateIndex → d.gateMap g = c.gateMap g)
    (x : GateId) : readers d x =
      readers c x ++ (List.range' c.gateIndex (d.gateIndex - c.gateIndex)).flatMap (readersAt d x) := by
  unfold readers
  have e : List.range d.gateIndex = List.range c.gateIndex ++ List.range' c.gateIndex (d.gateIndex - c.gateIndex) := by
    have h := @List.range'_append_1 0 c.gateIndex (d.gateIndex - c.gateIndex)
    rw [Nat.zero_add, Nat.add_sub_cancel' hi] at h
    rw [List.range_eq_range', List.range_eq_range', h]
  rw [e, List.flatMap_append]
  congr 1
  simp only [List.flatMap]
  congr 1
  apply List.map_congr_left
  intro g hg
  exact readersAt_congr (h g (List.mem_range.mp hg)) x

/-- nothing was added -/
theorem Tracks.same {c d : Circuit} (h : Tracks c) (h1 : d.gateIndex = c.gateIndex) (h2 : d.gateMap = c.gateMap)
    (h3 : d.depMap = c.depMap) : Tracks d := by
  refine ⟨by rw [h1, h2]; exact h.none, fun x => ?_, by rw [h3]; exact h.full⟩
  rw [Circuit.dependedGates_eq_of h3, h.list, readers_append (c := c) (d := d) (by omega) (by rw [h2]; simp)]
  simp [h1]

/-- one gate was added -/
theorem Tracks.one {c d : Circuit} (h : Tracks c) {gate : Gate} (h1 : d.gateIndex = c.gateIndex + 1)
    (h2 : d.gateMap = c.gateMap.insert c.gateIndex gate) (hm : ∀ a b ids oi mid, gate ≠ .module a b ids oi mid)
    (h3 : ∀ x, d.dependedGates x = c.dependedGates x ++ List.replicate (gate.operands.count x) c.gateIndex)
    (h4 : ∀ x, d.depMap x ≠ some []) : Tracks d := by
  refine ⟨fun g hg => ?_, fun x => ?_, h4⟩
  · rw [h2, Map.insert_ne _ _ (by omega)]; exact h.none g (by omega)
  · rw [h3, h.list, readers_append (c := c) (d := d) (by omega) (by
      intro g hg; rw [h2, Map.insert_ne _ _ (by omega)])]
    congr 1
    rw [h1, Nat.add_sub_cancel_left]
    simp only [List.range'_one, List.flatMap_cons, List.flatMap_nil, List.append_nil]
    unfold readersAt
    rw [h2, Map.insert_self]
    cases gate with
    | module a b ids oi mid => exact absurd rfl (hm a b ids oi mid)
    | _ => rfl

theorem addDependence_full {c : Circuit} (h : ∀ x, c.depMap x ≠ some []) (i s : GateId) (x : GateId) :
    (c.addDependence i s).depMap x ≠ some [] := by
  unfold Circuit.addDependence
  cases e : c.depMap i <;> simp only [Map.insert_apply] <;> split <;> first | exact h x | simp

theorem Tracks.binary {c : Circuit} (h : Tracks c) {gate : Gate} {l r : GateId} (ho : gate.operands = [l, r])
    (hm : ∀ a b ids oi mid, gate ≠ .module a b ids oi mid) : Tracks (c.binaryGate gate l r) := by
  refine h.one (gate := gate) ?_ ?_ hm (fun x => ?_) ?_
  · simp [Circuit.binaryGate, Circuit.addGate]
  · simp [Circuit.binaryGate, Circuit.addGate]
  · have e : (c.binaryGate gate l r).dependedGates x =
        (((c.addGate gate).2.addDependence l c.gateIndex).addDependence r c.gateIndex).dependedGates x := rfl
    have e' : (c.addGate gate).2.dependedGates x = c.dependedGates x := rfl
    rw [e, Circuit.dependedGates_addDependence, Circuit.dependedGates_addDependence, e', ho]
    by_cases h1 : x = l <;> by_cases h2 : x = r
    · subst h1; subst h2; simp [List.replicate]
    · subst h1; simp [h2, Ne.symm h2]
    · subst h2; simp [h1, Ne.symm h1]
    · simp [h1, h2, Ne.symm h1, Ne.symm h2]
  · exact addDependence_full (addDependence_full (c := (c.addGate gate).2) h.full _ _) _ _

theorem Tracks.not {c : Circuit} (h : Tracks c) (y : GateId) : Tracks (c.not y).2 := by
  refine h.one (gate := .not y) ?_ ?_ (by simp) (fun x => ?_) ?_
  · simp [Circuit.not, Circuit.addGate]
  · simp [Circuit.not, Circuit.addGate]
  · have e : (c.not y).2.dependedGates x = ((c.addGate (.not y)).2.addDependence y c.gateIndex).dependedGates x := rfl
    have e' : (c.addGate (.not y)).2.dependedGates x = c.dependedGates x := rfl
    rw [e, Circuit.dependedGates_addDependence, e']
    by_cases h1 : x = y
    · subst h1; simp [Gate.operands]
    · simp [h1, Ne.symm h1, Gate.operands]
  · exact addDependence_full (c := (c.addGate (.not y)).2) h.full _ _

theorem addModuleDeps_list (outs ids : List GateId) : ∀ c : Circuit, ∀ y,
    (c.addModuleDeps ids outs).dependedGates y = c.dependedGates y ++ (List.replicate (ids.count y) outs).flatten := by
  induction ids with
  | nil => intro c y; simp [Circuit.addModuleDeps]
  | cons x xs ih =>
    intro c y
    have : c.addModuleDeps (x :: xs) outs =
        (outs.foldl (fun c o => c.addDependence x o) c).addModuleDeps xs outs := rfl
    rw [this, ih, (foldDeps_inner x outs c).2, List.count_cons]
    by_cases hy : y = x
    · subst hy
      simp [List.replicate_succ]
    · have : (x == y) = false := by simp; exact fun h => hy h.symm
      simp [hy, this]

theorem addModuleDeps_full (outs ids : List GateId) : ∀ c : Circuit, (∀ x, c.depMap x ≠ some []) →
    ∀ x, (c.addModuleDeps ids outs).depMap x ≠ some [] := by
  induction ids with
  | nil => exact fun c h => h
  | cons y ys ih =>
    intro c h
    have : c.addModuleDeps (y :: ys) outs =
        (outs.foldl (fun c o => c.addDependence y o) c).addModuleDeps ys outs := rfl
    rw [this]
    refine ih _ ?_
    clear this ih
    induction outs generalizing c with
    | nil => exact h
    | cons o os ih => exact ih _ (addDependence_full h y o)

theorem Tracks.module {c m : Circuit} (h : Tracks c) (mid : ModuleId) (ids : List GateId) : Tracks (c.module m mid ids).2 := by
  unfold Circuit.module
  split
  · exact h
  split
  · exact h
  obtain ⟨k1, k2, k3, k4, kr⟩ := Circuit.addModuleGates_spec m.inputLen m.outputLen ids mid m.outputLen
    { c with
      numWire := c.numWire + (m.numWire - m.inputLen - m.outputLen)
      numGate := c.numGate + m.numGate
      numConst := c.numConst + m.numConst } 0
  clear kr
  simp only at k1 k2 k3 k4
  simp only
  rw [k1]
  generalize hd : (Circuit.addModuleGates _ _ _ _ _ _ _).2 = d at k2 k3 k4 ⊢
  have sb := (addModuleDeps_spec (List.range' c.gateIndex m.outputLen) ids d).1
  refine ⟨fun g hg => ?_, fun x => ?_, addModuleDeps_full _ _ _ (by rw [k4]; exact h.full)⟩
  · rw [sb.gateIndex, k2] at hg
    rw [sb.gateMap, k3, if_neg (by omega)]
    exact h.none g (by omega)
  · rw [addModuleDeps_list, Circuit.dependedGates_eq_of k4, h.list,
      readers_append (c := c) (d := d.addModuleDeps ids (List.range' c.gateIndex m.outputLen)) (by rw [sb.gateIndex, k2]; omega) (by
        intro g hg; rw [sb.gateMap, k3, if_neg (by omega)])]
    congr 1
    rw [sb.gateIndex, k2, Nat.add_sub_cancel_left]
    have hat : ∀ g, readersAt (d.addModuleDeps ids (List.range' c.gateIndex m.outputLen)) x g =
        if c.gateIndex ≤ g ∧ g < c.gateIndex + m.outputLen then
          (if g = c.gateIndex then (List.replicate (ids.count x) (List.range' c.gateIndex m.outputLen)).flatten else [])
        else readersAt c x g := by
      intro g
      unfold readersAt
      rw [sb.gateMap, k3]
      by_cases h1 : c.gateIndex ≤ g ∧ g < c.gateIndex + m.outputLen
      · rw [if_pos h1, if_pos h1]
        by_cases h2 : g = c.gateIndex
        · subst h2; simp
        · rw [if_neg h2]
          obtain ⟨j, hj⟩ : ∃ j, 0 + (g - c.gateIndex) = j + 1 := ⟨g - c.gateIndex - 1, by omega⟩
          rw [hj]
      · rw [if_neg h1, if_neg h1]
    generalize readersAt (d.addModuleDeps ids (List.range' c.gateIndex m.outputLen)) x = f at hat ⊢
    have hl : m.outputLen = 0 → (List.replicate (ids.count x) (List.range' c.gateIndex m.outputLen)).flatten = [] := by
      intro e; rw [e]; simp
    generalize (List.replicate (ids.count x) (List.range' c.gateIndex m.outputLen)).flatten = l at hat hl ⊢
    clear hd k1 k2 k3 sb
    cases ho : m.outputLen with
    | zero => rw [hl ho]; simp
    | succ n =>
      have : (List.range' (c.gateIndex + 1) n).flatMap f = [] := by
        rw [List.flatMap_eq_nil_iff]
        intro g hg
        rw [List.mem_range'_1] at hg
        rw [hat, if_pos (by omega), if_neg (by omega)]
      rw [List.range'_succ, List.flatMap_cons, hat, if_pos (by omega), if_pos rfl, this, List.append_nil]

theorem tracks_inv : MethodInvOn (fun _ _ _ => True) Tracks where
  new s := ⟨fun _ _ => rfl, fun _ => rfl, fun _ => by simp [Circuit.new, Map.empty]⟩
  input c h := h.one (gate := .input c.inputLen) rfl rfl (by simp) (fun x => by simp [Gate.operands]; rfl) h.full
  output c g h := by
    unfold Circuit.output
    cases c.gateMap g
    · exact h
    · exact h.same rfl rfl rfl
  constant c v h := h.one (gate := .const v) rfl rfl (by simp) (fun x => by simp [Gate.operands]; rfl) h.full
  not c x h := h.not x
  xor c l r h := h.binary rfl (by simp)
  and c l r h := h.binary rfl (by simp)
  or c l r h := h.binary rfl (by simp)
  module c m mid ids h _ _ := h.module mid ids

theorem tracks {w : World} (h : Reachable w) {r : Ref} {c : Circuit} (hc : w.circs[r]? = some c) : Tracks c := by
  obtain ⟨evs, hr⟩ := h
  suffices AllC Tracks w from this.get hc
  clear hc
  induction hr with
  | nil => exact fun _ h => absurd h List.not_mem_nil
  | step op _ ih => exact tracks_inv.call op (fun _ _ _ _ _ _ _ _ => trivial) ih

/-- the lists of dependents are the same if the gates are -/
theorem Tracks.depMap {c d : Circuit} (h : Tracks c) (k : Tracks d) (e : c.gateMap = d.gateMap) (ei : c.gateIndex = d.gateIndex) :
    c.depMap = d.depMap := by
  funext x
  have e1 : c.dependedGates x = d.dependedGates x := by
    rw [h.list, k.list]
    unfold readers readersAt
    rw [e, ei]
  unfold Circuit.dependedGates at e1
  have h1 := h.full x
  have h2 := k.full x
  revert e1 h1 h2
  cases c.depMap x <;> cases d.depMap x <;> simp
  intro e _ _; exact e

/-! ### equality of circuits of reachable heaps -/

theorem pairwise_lt_ext {xs ys : List Nat} (hx : xs.Pairwise (· < ·)) (hy : ys.Pairwise (· < ·)) (h : ∀ a, a ∈ xs ↔ a ∈ ys) :
    xs = ys := by
  induction xs generalizing ys with
  | nil =>
    cases ys with
    | nil => rfl
    | cons y ys => exact absurd ((h y).mpr (List.mem_cons_self ..)) (by simp)
  | cons x xs ih =>
    cases ys with
    | nil => exact absurd ((h x).mp (List.mem_cons_self ..)) (by simp)
    | cons y ys =>
      obtain ⟨hx1, hx2⟩ := List.pairwise_cons.mp hx
      obtain ⟨hy1, hy2⟩ := List.pairwise_cons.mp hy
      have e : x = y := by
        have h1 := (h x).mp (List.mem_cons_self ..)
        have h2 := (h y).mpr (List.mem_cons_self ..)
        rcases List.mem_cons.mp h1 with h1 | h1
        · exact h1
        · rcases List.mem_cons.mp h2 with h2 | h2
          · exact h2.symm
          · have := hy1 x h1; have := hx1 y h2; omega
      subst e
      congr 1
      refine ih hx2 hy2 fun a => ?_
      constructor
      · intro ha
        rcases List.mem_cons.mp ((h a).mp (List.mem_cons_of_mem _ ha)) with e | e
        · subst e; exact absurd (hx1 a ha) (by omega)
        · exact e
      · intro ha
        rcases List.mem_cons.mp ((h a).mpr (List.mem_cons_of_mem _ ha)) with e | e
        · subst e; exact absurd (hy1 a ha) (by omega)
        · exact e

theorem same_of_gates {c d : Circuit} (hc : WFc c) (hd : WFc d) (tc : Tracks c) (td : Tracks d) (h1 : c.gateMap = d.gateMap)
    (h2 : c.outputMap = d.outputMap) (h3 : c.numWire = d.numWire) (h4 : c.numGate = d.numGate) : c.Same d := by
  have lt_ext : ∀ {a b : Nat}, (∀ k, k < a ↔ k < b) → a = b := fun {a b} h => by
    have := h a; have := h b; omega
  have hi : c.gateIndex = d.gateIndex := lt_ext fun k => by rw [← hc.gate_dom, ← hd.gate_dom, h1]
  have hin : c.inputMap = d.inputMap := by
    funext k
    cases e : c.inputMap k with
    | none =>
      cases e' : d.inputMap k with
      | none => rfl
      | some g => rw [hd.input_iff, ← h1, ← hc.input_iff, e] at e'; cases e'
    | some g => rw [hc.input_iff, h1, ← hd.input_iff] at e; exact e.symm
  refine ⟨hin, h2, h1, tc.depMap td h1 hi, ?_, ?_, ?_, h3, h4, hi⟩
  · exact pairwise_lt_ext hc.const_sorted hd.const_sorted fun a => by rw [hc.const_iff, hd.const_iff, h1]
  · exact lt_ext fun k => by rw [← hc.input_dom, ← hd.input_dom, hin]
  · exact lt_ext fun k => by rw [← hc.output_dom, ← hd.output_dom, h2]

end CC
