import Verif.Proofs.ReleaseCount
import Verif.Proofs.Check

/-!
# Boolean checks for histories of release builds
-/

namespace CC
open Spec

/-- the circuit with statistics as small as `WFc` allows -/
def normC (c : Circuit) : Circuit := { c with numWire := c.gateIndex, numConst := c.constGates.length }

def normW (w : World) : World := { w with circs := w.circs.map normC }

theorem normW_get {w : World} {r : Ref} : (normW w).circs[r]? = (w.circs[r]?).map normC := by simp [normW]

theorem normW_core (w : World) : CoreW w (normW w) := by
  refine ⟨rfl, by simp [normW], fun r c d hc hd => ?_⟩
  rw [normW_get, hc] at hd
  cases hd
  exact ⟨rfl, rfl, rfl, rfl, rfl, rfl, rfl, rfl, rfl⟩

theorem normW_wf {w : World} (h : WFw w) : WFw (normW w) := by
  have hget : ∀ {r : Ref} {c}, (normW w).circs[r]? = some c → ∃ d, w.circs[r]? = some d ∧ c = normC d := by
    intro r c hc
    rw [normW_get] at hc
    cases hd : w.circs[r]? with
    | none => rw [hd] at hc; cases hc
    | some d => rw [hd] at hc; cases hc; exact ⟨d, rfl, rfl⟩
  refine ⟨?_, ?_, h.mods, ?_, ?_⟩
  · intro r c hc
    obtain ⟨d, hd, rfl⟩ := hget hc
    have k := h.circ r d hd
    exact ⟨k.gate_dom, k.input_iff, k.input_dom, k.output_dom, k.output_gate, k.const_iff, k.const_sorted, k.dep, k.group,
      Nat.le_refl _, Nat.le_refl _⟩
  · intro r c hc
    obtain ⟨d, hd, rfl⟩ := hget hc
    exact h.store r d hd
  · intro s st hst m r hm
    have := h.mods_ref s st hst m r hm
    simpa [normW] using this
  · intro r c hc g nIn nOut ids oi mid hg
    obtain ⟨d, hd, rfl⟩ := hget hc
    exact h.calls r d hd g nIn nOut ids oi mid hg

/-- `normW` maps similar heaps to heaps that differ only in `num_gate`, so both are well-formed -/
theorem CoreW.norm_wf {w v : World} (h : CoreW w v) (hv : WFw v) : WFw (normW w) := by
  have hv' := normW_wf hv
  have hc : CoreW (normW w) (normW v) := ((normW_core w).symm.trans h).trans (normW_core v)
  refine ⟨fun r c hr => ?_, fun r c hr => ?_, fun s st hst => ?_, fun s st hst m r hm => ?_,
    fun r c hr g nIn nOut ids oi mid hg => ?_⟩
  · obtain ⟨d, hd, k⟩ := hc.get hr
    have e1 : c.numWire = c.gateIndex := by
      rw [normW_get] at hr
      cases hw : w.circs[r]? with
      | none => rw [hw] at hr; cases hr
      | some x => rw [hw] at hr; cases hr; rfl
    have e2 : c.numConst = c.constGates.length := by
      rw [normW_get] at hr
      cases hw : w.circs[r]? with
      | none => rw [hw] at hr; cases hr
      | some x => rw [hw] at hr; cases hr; rfl
    have e := hv'.circ r d hd
    refine ⟨?_, ?_, ?_, ?_, ?_, ?_, ?_, ?_, ?_, by omega, by omega⟩
    · rw [k.gateMap, k.gateIndex]; exact e.gate_dom
    · rw [k.gateMap, k.inputMap]; exact e.input_iff
    · rw [k.inputMap, k.inputLen]; exact e.input_dom
    · rw [k.outputMap, k.outputLen]; exact e.output_dom
    · rw [k.outputMap, k.gateIndex]; exact e.output_gate
    · rw [k.constGates, k.gateMap]; exact e.const_iff
    · rw [k.constGates]; exact e.const_sorted
    · intro x g
      have := e.dep x g
      unfold Circuit.dependedGates Circuit.occ at this ⊢
      rw [k.depMap, k.gateMap]
      exact this
    · rw [k.gateMap]; exact e.group
  · obtain ⟨d, hd, k⟩ := hc.get hr
    rw [k.storage, hc.stores]
    exact hv'.store r d hd
  · exact hv'.mods s st (hc.stores ▸ hst)
  · rw [hc.len]
    exact hv'.mods_ref s st (hc.stores ▸ hst) m r hm
  · obtain ⟨d, hd, k⟩ := hc.get hr
    rw [hc.module? k]
    exact hv'.calls r d hd g nIn nOut ids oi mid (k.gateMap ▸ hg)

/-- check of `Room` -/
def roomB (w : World) : Bool :=
  (w.circs.all fun c => (c.gateMap top).isNone && (c.inputMap top).isNone && (c.outputMap top).isNone) &&
    w.stores.all fun s => (s.moduleMap top).isNone

theorem room_of_check {w : World} (h : roomB w = true) : Room w := by
  simp only [roomB, Bool.and_eq_true, List.all_eq_true, Option.isNone_iff_eq_none] at h
  exact ⟨fun c hc => ⟨(h.1 c hc).1.1, (h.1 c hc).1.2, (h.1 c hc).2⟩, h.2⟩

/-- the heap after a list of calls -/
def runR (ops : List Op) : World := ops.foldl (fun w op => (op.callR w).2) World.empty

theorem runR_run (ops : List Op) : RunR (runR ops) := by
  suffices h : ∀ (ops : List Op) w, RunR w → RunR (ops.foldl (fun w op => (op.callR w).2) w) from h ops _ .nil
  intro ops
  induction ops with
  | nil => exact fun w h => h
  | cons op ops ih => exact fun w h => ih _ (.step op h)

/-- all calls of a list are valid when made -/
def validRunRB : World → List Op → Bool
  | _, [] => true
  | w, op :: ops => validB (normW w) op && validRunRB (op.callR w).2 ops

theorem room_back (ops : List Op) : ∀ {w : World}, Room (ops.foldl (fun w op => (op.callR w).2) w) → Room w := by
  induction ops with
  | nil => exact fun h => h
  | cons op ops ih => exact fun {w} h => (callR_step op).room w (ih h)

theorem validRunR_of_check (ops : List Op) (hr : roomB (runR ops) = true) (hv : validRunRB World.empty ops = true) :
    ValidRunR (runR ops) := by
  suffices h : ∀ (ops : List Op) w, ValidRunR w → Room (ops.foldl (fun w op => (op.callR w).2) w) →
      validRunRB w ops = true → ValidRunR (ops.foldl (fun w op => (op.callR w).2) w) from
    h ops _ .nil (room_of_check hr) hv
  clear hv hr ops
  intro ops
  induction ops with
  | nil => exact fun w h _ _ => h
  | cons op ops ih =>
    intro w h hr hv
    simp only [validRunRB, Bool.and_eq_true] at hv
    obtain ⟨v, h1, h2, _⟩ := h.run.ideal (room_back (op :: ops) hr)
    have := valid_of_check (h1.norm_wf h2) hv.1
    exact ih _ (.step op h ((normW_core w).symm.valid this)) hr hv.2

theorem readableR_of_check {w : World} (h : RunR w) (hr : Room w) (hc : outputsUnreadB (normW w) = true) :
    ∀ (q : Ref) c i o, w.circs[q]? = some c → c.outputMap i = some o → Readable c i o := by
  obtain ⟨v, h1, h2, _⟩ := h.ideal hr
  intro q c i o hq ho
  obtain ⟨d, hd, k⟩ := (normW_core w).get hq
  exact k.symm.readable (readable_of_check (h1.norm_wf h2) hc q d i o hd (k.outputMap ▸ ho))

end CC
