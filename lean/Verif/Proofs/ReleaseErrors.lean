import Verif.Proofs.EvalErrors
import Verif.Proofs.ReleaseRun

/-!
# The errors of evaluation in release heaps
-/

namespace CC
open Spec

theorem CoreW.callsFit {w v : World} (h : CoreW w v) {c d : Circuit} (k : Core c d) (hc : CallsFit w c) : CallsFit v d := by
  intro g nIn nOut ids oi mid hg
  rw [← k.gateMap] at hg
  obtain ⟨mr, mc, h1, h2, h3⟩ := hc g nIn nOut ids oi mid hg
  obtain ⟨md, h4, h5⟩ := h.get h2
  exact ⟨mr, md, by rw [← h.module? k]; exact h1, h4, h5.outputLen ▸ h3⟩

theorem CoreW.allFit {w v : World} (h : CoreW w v) (hc : AllC (CallsFit w) w) : AllC (CallsFit v) v := by
  intro d hd
  obtain ⟨r, hr⟩ := List.mem_iff_getElem?.mp hd
  obtain ⟨c, h1, h2⟩ := h.symm.get hr
  exact h.callsFit h2.symm (hc.get h1)

theorem Spec.RunR.idealFit {w : World} (h : RunR w) (hr : Room w) :
    ∃ v, CoreW w v ∧ WFw v ∧ Padded v ∧ AllC (CallsFit v) v := by
  induction h with
  | nil => exact ⟨World.empty, CoreW.rfl', WFw.empty, fun _ h => absurd h List.not_mem_nil, fun _ h => absurd h List.not_mem_nil⟩
  | @step w op h ih =>
    obtain ⟨v, h1, h2, h3, h3'⟩ := ih ((callR_step op).room w hr)
    obtain ⟨_, h4⟩ := (callR_step op).core w v h.ids hr h1 h3
    exact ⟨padW (op.call v).2, h4.trans (padW_core _), padW_wf (keepsWF_op op v h2), padW_padded _,
      (padW_core _).allFit (callsFit_step h2 h3' op)⟩

theorem CoreW.calls {w v : World} (h : CoreW w v) {c d : Circuit} (k : Core c d) {mr : Ref} (hc : Calls w c mr) : Calls v d mr := by
  obtain ⟨g, nIn, nOut, ids, oi, mid, hg, hm⟩ := hc
  exact ⟨g, nIn, nOut, ids, oi, mid, by rw [← k.gateMap]; exact hg, by rw [← h.module? k]; exact hm⟩

theorem CoreW.failure {w v : World} (h : CoreW w v) {r : Ref} {e : Err} (hf : Failure w r e) : Failure v r e := by
  induction hf with
  | depth => exact .depth
  | operand hc hg hx hn =>
    obtain ⟨d, hd, k⟩ := h.get hc
    rw [k.gateMap] at hg hn
    exact .operand hd hg hx hn
  | input hc hg =>
    obtain ⟨d, hd, k⟩ := h.get hc
    rw [k.gateMap] at hg
    exact .input hd hg
  | left hc hg hx =>
    obtain ⟨d, hd, k⟩ := h.get hc
    rw [k.gateMap] at hg
    exact .left hd hg hx
  | twice hc hg hx =>
    obtain ⟨d, hd, k⟩ := h.get hc
    rw [k.gateMap] at hg
    exact .twice hd hg hx
  | arguments hc hg hx =>
    obtain ⟨d, hd, k⟩ := h.get hc
    rw [k.gateMap] at hg
    exact .arguments hd hg hx
  | arity hc hg hm hmc hn =>
    obtain ⟨d, hd, k⟩ := h.get hc
    obtain ⟨md, hmd, km⟩ := h.get hmc
    rw [k.gateMap] at hg
    rw [h.module? k] at hm
    rw [km.inputLen] at hn
    exact .arity hd hg hm hmd hn
  | inner hc hcalls _ ih =>
    obtain ⟨d, hd, k⟩ := h.get hc
    exact .inner hd (h.calls k hcalls) ih

end CC
