import Verif.Proofs.Built

/-!
# Boolean checks used by the non-vacuity examples
-/

namespace CC
open Spec

/-- check of `Called` -/
def calledB (w : World) (r : Ref) : Bool :=
  w.circs.any fun c => (List.range c.gateIndex).any fun g =>
    match c.gateMap g with
    | some (.module _ _ _ _ mid) => w.module? c mid == some r
    | _ => false

theorem not_called_of_check {w : World} (hw : WFw w) {r : Ref} (h : calledB w r = false) : ¬ Called w r := by
  rintro ⟨q, c, hc, g, nIn, nOut, ids, oi, mid, hg, hm⟩
  have : calledB w r = true := by
    unfold calledB
    rw [List.any_eq_true]
    refine ⟨c, List.mem_of_getElem? hc, ?_⟩
    rw [List.any_eq_true]
    refine ⟨g, List.mem_range.mpr ((hw.circ q c hc).lt_of_some hg), ?_⟩
    simp [hg, hm]
  rw [h] at this; cases this

/-- check of `HasGate` -/
def hasGateB (w : World) (r : Ref) (g : GateId) : Bool :=
  match w.getGate r g with
  | .ok _ => true
  | .error _ => false

theorem hasGate_of_check {w : World} {r : Ref} {g : GateId} (h : hasGateB w r g = true) : HasGate w r g := by
  unfold hasGateB at h
  split at h
  · next gate e => exact ⟨gate, e⟩
  · cases h

/-- check of `Op.Valid` -/
def validB (w : World) : Op → Bool
  | .newStorage => true
  | .newCircuit _ => true
  | .registerModule _ _ => true
  | .storeModule _ _ => true
  | .subCircuit _ => true
  | .clone _ => true
  | .input r => !calledB w r
  | .output r _ => !calledB w r
  | .constant r _ => !calledB w r
  | .not r x => !calledB w r && hasGateB w r x
  | .identity r x => !calledB w r && hasGateB w r x
  | .xor r a b => !calledB w r && hasGateB w r a && hasGateB w r b
  | .and r a b => !calledB w r && hasGateB w r a && hasGateB w r b
  | .or r a b => !calledB w r && hasGateB w r a && hasGateB w r b
  | .equivalent r a b => !calledB w r && hasGateB w r a && hasGateB w r b
  | .module r mid ids => !calledB w r && ids.all (hasGateB w r) &&
      match callee w r mid with
      | some mc => ids.length == mc.inputLen
      | none => true

theorem valid_of_check {w : World} (hw : WFw w) {op : Op} (h : validB w op = true) : op.Valid w := by
  have hn : ∀ r, (!calledB w r) = true → ¬ Called w r := fun r h => not_called_of_check hw (by simpa using h)
  cases op <;> simp only [validB, Bool.and_eq_true] at h <;> unfold Op.Valid <;> try trivial
  · exact hn _ h
  · exact hn _ h
  · exact hn _ h
  · exact ⟨hn _ h.1, hasGate_of_check h.2⟩
  · exact ⟨hn _ h.1.1, hasGate_of_check h.1.2, hasGate_of_check h.2⟩
  · exact ⟨hn _ h.1.1, hasGate_of_check h.1.2, hasGate_of_check h.2⟩
  · exact ⟨hn _ h.1.1, hasGate_of_check h.1.2, hasGate_of_check h.2⟩
  · exact ⟨hn _ h.1.1, hasGate_of_check h.1.2, hasGate_of_check h.2⟩
  · exact ⟨hn _ h.1, hasGate_of_check h.2⟩
  · refine ⟨hn _ h.1.1, fun x hx => hasGate_of_check (List.all_eq_true.mp h.1.2 x hx), ?_⟩
    intro mc hmc
    have := h.2
    rw [hmc] at this
    simpa using this

/-- all calls of a list are valid when made -/
def validRunB : World → List Op → Bool
  | _, [] => true
  | w, op :: ops => validB w op && validRunB (op.call w).2 ops

theorem validRun_of_check (ops : List Op) : ∀ {w : World}, ValidRun w → validRunB w ops = true →
    ValidRun (ops.foldl (fun w op => (op.call w).2) w) := by
  induction ops with
  | nil => intro w h _; exact h
  | cons op ops ih =>
    intro w h hv
    simp only [validRunB, Bool.and_eq_true] at hv
    exact ih (.step op h (valid_of_check h.wf hv.1)) hv.2

/-- no gate reads an output gate -/
def outputsUnreadB (w : World) : Bool :=
  w.circs.all fun c => (List.range c.outputLen).all fun i =>
    match c.outputMap i with
    | none => true
    | some o => (List.range c.gateIndex).all fun g =>
      match c.gateMap g with
      | none => true
      | some gate => !gate.operands.contains o

theorem readable_of_check {w : World} (hw : WFw w) (h : outputsUnreadB w = true) :
    ∀ (q : Ref) c i o, w.circs[q]? = some c → c.outputMap i = some o → Readable c i o := by
  intro q c i o hc ho
  left
  intro g gate hg hmem
  have hwf := hw.circ q c hc
  have h1 := List.all_eq_true.mp h c (List.mem_of_getElem? hc)
  have h2 := List.all_eq_true.mp h1 i (List.mem_range.mpr ((hwf.output_dom i).mp (by simp [ho])))
  rw [ho] at h2
  have h3 := List.all_eq_true.mp h2 g (List.mem_range.mpr (hwf.lt_of_some hg))
  rw [hg] at h3
  simp at h3
  exact h3 hmem

/-- check of `Built`, for call depth below `d` -/
def builtB (w : World) : Nat → Ref → Bool
  | 0, _ => false
  | d + 1, r =>
    match w.circs[r]? with
    | none => false
    | some c => (List.range c.gateIndex).all fun g =>
      match c.gateMap g with
      | none => true
      | some gate => gate.operands.all (fun x => decide (x < lead g gate)) &&
        match gate with
        | .module nIn nOut ids _ mid =>
          match w.module? c mid with
          | none => false
          | some mr =>
            match w.circs[mr]? with
            | none => false
            | some mc => decide (ids.length = nIn) && decide (nIn = mc.inputLen) && decide (nOut = mc.outputLen) && builtB w d mr
        | _ => true

theorem built_of_check {w : World} (hw : WFw w) : ∀ (d : Nat) {r : Ref}, builtB w d r = true → Built w r
  | 0, _, h => by cases h
  | d + 1, r, h => by
    unfold builtB at h
    cases hc : w.circs[r]? with
    | none => rw [hc] at h; cases h
    | some c =>
      rw [hc] at h
      simp only at h
      have hg : ∀ g gate, c.gateMap g = some gate → _ := fun g gate hg => by
        have := List.all_eq_true.mp h g (List.mem_range.mpr ((hw.circ r c hc).lt_of_some hg))
        rw [hg] at this
        simp only [Bool.and_eq_true] at this
        exact this
      have hm : ∀ g nIn nOut ids oi mid, c.gateMap g = some (.module nIn nOut ids oi mid) →
          ∃ mr mc, w.module? c mid = some mr ∧ w.circs[mr]? = some mc ∧ ids.length = nIn ∧ nIn = mc.inputLen ∧
            nOut = mc.outputLen ∧ builtB w d mr = true := by
        intro g nIn nOut ids oi mid h1
        have := (hg _ _ h1).2
        simp only at this
        cases e1 : w.module? c mid with
        | none => rw [e1] at this; cases this
        | some mr =>
          rw [e1] at this; simp only at this
          cases e2 : w.circs[mr]? with
          | none => rw [e2] at this; cases this
          | some mc =>
            rw [e2] at this
            simp only [Bool.and_eq_true, decide_eq_true_eq] at this
            exact ⟨mr, mc, rfl, e2, this.1.1.1, this.1.1.2, this.1.2, this.2⟩
      refine .mk hc ?_ ?_ ?_
      · intro g gate h1 x hx
        simpa using List.all_eq_true.mp (hg g gate h1).1 x hx
      · intro g nIn nOut ids oi mid h1
        obtain ⟨mr, mc, k1, k2, k3, k4, k5, _⟩ := hm _ _ _ _ _ _ h1
        exact ⟨mr, mc, k1, k2, k3, k4, k5⟩
      · rintro mr ⟨g, nIn, nOut, ids, oi, mid, h1, h2⟩
        obtain ⟨mr', mc, k1, _, _, _, _, k6⟩ := hm _ _ _ _ _ _ h1
        rw [h2] at k1; cases k1
        exact built_of_check hw d k6

end CC
