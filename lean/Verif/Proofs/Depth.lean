import Verif.Proofs.Built
import Verif.Proofs.BrWriteFuel
import Verif.Spec.Depth
import Mathlib.Algebra.BigOperators.Group.List.Basic

/-!
# An explicit bound for the recursion depth of the evaluator and of the writer
-/

namespace CC
open Spec

/-! ### what a bound means for the two functions -/

theorem Spec.Within.mono {w : World} {r : Ref} {g : GateId} {n : Nat} (h : Within w r g n) : ∀ m, n ≤ m → Within w r g m := by
  induction h with
  | mk hc _ _ ih1 ih2 =>
    intro m hm
    obtain ⟨m, rfl⟩ : ∃ k, m = k + 1 := ⟨m - 1, by omega⟩
    exact .mk hc (fun gate hg x hx => ih1 gate hg x hx m (by omega))
      (fun nIn nOut ids oi mid mr mc i o a b c d => ih2 nIn nOut ids oi mid mr mc i o a b c d m (by omega))

theorem NF.world {w : World} {r : Ref} {c : Circuit} (hc : w.circs[r]? = some c) : NF (w.circuit r) := by
  rw [circuit_of hc]; exact .ok _

theorem NF.anyCircuit (w : World) (r : Ref) : NF (w.circuit r) := by
  unfold World.circuit; split <;> intro h <;> cases h

theorem NF.evalOutputWith {c : Circuit} {eg : GateId → EvSt → Except Err EvSt}
    (h : ∀ i o, c.outputMap i = some o → ∀ st, NF (eg o st)) (ins : List Bool) : NF (evalOutputWith c eg ins) := by
  unfold CC.evalOutputWith
  split
  · intro h; cases h
  · exact (NF.seedInputs _ _ _ _).bind fun st _ => NF.evalOutputs h _ _ _

theorem Spec.Within.eval {w : World} {r : Ref} {g : GateId} {n : Nat} (h : Within w r g n) :
    ∀ st, NF (evalGate w n r g st) := by
  induction h with
  | @mk r c g n hc _ _ hop hmod =>
    intro st
    unfold evalGate
    rw [bind_of_ok (circuit_of hc)]
    cases hgate : c.gateMap g with
    | none => intro h; cases h
    | some gate =>
      have hop := hop gate hgate
      cases gate with
      | input k => exact .ok _
      | const v => exact .ok _
      | not x =>
        exact (NF.ensure (hop x (by simp [Gate.operands])) st).bind fun _ _ => (NF.bit _ _).bind fun _ _ =>
          (NF.release _ _).bind fun _ _ => .ok _
      | xor a b => exact NF.evalBinary (hop a (by simp [Gate.operands])) (hop b (by simp [Gate.operands])) st
      | and a b => exact NF.evalBinary (hop a (by simp [Gate.operands])) (hop b (by simp [Gate.operands])) st
      | or a b => exact NF.evalBinary (hop a (by simp [Gate.operands])) (hop b (by simp [Gate.operands])) st
      | module nIn nOut ids oi mid =>
        simp only
        refine (NF.collectBits ids (fun x hx => hop x hx) st).bind fun p _ => ?_
        split
        · intro h; cases h
        · next mr h1 =>
          cases h2 : w.circs[mr]? with
          | none =>
            refine (NF.anyCircuit w mr).bind fun mc hmc => ?_
            have := circuit_ok hmc; rw [h2] at this; cases this
          | some mc =>
            rw [bind_of_ok (circuit_of h2)]
            refine (NF.evalOutputWith (fun i o ho => hmod nIn nOut ids oi mid mr mc i o hgate h1 h2 ho) _).bind fun _ _ => ?_
            refine (NF.releaseAll _ _).bind fun _ _ => ?_
            split
            · intro h; cases h
            · exact NF.recordOutputs _ _ _ _ _ _

theorem Spec.Within.evalOutput {w : World} {r : Ref} {c : Circuit} (hc : w.circs[r]? = some c) {n : Nat}
    (h : ∀ i o, c.outputMap i = some o → Within w r o n) (ins : List Bool) : NF (evalOutput w n r ins) := by
  unfold CC.evalOutput
  rw [bind_of_ok (circuit_of hc)]
  exact NF.evalOutputWith (fun i o ho => (h i o ho).eval) ins

namespace Bristol
open CC.Spec.Bristol

theorem NF.wiresOf (wog : Map GateId Nat) : ∀ ids, NF (wiresOf wog ids)
  | [] => .ok _
  | id :: ids => by
    unfold Bristol.wiresOf; split
    · intro h; cases h
    · exact (NF.wiresOf wog ids).bind fun _ _ => .ok _

theorem NF.writeConsts (c : Circuit) : ∀ gs s, NF (writeConsts c gs s)
  | [], _ => .ok _
  | g :: gs, s => by
    unfold Bristol.writeConsts; split
    · intro h; cases h
    · exact NF.writeConsts c gs _
    · exact NF.writeConsts c gs _

theorem NF.bindArgs (mc : Circuit) (wog : Map GateId Nat) : ∀ ids i new, NF (bindArgs mc wog i ids new)
  | [], _, _ => .ok _
  | id :: ids, i, new => by
    unfold Bristol.bindArgs; split
    · intro h; cases h
    · split
      · intro h; cases h
      · exact NF.bindArgs mc wog ids _ _

theorem NF.bindOuts (mc : Circuit) (new : Map GateId Nat) (first : GateId) : ∀ k i wog, NF (bindOuts mc new first i k wog)
  | 0, _, _ => .ok _
  | k + 1, i, wog => by
    unfold Bristol.bindOuts; split
    · intro h; cases h
    · split
      · intro h; cases h
      · exact NF.bindOuts mc new first k _ _

theorem NF.constVals (m : Map Nat Bool) : ∀ xs, NF (constVals m xs)
  | [] => .ok _
  | x :: xs => by
    unfold Bristol.constVals; split
    · intro h; cases h
    · exact (NF.constVals m xs).bind fun _ _ => .ok _

theorem NF.ensureWires {c : Circuit} {wg : WriteGate} : ∀ (ids : List GateId),
    (∀ x ∈ ids, ∀ gate, c.gateMap x = some gate → ∀ s, NF (wg x gate s)) → ∀ s, NF (ensureWires c wg ids s)
  | [], _, _ => .ok _
  | id :: ids, h, s => by
    unfold Bristol.ensureWires
    refine NF.bind ?_ fun s _ => NF.ensureWires ids (fun x hx => h x (List.mem_cons_of_mem _ hx)) s
    unfold Bristol.ensureWire
    split
    · exact .ok _
    · split
      · intro h; cases h
      · next gate hg => exact h id (by simp) gate hg s

theorem NF.writePass1 {c : Circuit} {wg : WriteGate}
    (h : ∀ i o gate, c.outputMap i = some o → c.gateMap o = some gate → ∀ x ∈ gate.operands, ∀ gx, c.gateMap x = some gx →
      ∀ s, NF (wg x gx s)) : ∀ k i s, NF (writePass1 c wg i k s)
  | 0, _, _ => .ok _
  | k + 1, i, s => by
    unfold Bristol.writePass1
    split
    · intro h; cases h
    · next o ho =>
      split
      · intro h; cases h
      · next gate hg =>
        exact (NF.ensureWires _ (h i o gate ho hg) s).bind fun s _ => (NF.writePass1 h k (i + 1) s).bind fun _ _ => .ok _

theorem NF.writePass2 {wg : WriteGate} : ∀ (l : List (GateId × Gate)), (∀ p ∈ l, ∀ s, NF (wg p.1 p.2 s)) →
    ∀ s, NF (writePass2 wg l s)
  | [], _, _ => .ok _
  | (g, gate) :: l, h, s => by
    unfold Bristol.writePass2
    have hl := NF.writePass2 l (fun p hp => h p (List.mem_cons_of_mem _ hp))
    split
    · exact hl s
    · exact (h (g, gate) (by simp) s).bind fun s _ => hl s

theorem writePass1_outs {c : Circuit} {wg : WriteGate} : ∀ k i s l s', writePass1 c wg i k s = .ok (l, s') →
    ∀ p ∈ l, (∃ i, c.outputMap i = some p.1) ∧ c.gateMap p.1 = some p.2
  | 0, _, _, l, s', h => by cases h; intro p hp; cases hp
  | k + 1, i, s, l, s', h => by
    unfold Bristol.writePass1 at h
    split at h
    · cases h
    · next o ho =>
      split at h
      · cases h
      · next gate hg =>
        obtain ⟨s1, h1, h⟩ := ok_bind h
        obtain ⟨⟨rest, s2⟩, h2, h⟩ := ok_bind h
        cases h
        intro p hp
        rcases List.mem_cons.mp hp with rfl | hp
        · exact ⟨⟨i, ho⟩, hg⟩
        · exact writePass1_outs k _ _ _ _ h2 p hp

theorem NF.writeAll {c : Circuit} {wg : WriteGate}
    (h : ∀ i o gate, c.outputMap i = some o → c.gateMap o = some gate → ∀ s, NF (wg o gate s))
    (h' : ∀ i o gate, c.outputMap i = some o → c.gateMap o = some gate → ∀ x ∈ gate.operands, ∀ gx, c.gateMap x = some gx →
      ∀ s, NF (wg x gx s)) (s : WS) : NF (writeAll c wg s) := by
  unfold Bristol.writeAll
  refine (NF.writeConsts _ _ _).bind fun s _ => ?_
  refine (NF.writePass1 h' _ _ _).bind fun p hp => ?_
  obtain ⟨l, s'⟩ := p
  refine NF.writePass2 l (fun p hpl => ?_) s'
  obtain ⟨⟨i, hi⟩, hg⟩ := writePass1_outs _ _ _ _ _ hp p hpl
  exact h i _ _ hi hg

/-- the operands of a gate are within the same bound -/
theorem within_operand {w : World} {r : Ref} {c : Circuit} {o x : GateId} {n : Nat} {gate : Gate} (hc : w.circs[r]? = some c)
    (h : Within w r o n) (hg : c.gateMap o = some gate) (hx : x ∈ gate.operands) : Within w r x n := by
  cases h with
  | mk hc' h1 _ =>
    rw [hc] at hc'; cases hc'
    exact (h1 gate hg x hx).mono _ (by omega)

theorem within_writeGate {w : World} {n : Nat} : ∀ {r : Ref} {g : GateId}, Within w r g n → ∀ c gate, w.circs[r]? = some c →
    c.gateMap g = some gate → ∀ s, NF (writeGate w n r g gate s) := by
  induction n with
  | zero => intro r g h; cases h
  | succ n ih =>
    intro r g h c gate hc hgate s
    cases h with
    | mk hc' h1 h2 =>
      rw [hc] at hc'; cases hc'
      unfold writeGate
      rw [bind_of_ok (circuit_of hc)]
      have hop : ∀ s, NF (ensureWires c (writeGate w n r) gate.operands s) :=
        NF.ensureWires _ fun x hx gx hgx => ih (h1 gate hgate x hx) c gx hc hgx
      cases gate with
      | input k => exact .ok _
      | const v => exact .ok _
      | module nIn nOut ids oi mid =>
        refine NF.bind (hop s) fun s _ => ?_
        split
        · intro h; cases h
        · next mr hmr =>
          cases hmc : w.circs[mr]? with
          | none =>
            refine (NF.anyCircuit w mr).bind fun mc e => ?_
            have := circuit_ok e; rw [hmc] at this; cases this
          | some mc =>
            rw [bind_of_ok (circuit_of hmc)]
            refine (NF.bindArgs _ _ _ _ _).bind fun new _ => ?_
            have hout := fun i o => h2 nIn nOut ids oi mid mr mc i o hgate hmr hmc
            refine NF.bind (NF.writeAll (fun i o gate ho hg => ih (hout i o ho) mc gate hmc hg)
              (fun i o gate ho hg x hx gx hgx => ih (within_operand hmc (hout i o ho) hg hx) mc gx hmc hgx) _) fun p _ => ?_
            obtain ⟨st, new⟩ := p
            dsimp only
            split
            · intro h; cases h
            · exact (NF.bindOuts _ _ _ _ _ _).bind fun _ _ => .ok _
      | not => exact (hop s).bind fun _ _ => (NF.wiresOf _ _).bind fun _ _ => .ok _
      | xor => exact (hop s).bind fun _ _ => (NF.wiresOf _ _).bind fun _ _ => .ok _
      | and => exact (hop s).bind fun _ _ => (NF.wiresOf _ _).bind fun _ _ => .ok _
      | or => exact (hop s).bind fun _ _ => (NF.wiresOf _ _).bind fun _ _ => .ok _

theorem NF.writeInputs {w : World} {n : Nat} {r : Ref} {c : Circuit} (hc : w.circs[r]? = some c)
    (h : ∀ i g, c.inputMap i = some g → Within w r g n) : ∀ k i s, NF (writeInputs w n r c i k s)
  | 0, _, _ => .ok _
  | k + 1, i, s => by
    unfold Bristol.writeInputs
    split
    · intro h; cases h
    · next g hi =>
      split
      · intro h; cases h
      · next gate hg =>
        exact (within_writeGate (h i g hi) c gate hc hg s).bind fun s _ => NF.writeInputs hc h k (i + 1) s

theorem within_write {w : World} {r : Ref} {c : Circuit} (hc : w.circs[r]? = some c) {n : Nat}
    (hi : ∀ i g, c.inputMap i = some g → Within w r g n) (h : ∀ i o, c.outputMap i = some o → Within w r o n)
    (numFirst : Nat) (st : WSt) (wog : Map GateId Nat) : NF (write w n r numFirst st wog) := by
  unfold write
  rw [bind_of_ok (circuit_of hc)]
  split
  · intro h; cases h
  · refine (NF.writeInputs hc hi _ _ _).bind fun s _ => ?_
    refine NF.bind (NF.writeAll (fun i o gate ho hg => within_writeGate (h i o ho) c gate hc hg)
      (fun i o gate ho hg x hx gx hgx => within_writeGate (within_operand hc (h i o ho) hg hx) c gx hc hgx) _) fun s _ => ?_
    exact (NF.constVals _ _).bind fun _ _ => .ok _

end Bristol

/-! ### the number of gates is a bound -/

/-- `x` is called by `r`, directly or not -/
inductive CallsPlus (w : World) : Ref → Ref → Prop where
  | one {r c x} : w.circs[r]? = some c → Calls w c x → CallsPlus w r x
  | step {r c x y} : w.circs[r]? = some c → Calls w c x → CallsPlus w x y → CallsPlus w r y

theorem CallsPlus.snoc {w : World} {r x y : Ref} {c : Circuit} (h : CallsPlus w r x) (hc : w.circs[x]? = some c)
    (hxy : Calls w c y) : CallsPlus w r y := by
  induction h with
  | one h1 h2 => exact .step h1 h2 (.one hc hxy)
  | step h1 h2 _ ih => exact .step h1 h2 (ih hc)

theorem Spec.Built.acyclic {w : World} {r : Ref} (h : Built w r) : ¬ CallsPlus w r r := by
  induction h with
  | @mk r c hc _ _ _ ih =>
    intro h
    cases h with
    | one h1 h2 =>
      rw [hc] at h1; cases h1
      exact ih r h2 (.one hc h2)
    | @step _ _ x _ h1 h2 h3 =>
      rw [hc] at h1; cases h1
      exact ih x h2 (h3.snoc hc h2)

theorem together_erase (w : World) {s : List Ref} {r : Ref} (h : r ∈ s) : size w r + together w (s.erase r) = together w s :=
  List.sum_map_erase (size w) h

theorem Spec.Built.within {w : World} (hw : WFw w) {r : Ref} (h : Built w r) : ∀ (s : List Ref), s.Nodup → r ∈ s →
    (∀ x, CallsPlus w r x → x ∈ s) → ∀ c, w.circs[r]? = some c → ∀ g, g < c.gateIndex →
    Within w r g (leadOf c g + 1 + together w (s.erase r)) := by
  have hb := h
  induction h with
  | @mk r c hc ht hcalls hbs ih =>
    intro s hs hr hcl c' hc' g
    rw [hc] at hc'; cases hc'
    induction g using Nat.strongRecOn with
    | _ g ihg =>
      intro hg
      have : leadOf c g + 1 + together w (s.erase r) = leadOf c g + together w (s.erase r) + 1 := by omega
      rw [this]
      refine .mk hc ?_ ?_
      · intro gate hgate x hx
        have h1 := ht g gate hgate x hx
        have h2 : leadOf c g = lead g gate := by simp [leadOf, hgate]
        have h3 := leadOf_le (c := c) x
        have h4 := leadOf_le (c := c) g
        exact (ihg x (by omega) (by omega)).mono _ (by omega)
      · intro nIn nOut ids oi mid mr mc i o hgate hmr hmc ho
        have hcall : Calls w c mr := ⟨g, nIn, nOut, ids, oi, mid, hgate, hmr⟩
        have hne : mr ≠ r := by
          rintro rfl
          exact hb.acyclic (.one hc hcall)
        have hmem : mr ∈ s.erase r := (hs.mem_erase_iff).mpr ⟨hne, hcl _ (.one hc hcall)⟩
        have hcl' : ∀ x, CallsPlus w mr x → x ∈ s.erase r := by
          intro x hx
          refine (hs.mem_erase_iff).mpr ⟨?_, hcl _ (.step hc hcall hx)⟩
          rintro rfl
          exact hb.acyclic (.step hc hcall hx)
        have hlt := (hw.circ mr mc hmc).output_gate i o ho
        have := ih mr hcall (hbs mr hcall) (s.erase r) (hs.erase r) hmem hcl' mc hmc o hlt
        refine this.mono _ ?_
        have e := together_erase w hmem
        have e1 : size w mr = mc.gateIndex := by simp [size, hmc]
        have := leadOf_le (c := mc) o
        omega

theorem together_range (w : World) : together w (List.range w.circs.length) = gates w := by
  unfold together gates
  congr 1
  apply List.ext_getElem?
  intro i
  simp only [List.getElem?_map]
  by_cases hi : i < w.circs.length
  · simp [size, hi]
  · simp [hi]

end CC
