import Verif.Proofs.Api
import Verif.Spec.Semantics

/-!
# Truth-table semantics: determinism, totality on well-built circuits
-/

namespace CC
open Spec

theorem Spec.Val.det {w : World} {r : Ref} {ins : List Bool} {g : GateId} {a b : Bool} (h1 : Val w r ins g a)
    (h2 : Val w r ins g b) : a = b := by
  induction h1 generalizing b with
  | input hc hg hb =>
    cases h2 <;> simp_all
  | const hc hg => cases h2 <;> simp_all
  | not hc hg h ih =>
    cases h2 with
    | not hc' hg' h' =>
      rw [hc] at hc'; cases hc'; rw [hg] at hg'; cases hg'
      rw [ih h']
    | _ => simp_all
  | and hc hg h h' ih ih' =>
    cases h2 with
    | and hc' hg' k k' =>
      rw [hc] at hc'; cases hc'; rw [hg] at hg'; cases hg'
      rw [ih k, ih' k']
    | _ => simp_all
  | xor hc hg h h' ih ih' =>
    cases h2 with
    | xor hc' hg' k k' =>
      rw [hc] at hc'; cases hc'; rw [hg] at hg'; cases hg'
      rw [ih k, ih' k']
    | _ => simp_all
  | or hc hg h h' ih ih' =>
    cases h2 with
    | or hc' hg' k k' =>
      rw [hc] at hc'; cases hc'; rw [hg] at hg'; cases hg'
      rw [ih k, ih' k']
    | _ => simp_all
  | module hc hg hm hmc hlen hargs hin ho hv ih ihv =>
    cases h2 with
    | module hc' hg' hm' hmc' hlen' hargs' hin' ho' hv' =>
      rw [hc] at hc'; cases hc'; rw [hg] at hg'; cases hg'
      rw [hm] at hm'; cases hm'; rw [hmc] at hmc'; cases hmc'; rw [ho] at ho'; cases ho'
      rename_i ids _ _ _ _ bits _ _ bits'
      have : bits = bits' := by
        apply List.ext_getElem?
        intro i
        by_cases hi : i < ids.length
        · rw [List.getElem?_eq_getElem (by omega), List.getElem?_eq_getElem (by omega)]
          congr 1
          exact ih i _ _ (List.getElem?_eq_getElem hi) (List.getElem?_eq_getElem (by omega))
            (hargs' i _ _ (List.getElem?_eq_getElem hi) (List.getElem?_eq_getElem (by omega)))
        · rw [List.getElem?_eq_none (by omega), List.getElem?_eq_none (by omega)]
      subst this
      exact ihv hv'
    | _ => simp_all

theorem Spec.Outputs.det {w : World} {r : Ref} {ins a b : List Bool} (h1 : Outputs w r ins a)
    (h2 : Outputs w r ins b) : a = b := by
  obtain ⟨c, hc, _, hl, hv⟩ := h1
  obtain ⟨c', hc', _, hl', hv'⟩ := h2
  rw [hc] at hc'; cases hc'
  apply List.ext_getElem?
  intro i
  by_cases hi : i < c.outputLen
  · have e1 := List.getElem?_eq_getElem (l := a) (i := i) (by omega)
    have e2 := List.getElem?_eq_getElem (l := b) (i := i) (by omega)
    rw [e1, e2]
    obtain ⟨o, ho, h⟩ := hv i _ e1
    obtain ⟨o', ho', h'⟩ := hv' i _ e2
    rw [ho] at ho'; cases ho'
    rw [h.det h']
  · rw [List.getElem?_eq_none (by omega), List.getElem?_eq_none (by omega)]

theorem Spec.Evaluable.built {w : World} {r : Ref} (h : Evaluable w r) : Built w r := by
  induction h with
  | mk hc ht _ hcalls _ ih => exact Built.mk hc ht hcalls ih

/-- list of values for a list of gates -/
theorem exists_bits {P : GateId → Bool → Prop} : ∀ ids : List GateId, (∀ x ∈ ids, ∃ b, P x b) →
    ∃ bits : List Bool, bits.length = ids.length ∧
      ∀ (i : Nat) x a, ids[i]? = some x → bits[i]? = some a → P x a
  | [], _ => ⟨[], rfl, by simp⟩
  | x :: xs, h => by
    obtain ⟨b, hb⟩ := h x (by simp)
    obtain ⟨bs, hl, hbs⟩ := exists_bits xs fun y hy => h y (List.mem_cons_of_mem _ hy)
    refine ⟨b :: bs, by simp [hl], ?_⟩
    intro i y a hi ha
    cases i with
    | zero => simp at hi ha; subst hi; subst ha; exact hb
    | succ i => simp at hi ha; exact hbs i y a hi ha

theorem lead_le (g : GateId) (gate : Gate) : lead g gate ≤ g := by
  cases gate <;> simp [lead]

theorem Spec.Built.total {w : World} (hw : WFw w) {r : Ref} (hb : Built w r) : ∀ {c}, w.circs[r]? = some c →
    ∀ {ins : List Bool}, ins.length = c.inputLen → ∀ g, g < c.gateIndex → ∃ b, Val w r ins g b := by
  induction hb with
  | @mk r c hc ht hcalls _ ih =>
    intro c' hc' ins hlen g
    rw [hc] at hc'; cases hc'
    have hwf := hw.circ r c hc
    induction g using Nat.strongRecOn with
    | ind g ihg =>
      intro hlt
      obtain ⟨gate, hgate⟩ := hwf.some_of_lt hlt
      have hop : ∀ x ∈ gate.operands, ∃ b, Val w r ins x b := by
        intro x hx
        have h1 := ht g gate hgate x hx
        have h2 := lead_le g gate
        exact ihg x (by omega) (by omega)
      cases gate with
      | input k =>
        have := (hwf.input_dom k).mp (by simp [(hwf.input_iff k g).mpr hgate])
        exact ⟨ins[k], .input hc hgate (List.getElem?_eq_getElem (by omega))⟩
      | const v => exact ⟨v, .const hc hgate⟩
      | not x =>
        obtain ⟨a, ha⟩ := hop x (by simp [Gate.operands])
        exact ⟨_, .not hc hgate ha⟩
      | and x y =>
        obtain ⟨a, ha⟩ := hop x (by simp [Gate.operands])
        obtain ⟨b, hb⟩ := hop y (by simp [Gate.operands])
        exact ⟨_, .and hc hgate ha hb⟩
      | xor x y =>
        obtain ⟨a, ha⟩ := hop x (by simp [Gate.operands])
        obtain ⟨b, hb⟩ := hop y (by simp [Gate.operands])
        exact ⟨_, .xor hc hgate ha hb⟩
      | or x y =>
        obtain ⟨a, ha⟩ := hop x (by simp [Gate.operands])
        obtain ⟨b, hb⟩ := hop y (by simp [Gate.operands])
        exact ⟨_, .or hc hgate ha hb⟩
      | module nIn nOut ids oi mid =>
        obtain ⟨mr, mc, h1, h2, h3, h4, h5⟩ := hcalls g nIn nOut ids oi mid hgate
        have h6 := @ih mr ⟨g, nIn, nOut, ids, oi, mid, hgate, h1⟩
        obtain ⟨bits, hbl, hbits⟩ := exists_bits (P := Val w r ins) ids hop
        have hoi := (hwf.group g nIn nOut ids oi mid hgate).1
        have hmwf := hw.circ mr mc h2
        obtain ⟨o, ho⟩ := Option.isSome_iff_exists.mp ((hmwf.output_dom oi).mpr (by omega))
        obtain ⟨b, hb⟩ := h6 h2 (ins := bits) (by omega) o (hmwf.output_gate oi o ho)
        exact ⟨b, .module hc hgate h1 h2 hbl hbits (by omega) ho hb⟩

end CC
