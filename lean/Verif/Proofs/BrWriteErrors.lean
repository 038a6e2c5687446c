import Verif.Spec.WriteFailure
import Verif.Proofs.EvalErrors
import Verif.Proofs.BrWriteFuel

/-!
# The errors of the Bristol writer, and the circuits it can write
-/

namespace CC.Bristol
open CC.Spec

/-- the constant wires from `lo` on have values -/
def Filled (lo : Nat) (st : WSt) : Prop := ∀ x, lo ≤ x → x < st.lastConstWire → st.constOf x ≠ none

/-- the gates with a wire are writable -/
def AllW (w : World) (r : Ref) (wog : Map GateId Nat) : Prop := ∀ x, wog x ≠ none → Writable w r x

/-- what writing keeps: gates keep wires, constants keep values, and only writable gates get wires -/
structure Keeps (w : World) (r : Ref) (s s' : WS) : Prop where
  bound : ∀ x, s.2 x ≠ none → s'.2 x ≠ none
  filled : ∀ lo, Filled lo s.1 → Filled lo s'.1
  good : AllW w r s.2 → AllW w r s'.2

theorem Keeps.rfl' {w : World} {r : Ref} {s : WS} : Keeps w r s s := ⟨fun _ h => h, fun _ h => h, fun h => h⟩

theorem Keeps.trans {w : World} {r : Ref} {s s1 s2 : WS} (h : Keeps w r s s1) (k : Keeps w r s1 s2) : Keeps w r s s2 :=
  ⟨fun x hx => k.bound x (h.bound x hx), fun lo hl => k.filled lo (h.filled lo hl), fun hx => k.good (h.good hx)⟩

/-- the constants of the circuit have wires -/
def ConstsOn (c : Circuit) (wog : Map GateId Nat) : Prop := ∀ g ∈ c.constGates, wog g ≠ none

theorem Keeps.consts {w : World} {r : Ref} {c : Circuit} {s s' : WS} (h : Keeps w r s s') (hc : ConstsOn c s.2) :
    ConstsOn c s'.2 := fun g hg => h.bound g (hc g hg)

/-- a step of the writer on a gate of `D` ends with an error of `E`, or gives the gate a wire -/
def WrE (w : World) (r : Ref) (c : Circuit) (wg : WriteGate) (D : GateId → Prop) (E : Err → Prop) : Prop :=
  ∀ g gate s, D g → c.gateMap g = some gate → ConstsOn c s.2 →
    Ends (fun s' => Keeps w r s s' ∧ s'.2 g ≠ none) E (wg g gate s)

/-- the gates may be looked up -/
def Lookup (c : Circuit) (D : GateId → Prop) (E : Err → Prop) (ids : List GateId) : Prop :=
  ∀ x ∈ ids, D x ∧ (c.gateMap x = none → E (.unknownGate x))

section
variable {w : World} {r : Ref} {c : Circuit} {wg : WriteGate} {D : GateId → Prop} {E : Err → Prop}

theorem WrE.ensure (h : WrE w r c wg D E) {x : GateId} (hx : D x) (hn : c.gateMap x = none → E (.unknownGate x)) {s : WS}
    (hs : ConstsOn c s.2) : Ends (fun s' => Keeps w r s s' ∧ s'.2 x ≠ none) E (ensureWire c wg x s) := by
  unfold ensureWire
  cases e : s.2 x with
  | some y => exact .ok ⟨.rfl', by rw [e]; exact Option.some_ne_none _⟩
  | none =>
    cases hg : c.gateMap x with
    | none => exact .error (hn hg)
    | some gate => exact h x gate s hx hg hs

theorem WrE.ensures (h : WrE w r c wg D E) (ids : List GateId) : Lookup c D E ids → ∀ {s : WS}, ConstsOn c s.2 →
    Ends (fun s' => Keeps w r s s' ∧ ∀ x ∈ ids, s'.2 x ≠ none) E (ensureWires c wg ids s) := by
  induction ids with
  | nil => exact fun _ s _ => .ok ⟨.rfl', fun x hx => absurd hx List.not_mem_nil⟩
  | cons x ids ih =>
    intro hl s hs
    unfold ensureWires
    have hx := hl x List.mem_cons_self
    refine (h.ensure hx.1 hx.2 hs).bind fun s1 h1 => ?_
    refine (ih (fun y hy => hl y (List.mem_cons_of_mem _ hy)) (h1.1.consts hs)).mono (fun s2 h2 => ?_) fun _ h => h
    refine ⟨h1.1.trans h2.1, fun y hy => ?_⟩
    rcases List.mem_cons.mp hy with rfl | hy
    · exact h2.1.bound _ h1.2
    · exact h2.2 y hy

theorem writeConsts_keeps (hwf : WFc c) (hc : w.circs[r]? = some c) (ks : List GateId) : (∀ g ∈ ks, g ∈ c.constGates) → ∀ {s : WS},
    Ends (fun s' => Keeps w r s s' ∧ ∀ g ∈ ks, s'.2 g ≠ none) E (writeConsts c ks s) := by
  induction ks with
  | nil => exact fun _ s => .ok ⟨.rfl', fun x hx => absurd hx List.not_mem_nil⟩
  | cons g ks ih =>
    intro hin s
    obtain ⟨v, hg⟩ := (hwf.const_iff g).mp (hin g List.mem_cons_self)
    unfold writeConsts
    simp only [hg]
    refine (ih (fun y hy => hin y (List.mem_cons_of_mem _ hy))).mono (fun s2 h2 => ?_) fun _ h => h
    refine ⟨Keeps.trans ⟨fun x hx => ?_, fun lo hl x h1 h2 => ?_, fun hw x hx => ?_⟩ h2.1, fun y hy => ?_⟩
    · simp only [Map.insert_apply]
      split
      · exact Option.some_ne_none _
      · exact hx
    · simp only [Map.insert_apply]
      split
      · exact Option.some_ne_none _
      · next hne =>
        refine hl x h1 ?_
        have : x < s.1.lastConstWire + 1 := h2
        omega
    · simp only [Map.insert_apply] at hx
      split at hx
      · next e =>
        subst e
        exact .plain hc hg (by rintro _ _ _ _ _ ⟨⟩) (by simp [Gate.operands])
      · exact hw x hx
    · rcases List.mem_cons.mp hy with rfl | hy
      · exact h2.1.bound _ (by simp)
      · exact h2.2 y hy

/-- the outputs and their operands may be looked up -/
def OutsOk (c : Circuit) (D : GateId → Prop) (E : Err → Prop) : Prop :=
  ∀ i o gate, c.outputMap i = some o → c.gateMap o = some gate → D o ∧ Lookup c D E gate.operands

theorem WrE.pass1 (h : WrE w r c wg D E) (hwf : WFc c) (ho : OutsOk c D E) (k : Nat) : ∀ (i : Nat), i + k ≤ c.outputLen →
    ∀ {s : WS}, ConstsOn c s.2 →
    Ends (fun p => Keeps w r s p.2 ∧ (∀ q ∈ p.1, D q.1 ∧ c.gateMap q.1 = some q.2) ∧
      ∀ j o, i ≤ j → j < i + k → c.outputMap j = some o → ∃ q ∈ p.1, q.1 = o) E (writePass1 c wg i k s) := by
  induction k with
  | zero => exact fun i _ s _ => .ok ⟨.rfl', fun x hx => absurd hx List.not_mem_nil, fun j o h1 h2 => by omega⟩
  | succ k ih =>
    intro i hi s hs
    obtain ⟨o, ho1⟩ := Option.isSome_iff_exists.mp ((hwf.output_dom i).mpr (by omega))
    obtain ⟨gate, hg⟩ := hwf.some_of_lt (hwf.output_gate i o ho1)
    unfold writePass1
    simp only [ho1, hg]
    have hk := ho i o gate ho1 hg
    refine (h.ensures _ hk.2 hs).bind fun s1 h1 => ?_
    refine (ih (i + 1) (by omega) (h1.1.consts hs)).bind fun p h2 => ?_
    refine .ok ⟨h1.1.trans h2.1, fun q hq => ?_, fun j o' k1 k2 k3 => ?_⟩
    · rcases List.mem_cons.mp hq with rfl | hq
      · exact ⟨hk.1, hg⟩
      · exact h2.2.1 q hq
    · by_cases e : j = i
      · subst e
        rw [ho1] at k3
        cases k3
        exact ⟨_, List.mem_cons_self, rfl⟩
      · obtain ⟨q, hq, e⟩ := h2.2.2 j o' (by omega) (by omega) k3
        exact ⟨q, List.mem_cons_of_mem _ hq, e⟩

theorem WrE.pass2 (h : WrE w r c wg D E) (l : List (GateId × Gate)) : (∀ q ∈ l, D q.1 ∧ c.gateMap q.1 = some q.2) → ∀ {s : WS},
    ConstsOn c s.2 → Ends (fun s' => Keeps w r s s' ∧ ∀ q ∈ l, s'.2 q.1 ≠ none) E (writePass2 wg l s) := by
  induction l with
  | nil => exact fun _ s _ => .ok ⟨.rfl', fun x hx => absurd hx List.not_mem_nil⟩
  | cons q l ih =>
    intro hl s hs
    obtain ⟨g, gate⟩ := q
    have hq := hl _ List.mem_cons_self
    have hl' : ∀ q ∈ l, D q.1 ∧ c.gateMap q.1 = some q.2 := fun y hy => hl y (List.mem_cons_of_mem _ hy)
    unfold writePass2
    cases e : s.2 g with
    | some x =>
      refine (ih hl' hs).mono (fun s2 h2 => ⟨h2.1, fun y hy => ?_⟩) fun _ h => h
      rcases List.mem_cons.mp hy with rfl | hy
      · exact h2.1.bound _ (by rw [e]; exact Option.some_ne_none _)
      · exact h2.2 y hy
    | none =>
      refine (h g gate s hq.1 hq.2 hs).bind fun s1 h1 => ?_
      refine (ih hl' (h1.1.consts hs)).mono (fun s2 h2 => ⟨h1.1.trans h2.1, fun y hy => ?_⟩) fun _ h => h
      rcases List.mem_cons.mp hy with rfl | hy
      · exact h2.1.bound _ h1.2
      · exact h2.2 y hy

theorem WrE.all (h : WrE w r c wg D E) (hwf : WFc c) (hc : w.circs[r]? = some c) (ho : OutsOk c D E) (s : WS) :
    Ends (fun s' => Keeps w r s s' ∧ ∀ i o, c.outputMap i = some o → s'.2 o ≠ none) E (writeAll c wg s) := by
  unfold writeAll
  refine (writeConsts_keeps hwf hc _ fun _ h => h).bind fun s1 h1 => ?_
  refine (h.pass1 hwf ho c.outputLen 0 (by omega) h1.2).bind fun p h2 => ?_
  refine (h.pass2 p.1 h2.2.1 (h2.1.consts h1.2)).mono (fun s3 h3 => ?_) fun _ h => h
  refine ⟨(h1.1.trans h2.1).trans h3.1, fun i o hio => ?_⟩
  obtain ⟨q, hq, rfl⟩ := h2.2.2 i o (by omega) (by
    have := (hwf.output_dom i).mp (by rw [hio]; rfl)
    omega) hio
  exact h3.2 q hq

theorem wiresOf_ends {wog : Map GateId Nat} {ids : List GateId} (h : ∀ x ∈ ids, wog x ≠ none) :
    Ends (fun _ => True) E (wiresOf wog ids) := by
  obtain ⟨ws, k, _⟩ := wiresOf_ok h
  rw [k]
  exact .ok trivial

theorem bindArgs_ends {mc : Circuit} (hwf : WFc mc) {mr : Ref} (hmc : w.circs[mr]? = some mc) {wog : Map GateId Nat} {n : Nat}
    (he : mc.inputLen < n → E (.unknownInput mc.inputLen)) (ids : List GateId) : (∀ x ∈ ids, wog x ≠ none) → ∀ (i : Nat),
    i + ids.length = n → i ≤ mc.inputLen → ∀ new, AllW w mr new → Ends (fun new => AllW w mr new ∧ n ≤ mc.inputLen) E (bindArgs mc wog i ids new) := by
  induction ids with
  | nil => exact fun _ i hi hle new h => .ok ⟨h, by simp only [List.length_nil] at hi; omega⟩
  | cons x ids ih =>
    intro hb i hi hle new hn
    unfold bindArgs
    cases hg : mc.inputMap i with
    | none =>
      have : i = mc.inputLen := by
        refine Nat.le_antisymm hle (Nat.le_of_not_lt fun hlt => ?_)
        have := (hwf.input_dom i).mpr hlt
        rw [hg] at this
        cases this
      subst this
      refine .error (he ?_)
      simp only [List.length_cons] at hi
      omega
    | some g =>
      cases hx : wog x with
      | none => exact absurd hx (hb x List.mem_cons_self)
      | some y =>
        have hlt := (hwf.input_dom i).mp (by rw [hg]; rfl)
        refine ih (fun z hz => hb z (List.mem_cons_of_mem _ hz)) (i + 1) ?_ hlt _ ?_
        · simp only [List.length_cons] at hi
          omega
        · intro z hz
          rw [Map.insert_apply] at hz
          split at hz
          · next e =>
            subst e
            exact .plain hmc ((hwf.input_iff i z).mp hg) (by rintro _ _ _ _ _ ⟨⟩) (by simp [Gate.operands])
          · exact hn z hz

theorem bindOuts_ends {mc : Circuit} (hwf : WFc mc) {new : Map GateId Nat} (first : GateId)
    (hn : ∀ i o, mc.outputMap i = some o → new o ≠ none) (k : Nat) : ∀ (i : Nat), i + k ≤ mc.outputLen → ∀ wog : Map GateId Nat,
    Ends (fun wog' => ∀ x, wog' x ≠ none ↔ wog x ≠ none ∨ ∃ j, i ≤ j ∧ j < i + k ∧ x = first + j) E
      (bindOuts mc new first i k wog) := by
  induction k with
  | zero =>
    refine fun i _ wog => .ok fun x => ⟨Or.inl, fun h => h.elim id ?_⟩
    rintro ⟨j, h1, h2, _⟩
    omega
  | succ k ih =>
    intro i hi wog
    obtain ⟨o, ho⟩ := Option.isSome_iff_exists.mp ((hwf.output_dom i).mpr (by omega))
    unfold bindOuts
    cases hx : new o with
    | none => exact absurd hx (hn i o ho)
    | some y =>
      simp only [ho, hx]
      refine (ih (i + 1) (by omega) _).mono (fun wog' h x => ?_) fun _ h => h
      rw [h x, Map.insert_apply]
      by_cases e : x = first + i
      · rw [if_pos e]
        exact ⟨fun _ => Or.inr ⟨i, Nat.le_refl i, by omega, e⟩, fun _ => Or.inl (Option.some_ne_none _)⟩
      · rw [if_neg e]
        constructor
        · rintro (k1 | ⟨j, k1, k2, k3⟩)
          · exact Or.inl k1
          · exact Or.inr ⟨j, by omega, by omega, k3⟩
        · rintro (k1 | ⟨j, k1, k2, k3⟩)
          · exact Or.inl k1
          · refine Or.inr ⟨j, ?_, by omega, k3⟩
            rcases Nat.eq_or_lt_of_le k1 with k4 | k4
            · subst k4
              exact absurd k3 e
            · exact k4

theorem updateWire_keeps (g : GateId) (ws : Option (List Nat)) (str : List Char) (s : WS) (hg : AllW w r s.2 → Writable w r g) :
    Keeps w r s (updateWire g ws str s) ∧ (updateWire g ws str s).2 g ≠ none := by
  refine ⟨⟨fun x hx => ?_, fun lo hl => hl, fun hw x hx => ?_⟩, ?_⟩
  · simp only [updateWire, Map.insert_apply]
    split
    · exact Option.some_ne_none _
    · exact hx
  · simp only [updateWire, Map.insert_apply] at hx
    split at hx
    · next e => subst e; exact hg hw
    · exact hw x hx
  · simp [updateWire]

/-- one step of the writer -/
theorem WrE.step (hwf : WFw w) (hfit : AllC (CallsFit w) w) {fuel : Nat} (h : WrE w r c (writeGate w fuel r) D E)
    (hc : w.circs[r]? = some c) {g : GateId} {gate : Gate} (hg : c.gateMap g = some gate) (hops : Lookup c D E gate.operands)
    (hm : ∀ nIn nOut ids oi mid mr mc, gate = .module nIn nOut ids oi mid → w.module? c mid = some mr → w.circs[mr]? = some mc →
      (mc.inputLen < ids.length → E (.unknownInput mc.inputLen)) ∧
      ∀ s, Ends (fun s' => Keeps w mr s s' ∧ ∀ i o, mc.outputMap i = some o → s'.2 o ≠ none) E (writeAll mc (writeGate w fuel mr) s))
    {s : WS} (hs : ConstsOn c s.2) :
    Ends (fun s' => Keeps w r s s' ∧ s'.2 g ≠ none) E (writeGate w (fuel + 1) r g gate s) := by
  have hcw := hwf.circ r c hc
  have hlogic (hne : ∀ nIn nOut ids oi mid, gate ≠ .module nIn nOut ids oi mid) :
      Ends (fun s' => Keeps w r s s' ∧ s'.2 g ≠ none) E (do
        let s ← ensureWires c (writeGate w fuel r) gate.operands s
        let ws ← wiresOf s.2 gate.operands
        .ok (updateWire g (some ws) (gateStr gate) s)) := by
    refine (h.ensures _ hops hs).bind fun s1 h1 => ?_
    refine (wiresOf_ends h1.2).bind fun ws _ => .ok ?_
    have := updateWire_keeps (w := w) (r := r) g (some ws) (gateStr gate) s1 fun hw => .plain hc hg hne fun x hx => hw x (h1.2 x hx)
    exact ⟨h1.1.trans this.1, this.2⟩
  rw [writeGate, bind_of_ok (circuit_of hc)]
  cases gate with
  | input k =>
    refine .ok (updateWire_keeps g _ _ s fun _ => .plain hc hg (by rintro _ _ _ _ _ ⟨⟩) (by simp [Gate.operands]))
  | const v => exact .ok ⟨.rfl', hs g ((hcw.const_iff g).mpr ⟨v, hg⟩)⟩
  | not x => exact hlogic (by rintro _ _ _ _ _ ⟨⟩)
  | xor x y => exact hlogic (by rintro _ _ _ _ _ ⟨⟩)
  | and x y => exact hlogic (by rintro _ _ _ _ _ ⟨⟩)
  | or x y => exact hlogic (by rintro _ _ _ _ _ ⟨⟩)
  | module nIn nOut ids oi mid =>
    refine (h.ensures ids hops hs).bind fun s1 h1 => ?_
    obtain ⟨mr, mc, k1, k2, k3⟩ := hfit.get hc g nIn nOut ids oi mid hg
    obtain ⟨h2, h3⟩ := hm nIn nOut ids oi mid mr mc rfl k1 k2
    have hmw := hwf.circ mr mc k2
    simp only [k1]
    rw [bind_of_ok (circuit_of k2)]
    have hargs := bindArgs_ends (E := E) hmw k2 h2 ids h1.2 0 (Nat.zero_add _) (Nat.zero_le _) Map.empty
      (fun x hx => absurd rfl hx)
    rcases e1 : bindArgs mc s1.2 0 ids Map.empty with e | new
    · rw [e1] at hargs
      cases hargs with
      | error he => exact .error he
    rw [e1] at hargs
    obtain ⟨hnew, hlen⟩ : AllW w mr new ∧ ids.length ≤ mc.inputLen := by
      cases hargs with
      | ok h => exact h
    show Ends _ E (writeAll mc (writeGate w fuel mr) (s1.1, new) >>= _)
    refine (h3 (s1.1, new)).bind fun p h4 => ?_
    obtain ⟨hlt, hle, hgrp⟩ := hcw.group g nIn nOut ids oi mid hg
    rw [if_neg (by omega)]
    refine (bindOuts_ends hmw (g - oi) h4.2 nOut 0 (by omega) s1.2).bind fun wog h5 => ?_
    refine .ok ⟨h1.1.trans ⟨fun x hx => (h5 x).mpr (Or.inl hx), fun lo hl => h4.1.filled lo hl, fun hw x hx => ?_⟩,
      (h5 g).mpr (Or.inr ⟨oi, Nat.zero_le _, by omega, by omega⟩)⟩
    rcases (h5 x).mp hx with hx | ⟨j, _, j2, rfl⟩
    · exact hw x hx
    · have hall := h4.1.good hnew
      exact .call hc (hgrp j (by omega)) (fun y hy => hw y (h1.2 y hy)) k1 k2 hlen fun i o hio => hall o (h4.2 i o hio)

end

/-! ### the reasons -/

theorem writeGate_ends {w : World} (hwf : WFw w) (hfit : AllC (CallsFit w) w) (fuel : Nat) : ∀ {r : Ref} {c : Circuit},
    w.circs[r]? = some c → WrE w r c (writeGate w fuel r) (fun _ => True) (Unwritable w r) := by
  induction fuel with
  | zero => exact fun _ g gate s _ _ _ => .error .depth
  | succ fuel ih =>
    intro r c hc g gate s _ hg hs
    refine WrE.step hwf hfit (ih hc) hc hg (fun x hx => ⟨trivial, .operand hc hg hx⟩) ?_ hs
    rintro nIn nOut ids oi mid mr mc rfl hm hmc
    refine ⟨.excess hc hg hm hmc, fun s => ?_⟩
    refine ((ih hmc).all (hwf.circ mr mc hmc) hmc (fun i o gate ho hg => ⟨trivial, fun x hx => ⟨trivial, .operand hmc hg hx⟩⟩) s).mono
      (fun _ h => h) fun e he => .inner hc ⟨g, nIn, nOut, ids, oi, mid, hg, hm⟩ he

theorem writeInputs_ends {w : World} {fuel : Nat} {r : Ref} {c : Circuit} (hwf : WFc c) (hc : w.circs[r]? = some c)
    {E : Err → Prop} (hf : fuel = 0 → E .outOfFuel) (k : Nat) : ∀ i, i + k ≤ c.inputLen → ∀ s : WS, Ends (Keeps w r s) E (writeInputs w fuel r c i k s) := by
  induction k with
  | zero => exact fun i _ s => .ok .rfl'
  | succ k ih =>
    intro i hi s
    obtain ⟨g, hg⟩ := Option.isSome_iff_exists.mp ((hwf.input_dom i).mpr (by omega))
    have hgate := (hwf.input_iff i g).mp hg
    unfold writeInputs
    simp only [hg, hgate]
    cases fuel with
    | zero => exact .error (hf rfl)
    | succ fuel =>
    rw [writeGate, bind_of_ok (circuit_of hc)]
    refine (ih (i + 1) (by omega) _).mono (fun s' h => Keeps.trans ?_ h) fun _ h => h
    exact (updateWire_keeps g _ _ s fun _ => .plain hc hgate (by rintro _ _ _ _ _ ⟨⟩) (by simp [Gate.operands])).1

theorem constVals_ends {m : Map Nat Bool} {E : Err → Prop} (l : List Nat) : (∀ x ∈ l, m x ≠ none) →
    Ends (fun _ => True) E (constVals m l) := by
  induction l with
  | nil => exact fun _ => .ok trivial
  | cons x l ih =>
    intro h
    unfold constVals
    cases e : m x with
    | none => exact absurd e (h x List.mem_cons_self)
    | some b => exact (ih fun y hy => h y (List.mem_cons_of_mem _ hy)).bind fun _ _ => .ok trivial

/-- `write`, given that the gates of `D` can be written -/
theorem write_ends {w : World} (hwf : WFw w) {r : Ref} {c : Circuit} (hc : w.circs[r]? = some c) {fuel : Nat}
    {D : GateId → Prop} {E : Err → Prop} (hf : fuel = 0 → E .outOfFuel) (h : WrE w r c (writeGate w fuel r) D E) (ho : OutsOk c D E) {k : Nat}
    (hk : c.inputLen + c.numConst < k → E (.panic .assertFailed)) (st : WSt) (wog : Map GateId Nat) :
    Ends (fun _ => k ≤ c.inputLen + c.numConst ∧ (AllW w r wog → ∀ i o, c.outputMap i = some o → Writable w r o)) E
      (write w fuel r k st wog) := by
  unfold write
  rw [bind_of_ok (circuit_of hc)]
  simp only
  split
  · next hlt => exact .error (hk hlt)
  next hlt =>
  have hcw := hwf.circ r c hc
  refine (writeInputs_ends hcw hc hf c.inputLen 0 (by omega) _).bind fun s1 h1 => ?_
  refine (h.all hcw hc ho _).bind fun s2 h2 => ?_
  refine (constVals_ends _ fun x hx => ?_).bind fun cs _ => .ok ⟨by omega, fun hw i o hio => ?_⟩
  · obtain ⟨y, hy, rfl⟩ := List.mem_map.mp hx
    have hy := List.mem_range.mp hy
    refine h2.1.filled c.inputLen (fun y k1 k2 => ?_) _ (Nat.le_add_right _ _) (by omega)
    exact absurd k2 (Nat.not_lt.mpr k1)
  · exact h2.1.good (h1.good hw) o (h2.2 i o hio)

theorem write_error {w : World} (hwf : WFw w) (hfit : AllC (CallsFit w) w) {r : Ref} {c : Circuit} (hc : w.circs[r]? = some c)
    {fuel k : Nat} {st : WSt} {wog : Map GateId Nat} {e : Err} (he : write w fuel r k st wog = .error e) :
    c.inputLen + c.numConst < k ∧ e = .panic .assertFailed ∨ Unwritable w r e := by
  have := write_ends hwf hc (fuel := fuel) (D := fun _ => True)
    (E := fun e => c.inputLen + c.numConst < k ∧ e = .panic .assertFailed ∨ Unwritable w r e) (fun _ => Or.inr .depth)
    (fun g gate s h1 h2 h3 => (writeGate_ends hwf hfit fuel hc g gate s h1 h2 h3).mono (fun _ h => h) fun _ h => Or.inr h)
    (fun i o gate ho hg => ⟨trivial, fun x hx => ⟨trivial, fun hn => Or.inr (.operand hc hg hx hn)⟩⟩) (fun hk => Or.inl ⟨hk, rfl⟩)
    st wog
  rw [he] at this
  cases this with
  | error h => exact h

theorem write_writable {w : World} (hwf : WFw w) (hfit : AllC (CallsFit w) w) {r : Ref} {c : Circuit} (hc : w.circs[r]? = some c)
    {fuel k : Nat} {st : WSt} {x : Written} (he : write w fuel r k st Map.empty = .ok x) :
    k ≤ c.inputLen + c.numConst ∧ ∀ i o, c.outputMap i = some o → Writable w r o := by
  have := write_ends hwf hc (fuel := fuel) (D := fun _ => True) (k := k) (E := fun _ => True) (fun _ => trivial)
    (fun g gate s h1 h2 h3 => (writeGate_ends hwf hfit fuel hc g gate s h1 h2 h3).mono (fun _ h => h) fun _ _ => trivial)
    (fun i o gate ho hg => ⟨trivial, fun x hx => ⟨trivial, fun hn => trivial⟩⟩) (fun hk => trivial) st Map.empty
  rw [he] at this
  cases this with
  | ok h => exact ⟨h.1, h.2 fun x hx => absurd rfl hx⟩

/-! ### writable circuits are written -/

/-- gate `g` is written, whatever the state of the writer -/
def Sure (w : World) (fuel : Nat) (r : Ref) (g : GateId) : Prop :=
  ∀ c, w.circs[r]? = some c → ∃ gate, c.gateMap g = some gate ∧ ∀ s, ConstsOn c s.2 →
    Ends (fun s' => Keeps w r s s' ∧ s'.2 g ≠ none) (fun _ => False) (writeGate w fuel r g gate s)

/-- the gate and its operands are written -/
def Sures (w : World) (fuel : Nat) (r : Ref) (g : GateId) : Prop :=
  Sure w fuel r g ∧ ∀ c gate, w.circs[r]? = some c → c.gateMap g = some gate → ∀ x ∈ gate.operands, Sure w fuel r x

theorem sure_wrE {w : World} {fuel : Nat} {r : Ref} {c : Circuit} (hc : w.circs[r]? = some c) :
    WrE w r c (writeGate w fuel r) (Sure w fuel r) (fun _ => False) := by
  intro g gate s hs hg h
  obtain ⟨gate', h1, h2⟩ := hs c hc
  rw [hg] at h1
  cases h1
  exact h2 s h

theorem exists_bound {α : Type} {P : Nat → α → Prop} (l : List α) : (∀ x ∈ l, ∃ F, ∀ f ≥ F, P f x) → ∃ F, ∀ f ≥ F, ∀ x ∈ l, P f x := by
  induction l with
  | nil => exact fun _ => ⟨0, fun _ _ x hx => absurd hx List.not_mem_nil⟩
  | cons y l ih =>
    intro h
    obtain ⟨F, hF⟩ := h y List.mem_cons_self
    obtain ⟨G, hG⟩ := ih fun x hx => h x (List.mem_cons_of_mem _ hx)
    refine ⟨max F G, fun f hf x hx => ?_⟩
    rcases List.mem_cons.mp hx with rfl | hx
    · exact hF f (by omega)
    · exact hG f (by omega) x hx

theorem outs_bound {c : Circuit} (hwf : WFc c) {P : Nat → GateId → Prop} (h : ∀ i o, c.outputMap i = some o → ∃ F, ∀ f ≥ F, P f o) :
    ∃ F, ∀ f ≥ F, ∀ i o, c.outputMap i = some o → P f o := by
  obtain ⟨F, hF⟩ := exists_bound (P := fun f i => ∀ o, c.outputMap i = some o → P f o) (List.range c.outputLen) fun i _ => by
    cases e : c.outputMap i with
    | none => exact ⟨0, fun _ _ _ h => by cases h⟩
    | some o =>
      obtain ⟨F, hF⟩ := h i o e
      exact ⟨F, fun f hf o ho => by cases ho; exact hF f hf⟩
  exact ⟨F, fun f hf i o ho => hF f hf i (List.mem_range.mpr ((hwf.output_dom i).mp (by rw [ho]; rfl))) o ho⟩

theorem sures_outs {w : World} {fuel : Nat} {r : Ref} {c : Circuit} (hc : w.circs[r]? = some c)
    (h : ∀ i o, c.outputMap i = some o → Sures w fuel r o) : OutsOk c (Sure w fuel r) (fun _ => False) := by
  intro i o gate ho hg
  refine ⟨(h i o ho).1, fun x hx => ⟨(h i o ho).2 c gate hc hg x hx, fun hn => ?_⟩⟩
  obtain ⟨_, k, _⟩ := (h i o ho).2 c gate hc hg x hx c hc
  rw [hn] at k
  cases k

theorem Sure.lookup {w : World} {fuel : Nat} {r : Ref} {c : Circuit} (hc : w.circs[r]? = some c) {ids : List GateId}
    (h : ∀ x ∈ ids, Sure w fuel r x) : Lookup c (Sure w fuel r) (fun _ => False) ids := by
  refine fun x hx => ⟨h x hx, fun hn => ?_⟩
  obtain ⟨_, k, _⟩ := h x hx c hc
  rw [hn] at k
  cases k

theorem writable_sure {w : World} (hwf : WFw w) (hfit : AllC (CallsFit w) w) {r : Ref} {g : GateId} (h : Writable w r g) :
    ∃ F, ∀ fuel ≥ F, Sures w fuel r g := by
  induction h with
  | @plain r c g gate hc hg hne _ ih =>
    obtain ⟨F, hF⟩ := exists_bound gate.operands ih
    refine ⟨F + 1, fun fuel hf => ?_⟩
    obtain ⟨fuel, rfl⟩ : ∃ k, fuel = k + 1 := ⟨fuel - 1, by omega⟩
    refine ⟨fun c' hc' => ?_, fun c' gate' hc' hg' x hx => ?_⟩ <;> rw [hc] at hc' <;> cases hc'
    · refine ⟨gate, hg, fun s hs => ?_⟩
      exact WrE.step hwf hfit (sure_wrE hc) hc hg (Sure.lookup hc fun x hx => (hF fuel (by omega) x hx).1)
        (fun nIn nOut ids oi mid mr mc e => absurd e (hne nIn nOut ids oi mid)) hs
    · rw [hg] at hg'
      cases hg'
      exact (hF (fuel + 1) (by omega) x hx).1
  | @call r c g nIn nOut ids oi mid mr mc hc hg _ hm hmc hlen _ ih1 ih2 =>
    obtain ⟨F, hF⟩ := exists_bound ids ih1
    obtain ⟨G, hG⟩ := outs_bound (hwf.circ mr mc hmc) ih2
    refine ⟨max F G + 1, fun fuel hf => ?_⟩
    obtain ⟨fuel, rfl⟩ : ∃ k, fuel = k + 1 := ⟨fuel - 1, by omega⟩
    refine ⟨fun c' hc' => ?_, fun c' gate' hc' hg' x hx => ?_⟩ <;> rw [hc] at hc' <;> cases hc'
    · refine ⟨_, hg, fun s hs => ?_⟩
      refine WrE.step hwf hfit (sure_wrE hc) hc hg (Sure.lookup hc fun x hx => (hF fuel (by omega) x hx).1) ?_ hs
      rintro _ _ _ _ _ mr' mc' ⟨⟩ hm' hmc'
      rw [hm] at hm'
      cases hm'
      rw [hmc] at hmc'
      cases hmc'
      refine ⟨fun hlt => by omega, fun s => ?_⟩
      exact (sure_wrE hmc).all (hwf.circ mr mc hmc) hmc (sures_outs hmc (hG fuel (by omega))) s
    · rw [hg] at hg'
      cases hg'
      exact (hF (fuel + 1) (by omega) x hx).1

theorem write_of_writable {w : World} (hwf : WFw w) (hfit : AllC (CallsFit w) w) {r : Ref} {c : Circuit} (hc : w.circs[r]? = some c)
    (ho : ∀ i o, c.outputMap i = some o → Writable w r o) : ∃ F, ∀ fuel ≥ F, ∀ k ≤ c.inputLen + c.numConst, ∀ st wog,
    ∃ x, write w fuel r k st wog = .ok x := by
  obtain ⟨F, hF⟩ := outs_bound (hwf.circ r c hc) fun i o h => writable_sure hwf hfit (ho i o h)
  refine ⟨F + 1, fun fuel hf k hk st wog => ?_⟩
  have := write_ends hwf hc (fuel := fuel) (k := k) (E := fun _ => False) (fun h => by omega) (sure_wrE hc)
    (sures_outs hc (hF fuel (by omega))) (fun h => by omega) st wog
  cases e : write w fuel r k st wog with
  | ok x => exact ⟨x, rfl⟩
  | error e' =>
    rw [e] at this
    cases this with
    | error h => exact h.elim

/-! ### what evaluates can be written -/

/-- the gates with a stored bit are writable -/
def StoredW (w : World) (r : Ref) (st : EvSt) : Prop := ∀ g, st.evaled g ≠ none → Writable w r g

section
variable {w : World} {r : Ref} {c : Circuit}

theorem StoredW.record {st : EvSt} (h : StoredW w r st) {g : GateId} (hg : Writable w r g) (c : Circuit) (b : Bool) :
    StoredW w r (st.record c g b) := by
  intro x hx
  simp only [EvSt.record, Map.insert_apply] at hx
  split at hx
  · next e => subst e; exact hg
  · exact h x hx

theorem StoredW.release {st st' : EvSt} (h : StoredW w r st) {g : GateId} (hr : st.release g = .ok st') : StoredW w r st' := by
  unfold EvSt.release at hr
  split at hr
  · cases hr
  · cases hr
  · simp only at hr
    split at hr
    · cases hr
      intro x hx
      simp only [Map.remove_apply] at hx
      split at hx
      · exact absurd rfl hx
      · exact h x hx
    · cases hr; exact h

theorem StoredW.bit {st : EvSt} (h : StoredW w r st) {g : GateId} {b : Bool} (hb : st.bit g = .ok b) : Writable w r g := by
  refine h g fun e => ?_
  rw [EvSt.bit, e] at hb
  cases hb

theorem StoredW.releaseAll (ids : List GateId) : ∀ {st st' : EvSt}, StoredW w r st → CC.releaseAll ids st = .ok st' →
    StoredW w r st' := by
  induction ids with
  | nil => intro st st' h hr; cases hr; exact h
  | cons x xs ih =>
    intro st st' h hr
    obtain ⟨s1, h1, h2⟩ := ok_bind hr
    exact ih (h.release h1) h2

/-- a step of the evaluator stores only bits of writable gates -/
def StepW (w : World) (r : Ref) (eg : GateId → EvSt → Except Err EvSt) : Prop :=
  ∀ g st st', StoredW w r st → eg g st = .ok st' → StoredW w r st'

theorem StepW.ensure {eg} (heg : StepW w r eg) {st st' : EvSt} (h : StoredW w r st) {g : GateId}
    (he : ensure eg g st = .ok st') : StoredW w r st' := by
  unfold CC.ensure at he
  split at he
  · exact heg g st st' h he
  · cases he; exact h

theorem StepW.collect {eg} (heg : StepW w r eg) (ids : List GateId) : ∀ {st st' : EvSt} {bits : List Bool}, StoredW w r st →
    collectBits eg ids st = .ok (bits, st') → StoredW w r st' ∧ bits.length = ids.length ∧ ∀ x ∈ ids, Writable w r x := by
  induction ids with
  | nil => intro st st' bits h he; cases he; exact ⟨h, rfl, by simp⟩
  | cons x xs ih =>
    intro st st' bits h he
    obtain ⟨s1, h1, he⟩ := ok_bind he
    obtain ⟨b, h2, he⟩ := ok_bind he
    obtain ⟨⟨bs, s2⟩, h3, he⟩ := ok_bind he
    cases he
    have hs1 := heg.ensure h h1
    obtain ⟨k1, k2, k3⟩ := ih hs1 h3
    refine ⟨k1, by simp [k2], fun y hy => ?_⟩
    rcases List.mem_cons.mp hy with rfl | hy
    · exact hs1.bit h2
    · exact k3 y hy

theorem StepW.binary {eg} (heg : StepW w r eg) {op : Bool → Bool → Bool} {g x y : GateId}
    (hop : Writable w r x → Writable w r y → Writable w r g) {st st' : EvSt}
    (h : StoredW w r st) (he : evalBinary c eg op g x y st = .ok st') : StoredW w r st' := by
  unfold evalBinary at he
  obtain ⟨s1, h1, he⟩ := ok_bind he
  obtain ⟨s2, h2, he⟩ := ok_bind he
  obtain ⟨a, h3, he⟩ := ok_bind he
  obtain ⟨b, h4, he⟩ := ok_bind he
  obtain ⟨s3, h5, he⟩ := ok_bind he
  obtain ⟨s4, h6, he⟩ := ok_bind he
  cases he
  have k2 := heg.ensure (heg.ensure h h1) h2
  exact ((k2.release h5).release h6).record (hop (k2.bit h3) (k2.bit h4)) c _

theorem recordOutputs_stored (c : Circuit) (first : GateId) (outs : List Bool) (k : Nat) : ∀ (i : Nat) {st st' : EvSt},
    StoredW w r st → (∀ j, i ≤ j → j < i + k → Writable w r (first + j)) → recordOutputs c first outs i k st = .ok st' →
    StoredW w r st' := by
  induction k with
  | zero => intro i st st' h _ he; cases he; exact h
  | succ k ih =>
    intro i st st' h hv he
    unfold recordOutputs at he
    cases e : outs[i]? with
    | none => rw [e] at he; cases he
    | some b =>
      rw [e] at he
      exact ih (i + 1) (h.record (hv i (Nat.le_refl _) (by omega)) c b) (fun j h1 h2 => hv j (by omega) (by omega)) he

theorem seedInputs_stored (hwf : WFc c) (hc : w.circs[r]? = some c) (bs : List Bool) : ∀ (i : Nat) {st st' : EvSt},
    StoredW w r st → seedInputs c i bs st = .ok st' → StoredW w r st' := by
  induction bs with
  | nil => intro i st st' h he; cases he; exact h
  | cons b bs ih =>
    intro i st st' h he
    unfold seedInputs at he
    cases e : c.inputMap i with
    | none => rw [e] at he; cases he
    | some g =>
      rw [e] at he
      exact ih (i + 1) (h.record (.plain hc ((hwf.input_iff i g).mp e) (by rintro _ _ _ _ _ ⟨⟩) (by simp [Gate.operands])) c b) he

theorem StepW.outputs {eg} (heg : StepW w r eg) {ins : List Bool} (k : Nat) : ∀ (i : Nat) {st : EvSt} {outs : List Bool},
    StoredW w r st → evalOutputs c eg ins i k st = .ok outs →
    ∀ j o, i ≤ j → j < i + k → c.outputMap j = some o → Writable w r o := by
  induction k with
  | zero => intro i st outs _ _ j o h1 h2; omega
  | succ k ih =>
    intro i st outs h he j o h1 h2 hj
    unfold evalOutputs at he
    obtain ⟨⟨b, s1⟩, h3, he⟩ := ok_bind he
    obtain ⟨bs, h4, he⟩ := ok_bind he
    have key : StoredW w r s1 ∧ ∀ o, c.outputMap i = some o → Writable w r o := by
      unfold evalSingleOutput at h3
      split at h3
      · cases h3
      split at h3
      · cases h3
      cases e : c.outputMap i with
      | none => rw [e] at h3; cases h3
      | some g =>
        rw [e] at h3
        simp only at h3
        split at h3
        · next e2 =>
          cases h3
          refine ⟨h, fun o ho => ?_⟩
          cases ho
          exact h g (by rw [e2]; exact Option.some_ne_none _)
        · obtain ⟨s2, k1, h3⟩ := ok_bind h3
          obtain ⟨b', k2, h3⟩ := ok_bind h3
          cases h3
          have := heg g st s1 h k1
          refine ⟨this, fun o ho => ?_⟩
          cases ho
          exact this.bit k2
    by_cases e : j = i
    · subst e
      exact key.2 o hj
    · exact ih (i + 1) key.1 h4 j o (by omega) (by omega) hj

theorem StepW.outputWith {eg} (heg : StepW w r eg) (hwf : WFc c) (hc : w.circs[r]? = some c) {ins outs : List Bool}
    (he : evalOutputWith c eg ins = .ok outs) : ins.length = c.inputLen ∧ ∀ i o, c.outputMap i = some o → Writable w r o := by
  unfold evalOutputWith at he
  split at he
  · cases he
  next hl =>
  obtain ⟨st, h1, he⟩ := ok_bind he
  refine ⟨Classical.byContradiction hl, fun i o hi => ?_⟩
  have hs : StoredW w r st := seedInputs_stored hwf hc ins 0 (fun g hg => absurd rfl hg) h1
  have := (hwf.output_dom i).mp (by rw [hi]; rfl)
  exact heg.outputs c.outputLen 0 hs he i o (by omega) (by omega) hi

end

theorem evalGate_stored {w : World} (hw : WFw w) (fuel : Nat) : ∀ {r : Ref} {c : Circuit}, w.circs[r]? = some c →
    StepW w r (evalGate w fuel r) := by
  induction fuel with
  | zero => intro r c _ g st st' _ he; cases he
  | succ fuel ih =>
    intro r c hc g st st' h he
    have hwf := hw.circ r c hc
    have heg := ih hc
    unfold evalGate at he
    rw [bind_of_ok (circuit_of hc)] at he
    have two {gate : Gate} {x y : GateId} (hg : c.gateMap g = some gate) (ho : gate.operands = [x, y])
        (hne : ∀ nIn nOut ids oi mid, gate ≠ .module nIn nOut ids oi mid) (hx : Writable w r x) (hy : Writable w r y) :
        Writable w r g := by
      refine .plain hc hg hne fun z hz => ?_
      rw [ho] at hz
      rcases List.mem_cons.mp hz with rfl | hz
      · exact hx
      · rw [List.mem_singleton.mp hz]; exact hy
    cases hg : c.gateMap g with
    | none => rw [hg] at he; cases he
    | some gate =>
      rw [hg] at he
      cases gate with
      | input k => cases he; exact h
      | const v =>
        cases he
        exact h.record (.plain hc hg (by rintro _ _ _ _ _ ⟨⟩) (by simp [Gate.operands])) c v
      | not x =>
        obtain ⟨s1, h1, he⟩ := ok_bind he
        obtain ⟨b, h2, he⟩ := ok_bind he
        obtain ⟨s2, h3, he⟩ := ok_bind he
        cases he
        have k1 := heg.ensure h h1
        refine (k1.release h3).record (.plain hc hg (by rintro _ _ _ _ _ ⟨⟩) fun y hy => ?_) c _
        rw [List.mem_singleton.mp hy]
        exact k1.bit h2
      | xor x y => exact heg.binary (two hg rfl (by rintro _ _ _ _ _ ⟨⟩)) h he
      | and x y => exact heg.binary (two hg rfl (by rintro _ _ _ _ _ ⟨⟩)) h he
      | or x y => exact heg.binary (two hg rfl (by rintro _ _ _ _ _ ⟨⟩)) h he
      | module nIn nOut ids oi mid =>
        obtain ⟨⟨bits, s1⟩, h1, he⟩ := ok_bind he
        obtain ⟨k1, k2, k3⟩ := heg.collect ids h h1
        simp only at he
        cases hm : w.module? c mid with
        | none => rw [hm] at he; cases he
        | some mr =>
          rw [hm] at he
          obtain ⟨mc, h2, he⟩ := ok_bind he
          have hmc := circuit_ok h2
          obtain ⟨outs, h3, he⟩ := ok_bind he
          obtain ⟨s2, h4, he⟩ := ok_bind he
          obtain ⟨j1, j2⟩ := (ih hmc).outputWith (hw.circ mr mc hmc) hmc h3
          split at he
          · cases he
          refine recordOutputs_stored c _ outs nOut 0 (k1.releaseAll ids h4) (fun j _ hj => ?_) he
          obtain ⟨_, _, hgrp⟩ := hwf.group g nIn nOut ids oi mid hg
          exact .call hc (hgrp j (by omega)) k3 hm hmc (by omega) j2

theorem writable_of_eval {w : World} (hw : WFw w) {r : Ref} {c : Circuit} (hc : w.circs[r]? = some c) {fuel : Nat} {ins outs : List Bool}
    (he : evalOutput w fuel r ins = .ok outs) : ∀ i o, c.outputMap i = some o → Writable w r o := by
  unfold evalOutput at he
  rw [bind_of_ok (circuit_of hc)] at he
  exact ((evalGate_stored hw fuel hc).outputWith (hw.circ r c hc) hc he).2

end CC.Bristol
