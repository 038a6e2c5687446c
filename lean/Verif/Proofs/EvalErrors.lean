import Verif.Spec.Failure
import Verif.Proofs.Same
import Verif.Proofs.Api
import Verif.Proofs.EvalSound

/-!
# The errors evaluation can end with
-/

namespace CC
open Spec

/-! ### called circuits have the outputs the call expects -/

/-- the module gates of `c` expect at most the outputs their callee has -/
def CallsFit (w : World) (c : Circuit) : Prop :=
  ∀ g nIn nOut ids oi mid, c.gateMap g = some (.module nIn nOut ids oi mid) →
    ∃ mr mc, w.module? c mid = some mr ∧ w.circs[mr]? = some mc ∧ nOut ≤ mc.outputLen

theorem addDependence_gateMap (c : Circuit) (x g : GateId) :
    (c.addDependence x g).gateMap = c.gateMap ∧ (c.addDependence x g).storage = c.storage := by
  unfold Circuit.addDependence
  split <;> exact ⟨rfl, rfl⟩

theorem addModuleDeps_gateMap (ids outs : List GateId) : ∀ c : Circuit,
    (c.addModuleDeps ids outs).gateMap = c.gateMap ∧ (c.addModuleDeps ids outs).storage = c.storage := by
  have h1 (x : GateId) (outs : List GateId) : ∀ c : Circuit,
      (outs.foldl (fun c o => c.addDependence x o) c).gateMap = c.gateMap ∧
        (outs.foldl (fun c o => c.addDependence x o) c).storage = c.storage := by
    induction outs with
    | nil => exact fun _ => ⟨rfl, rfl⟩
    | cons o outs ih =>
      intro c
      have := addDependence_gateMap c x o
      exact ⟨(ih _).1.trans this.1, (ih _).2.trans this.2⟩
  unfold Circuit.addModuleDeps
  induction ids with
  | nil => exact fun _ => ⟨rfl, rfl⟩
  | cons x ids ih =>
    intro c
    exact ⟨(ih _).1.trans (h1 x outs c).1, (ih _).2.trans (h1 x outs c).2⟩

theorem CallsFit.same {w : World} {c d : Circuit} (h : CallsFit w c) (h1 : d.gateMap = c.gateMap)
    (h2 : d.storage = c.storage) : CallsFit w d := by
  intro g nIn nOut ids oi mid hg
  rw [h1] at hg
  obtain ⟨mr, mc, k1, k2⟩ := h g nIn nOut ids oi mid hg
  exact ⟨mr, mc, by rw [← k1]; unfold World.module?; rw [h2], k2⟩

theorem CallsFit.add {w : World} {c d : Circuit} (h : CallsFit w c) {k : GateId} {gate : Gate}
    (h1 : d.gateMap = c.gateMap.insert k gate) (h2 : d.storage = c.storage)
    (hg : ∀ nIn nOut ids oi mid, gate = .module nIn nOut ids oi mid →
      ∃ mr mc, w.module? c mid = some mr ∧ w.circs[mr]? = some mc ∧ nOut ≤ mc.outputLen) : CallsFit w d := by
  have e (mid : ModuleId) : w.module? d mid = w.module? c mid := by unfold World.module?; rw [h2]
  intro g nIn nOut ids oi mid hx
  rw [h1, Map.insert_apply] at hx
  rw [e]
  split at hx
  · cases hx
    exact hg nIn nOut ids oi mid rfl
  · exact h g nIn nOut ids oi mid hx

theorem callsFit_modules {w : World} {nIn nOut : Nat} {ids : List GateId} {mid : ModuleId} {s : StoreRef}
    (hm : ∀ d : Circuit, d.storage = s → ∃ mr mc, w.module? d mid = some mr ∧ w.circs[mr]? = some mc ∧ nOut ≤ mc.outputLen)
    (k : Nat) : ∀ (c : Circuit) (i : Nat), c.storage = s → CallsFit w c →
      CallsFit w (c.addModuleGates nIn nOut ids mid i k).2 ∧ (c.addModuleGates nIn nOut ids mid i k).2.storage = s := by
  induction k with
  | zero => exact fun c i hs h => ⟨h, hs⟩
  | succ k ih =>
    intro c i hs h
    exact ih _ (i + 1) hs (h.add rfl rfl fun _ _ _ _ _ e => by cases e; exact hm c hs)

theorem callsFit_inv (w : World) :
    MethodInvOn (fun c m mid => ∃ mr, w.module? c mid = some mr ∧ w.circs[mr]? = some m) (CallsFit w) where
  new s := fun g _ _ _ _ _ hg => by cases hg
  input c h := h.add (gate := .input c.inputLen) rfl rfl (by rintro _ _ _ _ _ ⟨⟩)
  output c g h := by
    unfold Circuit.output
    split
    · exact h
    · exact h.same rfl rfl
  constant c v h := h.add (gate := .const v) rfl rfl (by rintro _ _ _ _ _ ⟨⟩)
  not c x h := by
    have := addDependence_gateMap (c.addGate (.not x)).2 x c.gateIndex
    exact h.add (gate := .not x) this.1 this.2 (by rintro _ _ _ _ _ ⟨⟩)
  xor c l r h := by
    have h1 := addDependence_gateMap (c.addGate (.xor l r)).2 l c.gateIndex
    have h2 := addDependence_gateMap ((c.addGate (.xor l r)).2.addDependence l c.gateIndex) r c.gateIndex
    exact h.add (gate := .xor l r) (h2.1.trans h1.1) (h2.2.trans h1.2) (by rintro _ _ _ _ _ ⟨⟩)
  and c l r h := by
    have h1 := addDependence_gateMap (c.addGate (.and l r)).2 l c.gateIndex
    have h2 := addDependence_gateMap ((c.addGate (.and l r)).2.addDependence l c.gateIndex) r c.gateIndex
    exact h.add (gate := .and l r) (h2.1.trans h1.1) (h2.2.trans h1.2) (by rintro _ _ _ _ _ ⟨⟩)
  or c l r h := by
    have h1 := addDependence_gateMap (c.addGate (.or l r)).2 l c.gateIndex
    have h2 := addDependence_gateMap ((c.addGate (.or l r)).2.addDependence l c.gateIndex) r c.gateIndex
    exact h.add (gate := .or l r) (h2.1.trans h1.1) (h2.2.trans h1.2) (by rintro _ _ _ _ _ ⟨⟩)
  module c m mid ids h _ hq := by
    obtain ⟨mr, h1, h2⟩ := hq
    unfold Circuit.module
    split
    · exact h
    split
    · exact h
    simp only
    have hm : ∀ d : Circuit, d.storage = c.storage →
        ∃ mr mc, w.module? d mid = some mr ∧ w.circs[mr]? = some mc ∧ m.outputLen ≤ mc.outputLen := by
      intro d hd
      exact ⟨mr, m, by rw [← h1]; unfold World.module?; rw [hd], h2, Nat.le_refl _⟩
    generalize hc1 : ({ c with
      numWire := c.numWire + (m.numWire - m.inputLen - m.outputLen)
      numGate := c.numGate + m.numGate
      numConst := c.numConst + m.numConst } : Circuit) = c1
    have hs1 : c1.storage = c.storage := by rw [← hc1]
    have hg1 : c1.gateMap = c.gateMap := by rw [← hc1]
    have := callsFit_modules (nIn := m.inputLen) (ids := ids) hm m.outputLen c1 0 hs1 (h.same hg1 hs1)
    have hd := addModuleDeps_gateMap ids (c1.addModuleGates m.inputLen m.outputLen ids mid 0 m.outputLen).1
      (c1.addModuleGates m.inputLen m.outputLen ids mid 0 m.outputLen).2
    exact this.1.same hd.1 hd.2

theorem callsFit_step {w : World} (hw : WFw w) (h : AllC (CallsFit w) w) (op : Op) :
    AllC (CallsFit (op.call w).2) (op.call w).2 := by
  intro d hd
  have hg := good_op op w hw
  have h3 := (callsFit_inv w).call op (fun r mr c m mid _ k1 k2 => ⟨mr, k1, k2⟩) h d hd
  intro g nIn nOut ids oi mid hx
  obtain ⟨mr, mc, k1, k2, k3⟩ := h3 g nIn nOut ids oi mid hx
  obtain ⟨mc', k4, k5⟩ := hg.2.circs mr mc k2
  exact ⟨mr, mc', hg.2.module? rfl k1, k4, Nat.le_trans k3 k5.outputLen⟩

theorem callsFit_reachable {w : World} (h : Reachable w) : AllC (CallsFit w) w := by
  suffices k : WFw w ∧ AllC (CallsFit w) w from k.2
  obtain ⟨evs, hr⟩ := h
  induction hr with
  | nil => exact ⟨.empty, fun _ h => absurd h List.not_mem_nil⟩
  | @step w evs op _ ih => exact ⟨(good_op op w ih.1).1, callsFit_step ih.1 ih.2 op⟩

/-! ### evaluation -/

/-- a result satisfying `P`, or an error satisfying `E` -/
inductive Ends {α : Type} (P : α → Prop) (E : Err → Prop) : Except Err α → Prop where
  | ok {a} : P a → Ends P E (.ok a)
  | error {e} : E e → Ends P E (.error e)

theorem Ends.bind {α β : Type} {P : α → Prop} {Q : β → Prop} {E : Err → Prop} {x : Except Err α} {f : α → Except Err β}
    (h : Ends P E x) (hf : ∀ a, P a → Ends Q E (f a)) : Ends Q E (x >>= f) := by
  cases h with
  | ok h => exact hf _ h
  | error h => exact .error h

theorem Ends.mono {α : Type} {P Q : α → Prop} {E F : Err → Prop} {x : Except Err α} (h : Ends P E x)
    (hp : ∀ a, P a → Q a) (he : ∀ e, E e → F e) : Ends Q F x := by
  cases h with
  | ok h => exact .ok (hp _ h)
  | error h => exact .error (he _ h)

/-- stored bits have a read counter and vice versa; only gates without readers have counter 0 -/
structure Counted (c : Circuit) (st : EvSt) : Prop where
  both : ∀ x, (st.evaled x).isSome = (st.numDep x).isSome
  zero : ∀ x, st.numDep x = some 0 → c.dependedGates x = []

theorem Counted.record {c : Circuit} {st : EvSt} (h : Counted c st) (g : GateId) (b : Bool) : Counted c (st.record c g b) := by
  constructor
  · intro x
    simp only [EvSt.record, Map.insert_apply]
    split
    · rfl
    · exact h.both x
  · intro x hx
    simp only [EvSt.record, Map.insert_apply] at hx
    split at hx
    · next e => subst e; exact List.length_eq_zero_iff.mp (Option.some.inj hx)
    · exact h.zero x hx

theorem Counted.release {c : Circuit} {st : EvSt} (h : Counted c st) {x : GateId} (hx : c.dependedGates x ≠ []) :
    (∃ st', st.release x = .ok st' ∧ Counted c st' ∧ ∀ y, y ≠ x → st'.evaled y = st.evaled y) ∨
      st.release x = .error (.panic .missingKey) ∧ st.evaled x = none := by
  unfold EvSt.release
  cases hn : st.numDep x with
  | none =>
    right
    have := h.both x
    rw [hn] at this
    exact ⟨rfl, by simpa using this⟩
  | some n =>
    left
    cases n with
    | zero => exact absurd (h.zero x hn) hx
    | succ n =>
      simp only
      split
      · refine ⟨_, rfl, ⟨fun y => ?_, fun y hy => ?_⟩, fun y hy => ?_⟩
        · simp only [Map.remove, Map.insert]
          split
          · rfl
          · exact h.both y
        · simp only [Map.remove, Map.insert] at hy
          split at hy
          · cases hy
          · exact h.zero y hy
        · simp only [Map.remove]
          rw [if_neg hy]
      · next hne =>
        refine ⟨_, rfl, ⟨fun y => ?_, fun y hy => ?_⟩, fun y hy => rfl⟩
        · simp only [Map.insert]
          split
          · next e =>
            subst e
            have := h.both y
            rw [hn] at this
            exact this
          · exact h.both y
        · simp only [Map.insert] at hy
          split at hy
          · exact absurd (Option.some.inj hy) hne
          · exact h.zero y hy

section
variable {w : World} {r : Ref} {c : Circuit}

/-- a step of the evaluator fails for a reason, or stores the bit of the gate unless it is an input -/
def EvF (w : World) (r : Ref) (c : Circuit) (eg : GateId → EvSt → Except Err EvSt) : Prop :=
  ∀ g st, Counted c st → Ends (fun st' => Counted c st' ∧ ((st'.evaled g).isSome ∨ ∃ k, c.gateMap g = some (.input k)))
    (fun e => e = .unknownGate g ∧ c.gateMap g = none ∨ Failure w r e) (eg g st)

theorem EvF.ensure {eg} (heg : EvF w r c eg) (hc : w.circs[r]? = some c) {g : GateId} {gate : Gate}
    (hg : c.gateMap g = some gate) {x : GateId} (hx : x ∈ gate.operands) {st : EvSt} (h : Counted c st) :
    Ends (fun st' => Counted c st' ∧ ((st'.evaled x).isSome ∨ ∃ k, c.gateMap x = some (.input k))) (Failure w r)
      (ensure eg x st) := by
  unfold CC.ensure
  split
  · refine (heg x st h).mono (fun _ h => h) ?_
    rintro e (⟨rfl, hn⟩ | he)
    · exact .operand hc hg hx hn
    · exact he
  · next e => exact .ok ⟨h, Or.inl (by rw [e]; rfl)⟩

theorem bit_ends {st : EvSt} {x : GateId} {E : Err → Prop} (h : st.evaled x = none → E (.unknownEvaledBit x)) :
    Ends (fun _ => (st.evaled x).isSome) E (st.bit x) := by
  unfold EvSt.bit
  cases e : st.evaled x with
  | none => exact .error (h e)
  | some b => exact .ok rfl

theorem dep_ne {hwf : WFc c} {g x : GateId} {gate : Gate} (hg : c.gateMap g = some gate) (hx : x ∈ gate.operands) :
    c.dependedGates x ≠ [] := by
  intro h
  have h1 := hwf.dep x g
  rw [h, Circuit.occ, hg] at h1
  have := List.count_pos_iff.mpr hx
  simp at h1
  omega

theorem EvF.binary {eg} (heg : EvF w r c eg) (hwf : WFc c) (hc : w.circs[r]? = some c) {g x y : GateId} {gate : Gate}
    (hg : c.gateMap g = some gate) (hgate : gate = .xor x y ∨ gate = .and x y ∨ gate = .or x y) (op : Bool → Bool → Bool)
    {st : EvSt} (h : Counted c st) :
    Ends (fun st' => Counted c st' ∧ ((st'.evaled g).isSome ∨ ∃ k, c.gateMap g = some (.input k))) (Failure w r)
      (evalBinary c eg op g x y st) := by
  have hx : x ∈ gate.operands := by rcases hgate with rfl | rfl | rfl <;> simp [Gate.operands]
  have hy : y ∈ gate.operands := by rcases hgate with rfl | rfl | rfl <;> simp [Gate.operands]
  unfold evalBinary
  refine (heg.ensure hc hg hx h).bind fun s1 h1 => ?_
  refine (heg.ensure hc hg hy h1.1).bind fun s2 h2 => ?_
  refine (bit_ends fun _ => .left hc hg hgate).bind fun _ e1 => ?_
  refine (bit_ends fun e => ?_).bind fun _ e2 => ?_
  · rcases h2.2 with k | ⟨k, hk⟩
    · rw [e] at k; cases k
    · exact .input hc hk
  rcases h2.1.release (dep_ne (hwf := hwf) hg hx) with ⟨s3, k1, k2, k3⟩ | ⟨k1, k2⟩
  · rw [bind_of_ok k1]
    rcases k2.release (dep_ne (hwf := hwf) hg hy) with ⟨s4, j1, j2, j3⟩ | ⟨j1, j2⟩
    · rw [bind_of_ok j1]
      exact .ok ⟨j2.record g _, Or.inl (by simp [EvSt.record])⟩
    · rw [j1]
      by_cases hxy : y = x
      · subst hxy
        exact .error (.twice hc hg hgate)
      · rw [k3 y hxy] at j2
        rw [j2] at e2
        cases e2
  · rw [k2] at e1
    cases e1

theorem EvF.collect {eg} (heg : EvF w r c eg) (hc : w.circs[r]? = some c) {g : GateId} {gate : Gate}
    (hg : c.gateMap g = some gate) (ids : List GateId) : (∀ x ∈ ids, x ∈ gate.operands) → ∀ {st : EvSt}, Counted c st →
    Ends (fun p => Counted c p.2 ∧ p.1.length = ids.length ∧ ∀ x, ids = [x] → (p.2.evaled x).isSome) (Failure w r)
      (collectBits eg ids st) := by
  induction ids with
  | nil => exact fun _ st h => .ok ⟨h, rfl, by rintro _ ⟨⟩⟩
  | cons x ids ih =>
    intro hin st h
    unfold collectBits
    refine (heg.ensure hc hg (hin x List.mem_cons_self) h).bind fun s1 h1 => ?_
    refine (bit_ends fun e => ?_).bind fun b e1 => ?_
    · rcases h1.2 with k | ⟨k, hk⟩
      · rw [e] at k; cases k
      · exact .input hc hk
    cases ids with
    | nil =>
      refine .ok ⟨h1.1, rfl, ?_⟩
      rintro _ ⟨⟩
      exact e1
    | cons y ids =>
      refine (ih (fun z hz => hin z (List.mem_cons_of_mem _ hz)) h1.1).bind fun p h2 => ?_
      exact .ok ⟨h2.1, by simp only [List.length_cons, h2.2.1], by rintro _ ⟨⟩⟩

theorem releaseAll_ends {E : Err → Prop} (ids : List GateId) : (∀ x ∈ ids, c.dependedGates x ≠ []) → ∀ {st : EvSt},
    Counted c st → (2 ≤ ids.length → E (.panic .missingKey)) → (∀ x, ids = [x] → (st.evaled x).isSome) →
    Ends (Counted c) E (releaseAll ids st) := by
  have key (ids : List GateId) : (∀ x ∈ ids, c.dependedGates x ≠ []) → ∀ {st : EvSt}, Counted c st →
      E (.panic .missingKey) → Ends (Counted c) E (releaseAll ids st) := by
    induction ids with
    | nil => exact fun _ st h _ => .ok h
    | cons x ids ih =>
      intro hin st h he
      unfold releaseAll
      rcases h.release (hin x List.mem_cons_self) with ⟨s, k1, k2, _⟩ | ⟨k1, _⟩
      · rw [bind_of_ok k1]
        exact ih (fun z hz => hin z (List.mem_cons_of_mem _ hz)) k2 he
      · rw [k1]
        exact .error he
  intro hin st h he h1
  match ids with
  | [] => exact .ok h
  | [x] =>
    unfold releaseAll
    rcases h.release (hin x List.mem_cons_self) with ⟨s, k1, k2, _⟩ | ⟨_, k2⟩
    · rw [bind_of_ok k1]
      exact .ok k2
    · have := h1 x rfl
      rw [k2] at this
      cases this
  | x :: y :: ids => exact key _ hin h (he (by simp))

theorem recordOutputs_ends {E : Err → Prop} (first : GateId) {outs : List Bool} (k : Nat) : ∀ {i : Nat} {st : EvSt},
    i + k ≤ outs.length → Counted c st →
    Ends (fun st' => Counted c st' ∧ (∀ x, (st.evaled x).isSome → (st'.evaled x).isSome) ∧
      ∀ j, i ≤ j → j < i + k → (st'.evaled (first + j)).isSome) E (recordOutputs c first outs i k st) := by
  induction k with
  | zero => exact fun hl h => .ok ⟨h, fun _ h => h, fun _ _ _ => by omega⟩
  | succ k ih =>
    intro i st hl h
    unfold recordOutputs
    rw [List.getElem?_eq_getElem (by omega)]
    refine (ih (i := i + 1) (by omega) (h.record _ _)).mono (fun s hs => ⟨hs.1, fun x hx => ?_, fun j h1 h2 => ?_⟩) fun _ h => h
    · refine hs.2.1 x ?_
      simp only [EvSt.record, Map.insert_apply]
      split
      · rfl
      · exact hx
    · by_cases hj : j = i
      · subst hj
        exact hs.2.1 _ (by simp [EvSt.record])
      · exact hs.2.2 j (by omega) (by omega)

theorem seedInputs_ends {E : Err → Prop} (hwf : WFc c) (bs : List Bool) : ∀ {i : Nat} {st : EvSt}, i + bs.length ≤ c.inputLen →
    Counted c st → Ends (Counted c) E (seedInputs c i bs st) := by
  induction bs with
  | nil => exact fun _ h => .ok h
  | cons b bs ih =>
    intro i st hl h
    simp only [List.length_cons] at hl
    unfold seedInputs
    obtain ⟨g, hg⟩ := Option.isSome_iff_exists.mp ((hwf.input_dom i).mpr (by omega))
    rw [hg]
    exact ih (by omega) (h.record g b)

theorem EvF.outputs {eg} (heg : EvF w r c eg) (hwf : WFc c) (hc : w.circs[r]? = some c) {ins : List Bool}
    (hl : ins.length = c.inputLen) (k : Nat) : ∀ {i : Nat} {st : EvSt}, i + k ≤ c.outputLen → Counted c st →
    Ends (fun outs => outs.length = k) (Failure w r) (evalOutputs c eg ins i k st) := by
  induction k with
  | zero => exact fun _ _ => .ok rfl
  | succ k ih =>
    intro i st hi h
    unfold evalOutputs
    have h1 : Ends (fun p : Bool × EvSt => Counted c p.2) (Failure w r) (evalSingleOutput c eg ins i st) := by
      unfold evalSingleOutput
      rw [if_neg (by simp [hl]), if_neg (by omega)]
      obtain ⟨g, hg⟩ := Option.isSome_iff_exists.mp ((hwf.output_dom i).mpr (by omega))
      rw [hg]
      simp only
      split
      · exact .ok h
      · obtain ⟨gate, hgate⟩ := hwf.some_of_lt (hwf.output_gate i g hg)
        refine Ends.bind (P := fun s => Counted c s ∧ ((s.evaled g).isSome ∨ ∃ k, c.gateMap g = some (.input k))) ?_ fun s hs => ?_
        · refine (heg g st h).mono (fun _ h => h) ?_
          rintro e (⟨_, hn⟩ | he)
          · rw [hgate] at hn; cases hn
          · exact he
        · refine (bit_ends fun e => ?_).bind fun b _ => .ok hs.1
          rcases hs.2 with k | ⟨k, hk⟩
          · rw [e] at k; cases k
          · exact .input hc hk
    refine h1.bind fun p hp => ?_
    refine (ih (by omega) hp).bind fun bs hbs => ?_
    exact .ok (by simp only [List.length_cons, hbs])

theorem EvF.outputWith {eg} (heg : EvF w r c eg) (hwf : WFc c) (hc : w.circs[r]? = some c) {ins : List Bool}
    (hl : ins.length = c.inputLen) :
    Ends (fun outs => outs.length = c.outputLen) (Failure w r) (evalOutputWith c eg ins) := by
  unfold evalOutputWith
  rw [if_neg (by simp [hl])]
  refine (seedInputs_ends hwf ins (by omega) ⟨fun _ => rfl, fun _ h => by cases h⟩).bind fun st h => ?_
  exact heg.outputs hwf hc hl _ (by omega) h

end

theorem evalGate_ends {w : World} (hw : WFw w) (hfit : AllC (CallsFit w) w) (fuel : Nat) :
    ∀ (r : Ref) c, w.circs[r]? = some c → EvF w r c (evalGate w fuel r) := by
  induction fuel with
  | zero => exact fun r c _ g st _ => .error (Or.inr .depth)
  | succ fuel ih =>
    intro r c hc g st h
    have hwf := hw.circ r c hc
    have heg := ih r c hc
    unfold evalGate
    rw [bind_of_ok (circuit_of hc)]
    cases hg : c.gateMap g with
    | none => exact .error (Or.inl ⟨rfl, rfl⟩)
    | some gate =>
      simp only [reduceCtorEq, and_false, false_or]
      cases gate with
      | input k => exact .ok ⟨h, Or.inr ⟨k, rfl⟩⟩
      | const v => exact .ok ⟨h.record g v, Or.inl (by simp [EvSt.record])⟩
      | not x =>
        have hx : x ∈ (Gate.not x).operands := by simp [Gate.operands]
        simp only
        refine (heg.ensure hc hg hx h).bind fun s1 h1 => ?_
        refine (bit_ends fun e => ?_).bind fun b e1 => ?_
        · rcases h1.2 with k | ⟨k, hk⟩
          · rw [e] at k; cases k
          · exact .input hc hk
        rcases h1.1.release (dep_ne (hwf := hwf) hg hx) with ⟨s3, k1, k2, k3⟩ | ⟨k1, k2⟩
        · rw [bind_of_ok k1]
          exact .ok ⟨k2.record g _, Or.inl (by simp [EvSt.record])⟩
        · rw [k2] at e1
          cases e1
      | xor x y => exact (heg.binary hwf hc hg (Or.inl rfl) _ h).mono (fun _ h => hg ▸ h) fun _ h => h
      | and x y => exact (heg.binary hwf hc hg (Or.inr (Or.inl rfl)) _ h).mono (fun _ h => hg ▸ h) fun _ h => h
      | or x y => exact (heg.binary hwf hc hg (Or.inr (Or.inr rfl)) _ h).mono (fun _ h => hg ▸ h) fun _ h => h
      | module nIn nOut ids oi mid =>
        simp only
        refine (heg.collect hc hg ids (fun x hx => hx) h).bind fun p hp => ?_
        obtain ⟨bits, s1⟩ := p
        obtain ⟨h1, hlen, hone⟩ := hp
        obtain ⟨mr, mc, k1, k2, k3⟩ := hfit.get hc g nIn nOut ids oi mid hg
        rw [k1]
        simp only
        rw [bind_of_ok (circuit_of k2)]
        by_cases hin : bits.length = mc.inputLen
        · refine Ends.bind (P := fun outs => outs.length = mc.outputLen) ?_ fun outs ho => ?_
          · refine ((ih mr mc k2).outputWith (hw.circ mr mc k2) k2 hin).mono (fun _ h => h) fun e he => ?_
            exact .inner hc ⟨g, nIn, nOut, ids, oi, mid, hg, k1⟩ he
          refine (releaseAll_ends ids (fun x hx => dep_ne (hwf := hwf) hg hx) h1 (fun h2 => .arguments hc hg h2) hone).bind fun s2 h2 => ?_
          obtain ⟨q1, q2, q3⟩ := hwf.group g nIn nOut ids oi mid hg
          rw [if_neg (by omega)]
          refine (recordOutputs_ends (g - oi) nOut (i := 0) (by omega) h2).mono (fun s hs => ⟨hs.1, Or.inl ?_⟩) fun _ h => h
          have := hs.2.2 oi (by omega) (by omega)
          rwa [Nat.sub_add_cancel q2] at this
        · have e : evalOutputWith mc (evalGate w fuel mr) bits = .error (.panic .assertFailed) := by
            unfold evalOutputWith
            rw [if_pos hin]
          rw [e]
          refine .error (.arity hc hg k1 k2 ?_)
          rw [← hlen]
          exact hin

theorem evalOutput_ends {w : World} (hw : WFw w) (hfit : AllC (CallsFit w) w) {r : Ref} {c : Circuit}
    (hc : w.circs[r]? = some c) {fuel : Nat} {ins : List Bool} (hl : ins.length = c.inputLen) {e : Err}
    (he : evalOutput w fuel r ins = .error e) : Failure w r e := by
  have := (evalGate_ends hw hfit fuel r c hc).outputWith (hw.circ r c hc) hc hl
  unfold evalOutput at he
  rw [bind_of_ok (circuit_of hc)] at he
  rw [he] at this
  cases this with
  | error h => exact h

end CC
