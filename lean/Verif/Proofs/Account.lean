import Verif.Proofs.Built
import Verif.Spec.Writer

/-!
# Valid calls as elementary steps, and the counters of circuits

A valid call amounts to elementary steps (`Small`). The counters `num_wire`, `num_gate` and `num_const` of a circuit
cover its own gates and the counters of the circuits it calls, which do not change any more.
-/

namespace CC
open Spec

/-! ### elementary steps -/

/-- 1 for a constant gate -/
def Gate.isConst : Gate → Nat
  | .const _ => 1
  | _ => 0

/-- 1 for an input gate -/
def Gate.isInput : Gate → Nat
  | .input _ => 1
  | _ => 0

/-- 1 for a logic gate -/
def Gate.isLogic : Gate → Nat
  | .not _ | .xor _ _ | .and _ _ | .or _ _ => 1
  | _ => 0

/-- `c'` is `c` with one gate that is not a module gate -/
structure AddsGate (c c' : Circuit) (gate : Gate) : Prop where
  appends : Appends c c' [gate]
  plain : ∀ a b ids o m, gate ≠ .module a b ids o m
  inputLen : c'.inputLen = c.inputLen + gate.isInput
  numWire : c'.numWire = c.numWire + 1
  numGate : c'.numGate = c.numGate + gate.isLogic
  numConst : c'.numConst = c.numConst + gate.isConst

inductive Small (w : World) : World → Prop where
  | grow {w'} : Ext w w' → (∀ (x : Ref) c, w.circs[x]? = some c → w'.circs[x]? = some c) →
      (∀ (x : Ref) c, w'.circs[x]? = some c → (∃ y : Ref, w.circs[y]? = some c) ∨ ∃ s, c = Circuit.new s) → Small w w'
  | gate {r c c' gate} : w.circs[r]? = some c → ¬ Called w r → AddsGate c c' gate →
      (∀ x ∈ gate.operands, x < c.gateIndex) → Small w (w.setC r c')
  | output {r c g gate} : w.circs[r]? = some c → ¬ Called w r → c.gateMap g = some gate →
      Small w (w.setC r { c with outputMap := c.outputMap.insert c.outputLen g, outputLen := c.outputLen + 1 })
  | module {r c c' mr m mid ids outs} : w.circs[r]? = some c → ¬ Called w r → w.module? c mid = some mr → mr ≠ r →
      w.circs[mr]? = some m → (∀ x ∈ ids, x < c.gateIndex) → ids.length = m.inputLen →
      ModuleEffect c m c' mid ids outs → Small w (w.setC r c')

/-- zero or more elementary steps through well-formed heaps -/
inductive Smalls : World → World → Prop where
  | refl (w) : Smalls w w
  | step {w w' w''} : Small w w' → WFw w' → Smalls w' w'' → Smalls w w''

theorem Smalls.one {w w'} (h : Small w w') (hw : WFw w') : Smalls w w' := .step h hw (.refl _)

section
variable {c : Circuit} (hw : WFc c)
include hw

theorem adds_input : AddsGate c c.input.2 (.input c.inputLen) :=
  ⟨Circuit.input_appends hw, by intros; simp, rfl, rfl, rfl, rfl⟩

theorem adds_constant (v : Bool) : AddsGate c (c.constant v).2 (.const v) :=
  ⟨Circuit.constant_appends hw v, by intros; simp, rfl, rfl, rfl, rfl⟩

theorem adds_not (x : GateId) : AddsGate c (c.not x).2 (.not x) := by
  refine ⟨Circuit.not_appends hw x, by intros; simp, ?_, ?_, ?_, ?_⟩ <;>
  simp [Circuit.not, Circuit.addGate, Gate.isInput, Gate.isLogic, Gate.isConst]

theorem adds_xor (x y : GateId) : AddsGate c (c.xor x y).2 (.xor x y) := by
  refine ⟨Circuit.xor_appends hw x y, by intros; simp, ?_, ?_, ?_, ?_⟩ <;>
  simp [Circuit.xor, Circuit.addGate, Gate.isInput, Gate.isLogic, Gate.isConst]

theorem adds_and (x y : GateId) : AddsGate c (c.and x y).2 (.and x y) := by
  refine ⟨Circuit.and_appends hw x y, by intros; simp, ?_, ?_, ?_, ?_⟩ <;>
  simp [Circuit.and, Circuit.addGate, Gate.isInput, Gate.isLogic, Gate.isConst]

theorem adds_or (x y : GateId) : AddsGate c (c.or x y).2 (.or x y) := by
  refine ⟨Circuit.or_appends hw x y, by intros; simp, ?_, ?_, ?_, ?_⟩ <;>
  simp [Circuit.or, Circuit.addGate, Gate.isInput, Gate.isLogic, Gate.isConst]

end

theorem Smalls.trans {a b c} (h : Smalls a b) (k : Smalls b c) : Smalls a c := by
  induction h with
  | refl => exact k
  | step h1 h2 _ ih => exact .step h1 h2 (ih k)

theorem small_newCircuit {w : World} (hw : WFw w) (s : StoreRef) : Small w (newCircuit s w).2 := by
  refine .grow (good_newCircuit s w hw).2 ?_ ?_
  · intro x c hx
    unfold CC.newCircuit
    cases w.stores[s]? with
    | none => exact hx
    | some st => simp only; rw [List.getElem?_append_left (lt_of_getElem? hx)]; exact hx
  · intro x c hx
    unfold CC.newCircuit at hx
    cases e : w.stores[s]? with
    | none => rw [e] at hx; exact Or.inl ⟨x, hx⟩
    | some st =>
      rw [e] at hx; simp only at hx
      rw [getElem?_append_one] at hx
      split at hx
      · exact Or.inl ⟨x, hx⟩
      · split at hx
        · cases hx; exact Or.inr ⟨s, rfl⟩
        · cases hx

theorem small_registerModule {w : World} (hw : WFw w) (r m : Ref) : Small w (registerModule r m w).2 := by
  have hsame : (CC.registerModule r m w).2.circs = w.circs := by
    unfold CC.registerModule
    cases w.circs[r]? with
    | none => rfl
    | some c =>
      simp only
      cases w.circs[m]? with
      | none => rfl
      | some d =>
        simp only
        cases w.stores[c.storage]? <;> rfl
  refine .grow (good_registerModule r m w hw).2 ?_ ?_
  · intro x c hx; rw [hsame]; exact hx
  · intro x c hx; rw [hsame] at hx; exact Or.inl ⟨x, hx⟩

theorem small_storeModule {w : World} (hw : WFw w) (s : StoreRef) (m : Ref) : Small w (storeModule s m w).2 := by
  have hsame : (CC.storeModule s m w).2.circs = w.circs := by
    unfold CC.storeModule
    cases w.circs[m]? with
    | none => rfl
    | some d => simp only; cases w.stores[s]? <;> rfl
  refine .grow (good_storeModule s m w hw).2 ?_ ?_
  · intro x c hx; rw [hsame]; exact hx
  · intro x c hx; rw [hsame] at hx; exact Or.inl ⟨x, hx⟩

theorem small_clone {w : World} (hw : WFw w) (r : Ref) : Small w (cloneCircuit r w).2 := by
  refine .grow (good_clone r w hw).2 ?_ ?_
  · intro x c hx
    unfold cloneCircuit
    cases w.circs[r]? with
    | none => exact hx
    | some st => simp only; rw [List.getElem?_append_left (lt_of_getElem? hx)]; exact hx
  · intro x c hx
    unfold cloneCircuit at hx
    cases e : w.circs[r]? with
    | none => rw [e] at hx; exact Or.inl ⟨x, hx⟩
    | some d =>
      rw [e] at hx; simp only at hx
      rw [getElem?_append_one] at hx
      split at hx
      · exact Or.inl ⟨x, hx⟩
      · split at hx
        · cases hx; exact Or.inl ⟨r, e⟩
        · cases hx

theorem smalls_subCircuit {w : World} (hw : WFw w) (r : Ref) : Smalls w (subCircuit r w).2 := by
  unfold CC.subCircuit
  cases hr : w.circs[r]? with
  | none => exact .refl _
  | some c =>
    simp only
    rw [M.bind_apply]
    have h1 := small_newCircuit hw c.storage
    have h2 := (good_newCircuit c.storage w hw).1
    rcases e : CC.newCircuit c.storage w with ⟨n | n, w1⟩
    · rw [e] at h1 h2; exact .one h1 h2
    · rw [e] at h1 h2
      simp only
      have := map_world (CC.registerModule r n) (fun mid => (mid, n)) w1
      rw [this]
      exact .step h1 h2 (.one (small_registerModule h2 r n) (good_registerModule r n w1 h2).1)

/-- a valid call amounts to elementary steps -/
theorem smalls_op {w : World} (hw : WFw w) (op : Op) (hv : op.Valid w) : Smalls w (op.call w).2 := by
  have hw' := (good_op op w hw).1
  cases op with
  | newStorage => exact .one (.grow (good_op .newStorage w hw).2 (fun x c hx => hx) (fun x c hx => Or.inl ⟨x, hx⟩)) hw'
  | newCircuit s =>
    have e : (Op.call (.newCircuit s) w).2 = (CC.newCircuit s w).2 := map_world _ _ w
    rw [e] at hw' ⊢; exact .one (small_newCircuit hw s) hw'
  | registerModule r m =>
    have e : (Op.call (.registerModule r m) w).2 = (CC.registerModule r m w).2 := map_world _ _ w
    rw [e] at hw' ⊢; exact .one (small_registerModule hw r m) hw'
  | storeModule s m =>
    have e : (Op.call (.storeModule s m) w).2 = (CC.storeModule s m w).2 := map_world _ _ w
    rw [e] at hw' ⊢; exact .one (small_storeModule hw s m) hw'
  | clone r =>
    have e : (Op.call (.clone r) w).2 = (cloneCircuit r w).2 := map_world _ _ w
    rw [e] at hw' ⊢; exact .one (small_clone hw r) hw'
  | subCircuit r =>
    have e : (Op.call (.subCircuit r) w).2 = (CC.subCircuit r w).2 := map_world _ _ w
    rw [e]; exact smalls_subCircuit hw r
  | input r =>
    have e : (Op.call (.input r) w).2 = (CC.input r w).2 := map_world _ _ w
    rw [e] at hw' ⊢
    cases hr : w.circs[r]? with
    | none => unfold CC.input; rw [onCircuit_none hr]; exact .refl _
    | some c =>
      rw [input_eq hr] at hw' ⊢
      exact .one (.gate hr hv (adds_input (hw.circ r c hr)) (by simp [Gate.operands])) hw'
  | output r g =>
    have e : (Op.call (.output r g) w).2 = (CC.output r g w).2 := map_world _ _ w
    rw [e] at hw' ⊢
    cases hr : w.circs[r]? with
    | none => unfold CC.output; rw [onCircuit_none hr]; exact .refl _
    | some c =>
      rw [output_eq hr] at hw' ⊢
      unfold Circuit.output at hw' ⊢
      cases e : c.gateMap g with
      | none => simp only; rw [setC_self hr]; exact .refl _
      | some gate => rw [e] at hw'; exact .one (.output hr hv e) hw'
  | constant r v =>
    have e : (Op.call (.constant r v) w).2 = (CC.constant r v w).2 := map_world _ _ w
    rw [e] at hw' ⊢
    cases hr : w.circs[r]? with
    | none => unfold CC.constant; rw [onCircuit_none hr]; exact .refl _
    | some c =>
      rw [constant_eq hr] at hw' ⊢
      exact .one (.gate hr hv (adds_constant (hw.circ r c hr) v) (by simp [Gate.operands])) hw'
  | not r x =>
    have e : (Op.call (.not r x) w).2 = (CC.not r x w).2 := map_world _ _ w
    rw [e] at hw' ⊢
    cases hr : w.circs[r]? with
    | none => unfold CC.not; rw [onCircuit_none hr]; exact .refl _
    | some c =>
      rw [not_eq hr] at hw' ⊢
      refine .one (.gate hr hv.1 (adds_not (hw.circ r c hr) x) ?_) hw'
      simp only [Gate.operands, List.mem_singleton]; rintro y rfl; exact hv.2.lt hw hr
  | xor r a b =>
    have e : (Op.call (.xor r a b) w).2 = (CC.xor r a b w).2 := map_world _ _ w
    rw [e] at hw' ⊢
    cases hr : w.circs[r]? with
    | none => unfold CC.xor; rw [onCircuit_none hr]; exact .refl _
    | some c =>
      rw [xor_eq hr] at hw' ⊢
      refine .one (.gate hr hv.1 (adds_xor (hw.circ r c hr) a b) ?_) hw'
      simp only [Gate.operands, List.mem_cons, List.not_mem_nil, or_false]
      rintro z (rfl | rfl)
      · exact hv.2.1.lt hw hr
      · exact hv.2.2.lt hw hr
  | and r a b =>
    have e : (Op.call (.and r a b) w).2 = (CC.and r a b w).2 := map_world _ _ w
    rw [e] at hw' ⊢
    cases hr : w.circs[r]? with
    | none => unfold CC.and; rw [onCircuit_none hr]; exact .refl _
    | some c =>
      rw [and_eq hr] at hw' ⊢
      refine .one (.gate hr hv.1 (adds_and (hw.circ r c hr) a b) ?_) hw'
      simp only [Gate.operands, List.mem_cons, List.not_mem_nil, or_false]
      rintro z (rfl | rfl)
      · exact hv.2.1.lt hw hr
      · exact hv.2.2.lt hw hr
  | or r a b =>
    have e : (Op.call (.or r a b) w).2 = (CC.or r a b w).2 := map_world _ _ w
    rw [e] at hw' ⊢
    cases hr : w.circs[r]? with
    | none => unfold CC.or; rw [onCircuit_none hr]; exact .refl _
    | some c =>
      rw [or_eq hr] at hw' ⊢
      refine .one (.gate hr hv.1 (adds_or (hw.circ r c hr) a b) ?_) hw'
      simp only [Gate.operands, List.mem_cons, List.not_mem_nil, or_false]
      rintro z (rfl | rfl)
      · exact hv.2.1.lt hw hr
      · exact hv.2.2.lt hw hr
  | equivalent r a b =>
    have e : (Op.call (.equivalent r a b) w).2 = (CC.equivalent r a b w).2 := map_world _ _ w
    rw [e] at hw' ⊢
    cases hr : w.circs[r]? with
    | none =>
      unfold CC.equivalent; rw [bind_error (show CC.xor r a b w = (.error .dangling, w) from onCircuit_none hr)]
      exact .refl _
    | some c =>
      have h2 : WFw (w.setC r (c.xor a b).2) := by
        have := (good_xor r a b w hw).1; rw [xor_eq hr] at this; exact this
      have hr1 := setC_get hr (c.xor a b).2
      have h1 : Small w (w.setC r (c.xor a b).2) := by
        refine .gate hr hv.1 (adds_xor (hw.circ r c hr) a b) ?_
        simp only [Gate.operands, List.mem_cons, List.not_mem_nil, or_false]
        rintro z (rfl | rfl)
        · exact hv.2.1.lt hw hr
        · exact hv.2.2.lt hw hr
      have h3 : Small (w.setC r (c.xor a b).2) ((w.setC r (c.xor a b).2).setC r ((c.xor a b).2.not c.gateIndex).2) := by
        refine .gate hr1 (not_called_setC h2 hv.1) (adds_not (h2.circ r _ hr1) _) ?_
        simp only [Gate.operands, List.mem_singleton]
        rintro y rfl; rw [xor_gateIndex]; omega
      rw [setC_setC] at h3
      rw [equivalent_eq hr] at hw' ⊢
      exact .step h1 h2 (.one h3 hw')
  | identity r x =>
    have e : (Op.call (.identity r x) w).2 = (CC.identity r x w).2 := map_world _ _ w
    rw [e] at hw' ⊢
    cases hr : w.circs[r]? with
    | none =>
      unfold CC.identity; rw [bind_error (show CC.not r x w = (.error .dangling, w) from onCircuit_none hr)]
      exact .refl _
    | some c =>
      have h2 : WFw (w.setC r (c.not x).2) := by
        have := (good_not r x w hw).1; rw [not_eq hr] at this; exact this
      have hr1 := setC_get hr (c.not x).2
      have h1 : Small w (w.setC r (c.not x).2) := by
        refine .gate hr hv.1 (adds_not (hw.circ r c hr) x) ?_
        simp only [Gate.operands, List.mem_singleton]; rintro y rfl; exact hv.2.lt hw hr
      have h3 : Small (w.setC r (c.not x).2) ((w.setC r (c.not x).2).setC r ((c.not x).2.not c.gateIndex).2) := by
        refine .gate hr1 (not_called_setC h2 hv.1) (adds_not (h2.circ r _ hr1) _) ?_
        simp only [Gate.operands, List.mem_singleton]
        rintro y rfl; rw [not_gateIndex]; omega
      rw [setC_setC] at h3
      rw [identity_eq hr] at hw' ⊢
      exact .step h1 h2 (.one h3 hw')
  | module r mid ids =>
    have e : (Op.call (.module r mid ids) w).2 = (CC.module r mid ids w).2 := map_world _ _ w
    rw [e] at hw' ⊢
    obtain ⟨h1, h2, h3⟩ := hv
    unfold CC.module at hw' ⊢
    cases hr : w.circs[r]? with
    | none => exact .refl _
    | some c =>
      rw [hr] at hw'
      simp only at hw' ⊢
      cases hm : w.module? c mid with
      | none => exact .refl _
      | some mr =>
        rw [hm] at hw'
        simp only at hw' ⊢
        by_cases hself : mr = r
        · rw [if_pos hself]; exact .refl _
        · rw [if_neg hself] at hw' ⊢
          cases hmc : w.circs[mr]? with
          | none => exact .refl _
          | some m =>
            rw [hmc] at hw'
            simp only at hw' ⊢
            by_cases hroom : m.inputLen + m.outputLen ≤ m.numWire
            · obtain ⟨outs, _, he⟩ := Circuit.module_ok (hw.circ r c hr) mid ids hroom
              refine .one (.module hr h1 hm hself hmc (fun x hx => (h2 x hx).lt hw hr) (h3 m ?_) he) hw'
              unfold callee
              rw [hr]; simp only; rw [hm]; exact hmc
            · rw [Circuit.module_err mid ids hroom, setC_self hr]; exact .refl _

/-- invariants of valid histories -/
theorem Spec.ValidRun.inv {P : World → Prop} (h0 : P World.empty)
    (hs : ∀ w w', WFw w → AllBuilt w → P w → Small w w' → P w') {w : World} (h : ValidRun w) : P w := by
  have : ∀ {a b}, Smalls a b → WFw a → AllBuilt a → P a → P b := by
    intro a b h
    induction h with
    | refl => exact fun _ _ h => h
    | @step w w' w'' h1 h2 h3 ih =>
      intro hw hb hp
      refine ih h2 ?_ (hs w w' hw hb hp h1)
      cases h1 with
      | grow he h1 h2 => exact hb.grow he h1 h2
      | gate hc hnc ha hx => exact hb.append1 hw hc hnc ha.appends ha.plain hx
      | output hc hnc hg =>
        have h1 := (hb _ _ hc).topo hc
        have h2 := hb.calls hw hc
        exact hb.setC hc hnc h1 rfl h2
      | module hc hnc hm hne hmc hx hl he => exact hb.module hw hc hnc hm hne hmc hx hl he
  induction h with
  | nil => exact h0
  | step op h hv ih => exact this (smalls_op h.wf op hv) h.wf h.allBuilt ih

/-! ### counters -/

/-- a counter of circuits: what a gate adds, and what a call of a circuit adds -/
structure Counter where
  own : Gate → Nat
  num : Circuit → Nat
  part : Circuit → Nat

def wireCounter : Counter := ⟨fun _ => 1, (·.numWire), fun m => m.numWire - m.inputLen⟩
def gateCounter : Counter := ⟨Gate.isLogic, (·.numGate), (·.numGate)⟩
def constCounter : Counter := ⟨Gate.isConst, (·.numConst), (·.numConst)⟩

/-- what gate `g` accounts for -/
def weight (K : Counter) (w : World) (c : Circuit) (g : GateId) : Nat :=
  match c.gateMap g with
  | none => 0
  | some (.module _ _ _ oi mid) =>
    if oi = 0 then ((w.module? c mid).bind (w.circs[·]?)).elim 0 K.part else 0
  | some gate => K.own gate

/-- the counter covers all gates -/
def Covers (K : Counter) (w : World) (c : Circuit) : Prop := sumTo c.gateIndex (weight K w c) ≤ K.num c

theorem weight_congr {K : Counter} {w w' : World} {c c' : Circuit} {g : GateId} (hg : c'.gateMap g = c.gateMap g)
    (h : ∀ nIn nOut ids oi mid, c.gateMap g = some (.module nIn nOut ids oi mid) →
      ∃ mr mc, w.module? c mid = some mr ∧ w.circs[mr]? = some mc ∧ w'.module? c' mid = some mr ∧ w'.circs[mr]? = some mc) :
    weight K w' c' g = weight K w c g := by
  unfold weight
  rw [hg]
  cases e : c.gateMap g with
  | none => rfl
  | some gate =>
    cases gate with
    | module nIn nOut ids oi mid =>
      obtain ⟨mr, mc, h1, h2, h3, h4⟩ := h nIn nOut ids oi mid e
      simp only [h1, h2, h3, h4, Option.bind_some]
    | _ => rfl

theorem sumTo_split (n k : Nat) (f : Nat → Nat) : sumTo (n + k) f = sumTo n f + sumTo k (fun i => f (n + i)) := by
  induction k with
  | zero => simp [sumTo]
  | succ k ih => rw [← Nat.add_assoc]; simp only [sumTo]; rw [ih]; omega

/-- how the counter changes -/
structure Counts (K : Counter) : Prop where
  new : ∀ s, K.num (Circuit.new s) = 0
  gate : ∀ c c' gate, AddsGate c c' gate → K.num c' = K.num c + K.own gate
  output : ∀ c m n, K.num { c with outputMap := m, outputLen := n } = K.num c
  module : ∀ c m c' mid ids outs, ModuleEffect c m c' mid ids outs → K.num c' = K.num c + K.part m

theorem counts_wire : Counts wireCounter := ⟨fun _ => rfl, fun _ _ _ h => h.numWire, fun _ _ _ => rfl, fun _ _ _ _ _ _ h => h.numWire⟩
theorem counts_gate : Counts gateCounter := ⟨fun _ => rfl, fun _ _ _ h => h.numGate, fun _ _ _ => rfl, fun _ _ _ _ _ _ h => h.numGate⟩
theorem counts_const : Counts constCounter := ⟨fun _ => rfl, fun _ _ _ h => h.numConst, fun _ _ _ => rfl, fun _ _ _ _ _ _ h => h.numConst⟩

theorem covers_small {K : Counter} (hK : Counts K) {w w' : World} (hw : WFw w) (hb : AllBuilt w)
    (h : ∀ (r : Ref) c, w.circs[r]? = some c → Covers K w c) (hs : Small w w') :
    ∀ (r : Ref) c, w'.circs[r]? = some c → Covers K w' c := by
  -- old gates of circuit `d` in a heap where circuit `r` is replaced
  have hold : ∀ {r : Ref} {c c' : Circuit}, w.circs[r]? = some c → ¬ Called w r → ∀ {x : Ref} {d d' : Circuit},
      w.circs[x]? = some d → d'.storage = d.storage → ∀ g, d'.gateMap g = d.gateMap g →
      weight K (w.setC r c') d' g = weight K w d g := by
    intro r c c' hc hnc x d d' hd hst g hg
    refine weight_congr hg fun nIn nOut ids oi mid hm => ?_
    obtain ⟨mr, mc, h1, _, h3, _⟩ := hb.calls hw hd g nIn nOut ids oi mid hm
    refine ⟨mr, mc, h1, h3, by rw [← h1]; exact World.module?_congr rfl hst mid, ?_⟩
    have : mr ≠ r := by rintro rfl; exact hnc ⟨x, d, hd, g, nIn, nOut, ids, oi, mid, hm, h1⟩
    rw [setC_get_ne _ this]; exact h3
  cases hs with
  | grow he h1 h2 =>
    intro r c hc
    rcases h2 r c hc with ⟨y, hx⟩ | ⟨s, rfl⟩
    · have := h y c hx
      unfold Covers at this ⊢
      rw [sumTo_congr (g := weight K w c)]
      · exact this
      intro g _
      refine weight_congr rfl fun nIn nOut ids oi mid hm => ?_
      obtain ⟨mr, mc, k1, _, k3, _⟩ := hb.calls hw hx g nIn nOut ids oi mid hm
      exact ⟨mr, mc, k1, k3, he.module? rfl k1, h1 mr mc k3⟩
    · unfold Covers; rw [hK.new]; exact Nat.le_refl _
  | @gate r c c' gate hc hnc ha hx =>
    intro x d hd
    by_cases e : x = r
    · subst e
      rw [setC_get hc] at hd; cases hd
      have h0 := h x c hc
      unfold Covers at h0 ⊢
      rw [ha.appends.idx, List.length_singleton]
      simp only [sumTo]
      rw [hK.gate _ _ _ ha, sumTo_congr (g := weight K w c)]
      · have : weight K (w.setC x c') c' c.gateIndex = K.own gate := by
          have hg := ha.appends.new 0
          simp at hg
          unfold weight
          rw [hg]
          cases gate <;> first | rfl | exact absurd rfl (ha.plain _ _ _ _ _)
        omega
      · intro g hg
        exact hold hc hnc hc ha.appends.storage g (ha.appends.old hg)
    · rw [setC_get_ne _ e] at hd
      have h0 := h x d hd
      unfold Covers at h0 ⊢
      rw [sumTo_congr (g := weight K w d)]
      · exact h0
      · intro g _; exact hold hc hnc hd rfl g rfl
  | @output r c g gate hc hnc hg =>
    intro x d hd
    by_cases e : x = r
    · subst e
      rw [setC_get hc] at hd; cases hd
      have h0 := h x c hc
      unfold Covers at h0 ⊢
      rw [hK.output]
      rw [sumTo_congr (g := weight K w c)]
      · exact h0
      · intro g _; exact hold hc hnc hc rfl g rfl
    · rw [setC_get_ne _ e] at hd
      have h0 := h x d hd
      unfold Covers at h0 ⊢
      rw [sumTo_congr (g := weight K w d)]
      · exact h0
      · intro g _; exact hold hc hnc hd rfl g rfl
  | @module r c c' mr m mid ids outs hc hnc hm hne hmc hx hl he =>
    intro x d hd
    by_cases e : x = r
    · subst e
      rw [setC_get hc] at hd; cases hd
      have h0 := h x c hc
      unfold Covers at h0 ⊢
      rw [he.appends.idx, sumTo_split, hK.module _ _ _ _ _ _ he, sumTo_congr (g := weight K w c)]
      · refine Nat.add_le_add h0 ?_
        have hlen : (moduleGates m.inputLen m.outputLen ids mid).length = m.outputLen := by simp [moduleGates]
        rw [hlen]
        have hwt : ∀ i, i < m.outputLen → weight K (w.setC x c') c' (c.gateIndex + i) = if i = 0 then K.part m else 0 := by
          intro i hi
          have hg := he.appends.new i
          rw [moduleGates_get, if_pos hi] at hg
          unfold weight
          rw [hg]
          simp only
          have h1 : (w.setC x c').module? c' mid = some mr := by
            rw [← hm]; exact World.module?_congr rfl he.appends.storage mid
          have h2 : (w.setC x c').circs[mr]? = some m := by rw [setC_get_ne _ hne]; exact hmc
          rw [h1, Option.bind_some, h2]; rfl
        rw [sumTo_congr hwt]
        have : ∀ n, sumTo n (fun i => if i = 0 then K.part m else 0) ≤ K.part m := by
          intro n
          cases n with
          | zero => exact Nat.zero_le _
          | succ n =>
            rw [show n + 1 = 1 + n by omega, sumTo_split, sumTo_zero (n := n) (by intro i _; rw [if_neg (by omega)])]
            simp [sumTo]
        exact this _
      · intro g hg
        exact hold hc hnc hc he.appends.storage g (he.appends.old hg)
    · rw [setC_get_ne _ e] at hd
      have h0 := h x d hd
      unfold Covers at h0 ⊢
      rw [sumTo_congr (g := weight K w d)]
      · exact h0
      · intro g _; exact hold hc hnc hd rfl g rfl

theorem Spec.ValidRun.covers {K : Counter} (hK : Counts K) {w : World} (h : ValidRun w) {r : Ref} {c : Circuit}
    (hc : w.circs[r]? = some c) : Covers K w c :=
  h.inv (P := fun w => ∀ (r : Ref) c, w.circs[r]? = some c → Covers K w c) (by intro r c hc; simp [World.empty] at hc)
    (fun _ _ hw hb hp hs => covers_small hK hw hb hp hs) r c hc

/-- every wire is an input, a constant or a gate -/
theorem Spec.ValidRun.balance {w : World} (h : ValidRun w) {r : Ref} {c : Circuit} (hc : w.circs[r]? = some c) :
    c.numWire = c.inputLen + c.numGate + c.numConst := by
  refine h.inv (P := fun w => ∀ (r : Ref) c, w.circs[r]? = some c → c.numWire = c.inputLen + c.numGate + c.numConst)
    (by intro r c hc; simp [World.empty] at hc) ?_ r c hc
  intro w w' hw hb hp hs x d hd
  have other : ∀ {r : Ref} {c' : Circuit}, x ≠ r → (w.setC r c').circs[x]? = some d →
      d.numWire = d.inputLen + d.numGate + d.numConst := by
    intro r c' e hd
    rw [setC_get_ne _ e] at hd; exact hp x d hd
  cases hs with
  | grow _ _ h2 =>
    rcases h2 x d hd with ⟨y, h⟩ | ⟨s, rfl⟩
    · exact hp y d h
    · rfl
  | @gate r c c' gate hc _ ha _ =>
    by_cases e : x = r
    · subst e
      rw [setC_get hc] at hd; cases hd
      have h1 := hp x c hc
      rw [ha.numWire, ha.inputLen, ha.numGate, ha.numConst]
      cases gate <;> simp only [Gate.isInput, Gate.isLogic, Gate.isConst] <;> first | omega | exact absurd rfl (ha.plain _ _ _ _ _)
    · exact other e hd
  | @output r c g gate hc _ _ =>
    by_cases e : x = r
    · subst e
      rw [setC_get hc] at hd; cases hd
      exact hp x c hc
    · exact other e hd
  | @module r c c' mr m mid ids outs hc _ _ _ hmc _ _ he =>
    by_cases e : x = r
    · subst e
      rw [setC_get hc] at hd; cases hd
      have h1 := hp x c hc
      have h2 := hp mr m hmc
      rw [he.numWire, he.inputLen, he.numGate, he.numConst]
      omega
    · exact other e hd

/-! ### lines and constants of a written circuit -/

theorem nodup_sum_le (f : Nat → Nat) : ∀ (n : Nat) (l : List Nat), l.Nodup → (∀ x ∈ l, x < n) → (l.map f).sum ≤ sumTo n f
  | 0, l, _, h => by
    cases l with
    | nil => exact Nat.le_refl _
    | cons x l => exact absurd (h x (by simp)) (by omega)
  | n + 1, l, hn, h => by
    by_cases hm : n ∈ l
    · have hp := List.perm_cons_erase hm
      have h1 : (l.map f).sum = f n + ((l.erase n).map f).sum := by
        rw [(hp.map f).sum_nat]; rfl
      have h2 := nodup_sum_le f n (l.erase n) (hn.erase n) (by
        intro x hx
        have := h x (List.mem_of_mem_erase hx)
        have : x ≠ n := by rintro rfl; exact hn.not_mem_erase hx
        omega)
      simp only [sumTo]; omega
    · have := nodup_sum_le f n l hn (by
        intro x hx
        have := h x hx
        have : x ≠ n := by rintro rfl; exact hm hx
        omega)
      simp only [sumTo]; omega

theorem weight_plain {K : Counter} {w : World} {c : Circuit} {g : GateId} {gate : Gate} (h : c.gateMap g = some gate)
    (hp : ∀ a b ids o m, gate ≠ .module a b ids o m) : weight K w c g = K.own gate := by
  unfold weight; rw [h]
  cases gate <;> first | rfl | exact absurd rfl (hp _ _ _ _ _)

theorem weight_logic {w : World} {c : Circuit} {g : GateId} (h : IsLogic c g) : weight gateCounter w c g = 1 := by
  obtain ⟨a, b, h | h | h | h⟩ := h <;> rw [weight_plain h (by simp)] <;> rfl

theorem weight_call {K : Counter} {w : World} {c : Circuit} {g : GateId} {mr : Ref} {m : Circuit} (h : IsCall w c g mr)
    (hm : w.circs[mr]? = some m) : weight K w c g = K.part m := by
  obtain ⟨nIn, nOut, ids, mid, h1, h2⟩ := h
  unfold weight; rw [h1]; show (if (0 : Nat) = 0 then _ else _) = _; rw [if_pos rfl, h2, Option.bind_some, hm]; rfl

theorem IsLogic.lt {c : Circuit} (hwf : WFc c) {g : GateId} (h : IsLogic c g) : g < c.gateIndex := by
  obtain ⟨a, b, h | h | h | h⟩ := h <;> exact hwf.lt_of_some h

theorem IsCall.lt {w : World} {c : Circuit} (hwf : WFc c) {g : GateId} {mr : Ref} (h : IsCall w c g mr) :
    g < c.gateIndex := by
  obtain ⟨_, _, _, _, h, _⟩ := h; exact hwf.lt_of_some h

theorem inlined_circ {w : World} {r : Ref} {n : Nat} {bs : List Bool} (h : Inlined w r n bs) : ∃ c, w.circs[r]? = some c := by
  cases h with | mk gs n b hc => exact ⟨_, hc⟩

theorem sum_map_le {f g : Nat → Nat} : ∀ {l : List Nat}, (∀ x ∈ l, f x ≤ g x) → (l.map f).sum ≤ (l.map g).sum
  | [], _ => Nat.le_refl _
  | x :: l, h => by
    have h1 := sum_map_le (l := l) fun y hy => h y (List.mem_cons_of_mem _ hy)
    have h2 := h x (by simp)
    simp only [List.map_cons, List.sum_cons]; omega

theorem length_flatMap_sum {α} (b : Nat → List α) : ∀ l : List Nat, (l.flatMap b).length = (l.map (fun g => (b g).length)).sum
  | [] => rfl
  | x :: l => by simp only [List.flatMap_cons, List.length_append, List.map_cons, List.sum_cons, length_flatMap_sum b l]

theorem all2_same_length {α β} {P : α → β → Prop} : ∀ {as : List α} {bs : List β}, All2 P as bs → as.length = bs.length
  | [], [], _ => rfl
  | _ :: _, _ :: _, h => by simp [all2_same_length h.2]
  | [], _ :: _, h => h.elim
  | _ :: _, [], h => h.elim

/-- lines and constants are counted in `num_gate` and `num_const` -/
theorem Spec.Inlined.bounds {w : World} (hv : ValidRun w) {r : Ref} {n : Nat} {bs : List Bool} (h : Inlined w r n bs) :
    ∀ c, w.circs[r]? = some c → n ≤ c.numGate ∧ bs.length ≤ c.numConst := by
  induction h with
  | @mk r c own gs n b hc hown hnd hmem hlog hcall ih =>
    intro c' hc'
    rw [hc] at hc'; cases hc'
    have hwf := hv.wf.circ r c hc
    have hlt : ∀ g ∈ gs, g < c.gateIndex := by
      intro g hg
      rcases ((hmem g).mp hg).2 with h | ⟨mr, h⟩
      · exact IsLogic.lt hwf h
      · exact IsCall.lt hwf h
    constructor
    · have h1 := hv.covers counts_gate hc
      unfold Covers at h1
      refine Nat.le_trans (Nat.le_trans (sum_map_le ?_) (nodup_sum_le (weight gateCounter w c) c.gateIndex gs hnd hlt)) h1
      intro g hg
      rcases ((hmem g).mp hg).2 with h | ⟨mr, h⟩
      · rw [(hlog g hg h).1, weight_logic h]; exact Nat.le_refl _
      · obtain ⟨m, hm⟩ := inlined_circ (hcall g mr hg h)
        rw [weight_call h hm]
        exact (ih g mr hg h m hm).1
    · have h1 := hv.covers counts_const hc
      unfold Covers at h1
      obtain ⟨ks, hks, hkm, hall⟩ := hown
      have hkn : ks.Nodup := hks.imp (by intro a b h; omega)
      have hdis : (ks ++ gs).Nodup := by
        rw [List.nodup_append]
        refine ⟨hkn, hnd, ?_⟩
        intro x hx y hy e
        subst e
        obtain ⟨v, hv⟩ := (hkm x).mp hx
        rcases ((hmem x).mp hy).2 with ⟨a, b, h⟩ | ⟨mr, _, _, _, _, h, _⟩
        · rw [hv] at h; simp at h
        · rw [hv] at h; simp at h
      have h2 := nodup_sum_le (weight constCounter w c) c.gateIndex (ks ++ gs) hdis (by
        intro x hx
        rcases List.mem_append.mp hx with h | h
        · obtain ⟨v, hv⟩ := (hkm x).mp h; exact hwf.lt_of_some hv
        · exact hlt x h)
      rw [List.map_append, List.sum_append] at h2
      have h3 : own.length = (ks.map (fun _ => 1)).sum := by
        rw [← all2_same_length hall]
        have : ∀ l : List Nat, l.length = (l.map (fun _ => 1)).sum := by
          intro l
          induction l with
          | nil => rfl
          | cons k l ih => simp only [List.length_cons, List.map_cons, List.sum_cons]; omega
        exact this ks
      have h4 : (ks.map (fun _ => 1)).sum ≤ (ks.map (weight constCounter w c)).sum := by
        refine sum_map_le fun x hx => ?_
        obtain ⟨v, hv⟩ := (hkm x).mp hx
        rw [weight_plain hv (by simp)]; exact Nat.le_refl _
      have h5 : (gs.map (fun g => (b g).length)).sum ≤ (gs.map (weight constCounter w c)).sum := by
        refine sum_map_le fun g hg => ?_
        rcases ((hmem g).mp hg).2 with h | ⟨mr, h⟩
        · rw [(hlog g hg h).2]; exact Nat.zero_le _
        · obtain ⟨m, hm⟩ := inlined_circ (hcall g mr hg h)
          rw [weight_call h hm]
          exact (ih g mr hg h m hm).2
      rw [List.length_append, length_flatMap_sum]
      have h6 : constCounter.num c = c.numConst := rfl
      omega

/-- a logic gate that no output needs is not written -/
theorem Spec.Inlined.dead {w : World} (hv : ValidRun w) {r : Ref} {n : Nat} {bs : List Bool} (h : Inlined w r n bs)
    {c : Circuit} (hc : w.circs[r]? = some c) {d : GateId} (hd : IsLogic c d) (hnd : ¬ Needed c d) : n < c.numGate := by
  cases h with
  | @mk _ c' own gs n b hc' hown hn hmem hlog hcall =>
    rw [hc] at hc'; cases hc'
    have hwf := hv.wf.circ r c hc
    have hlt : ∀ g ∈ gs, g < c.gateIndex := by
      intro g hg
      rcases ((hmem g).mp hg).2 with h | ⟨mr, h⟩
      · exact IsLogic.lt hwf h
      · exact IsCall.lt hwf h
    have h1 := hv.covers counts_gate hc
    unfold Covers at h1
    have h2 := nodup_sum_le (weight gateCounter w c) c.gateIndex (d :: gs)
      (List.nodup_cons.mpr ⟨fun h => hnd ((hmem d).mp h).1, hn⟩) (by
        intro x hx
        rcases List.mem_cons.mp hx with rfl | h
        · exact IsLogic.lt hwf hd
        · exact hlt x h)
    rw [List.map_cons, List.sum_cons, weight_logic hd] at h2
    have h3 : (gs.map n).sum ≤ (gs.map (weight gateCounter w c)).sum := by
      refine sum_map_le fun g hg => ?_
      rcases ((hmem g).mp hg).2 with h | ⟨mr, h⟩
      · rw [(hlog g hg h).1, weight_logic h]; exact Nat.le_refl _
      · have hi := hcall g mr hg h
        obtain ⟨m, hm⟩ := inlined_circ hi
        rw [weight_call h hm]
        exact (hi.bounds hv m hm).1
    have h4 : gateCounter.num c = c.numGate := rfl
    omega

end CC
