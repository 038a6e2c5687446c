import Verif.Spec.Valid
import Verif.Proofs.EvalComplete

/-!
# Valid calls build well-built circuits; what survives changes of other circuits
-/

namespace CC
open Spec

theorem getGate_ok_iff {w : World} {r : Ref} {g : GateId} {gate : Gate} :
    w.getGate r g = .ok gate ↔ ∃ c, w.circs[r]? = some c ∧ c.gateMap g = some gate := by
  constructor
  · intro h
    obtain ⟨c, hc, h⟩ := ok_bind h
    refine ⟨c, circuit_ok hc, ?_⟩
    cases e : c.gateMap g with
    | none => rw [e] at h; cases h
    | some x => rw [e] at h; cases h; rfl
  · rintro ⟨c, hc, hg⟩
    unfold World.getGate
    rw [bind_of_ok (circuit_of hc), hg]

theorem Spec.HasGate.lt {w : World} (hw : WFw w) {r : Ref} {g : GateId} (h : HasGate w r g) {c : Circuit}
    (hc : w.circs[r]? = some c) : g < c.gateIndex := by
  obtain ⟨gate, h⟩ := h
  obtain ⟨c', hc', hg⟩ := getGate_ok_iff.mp h
  rw [hc] at hc'; cases hc'
  exact (hw.circ r c hc).lt_of_some hg

/-! ### transfer between heaps -/

/-- the circuits in `P` are the same in both heaps and call only circuits in `P` -/
structure SameOn (P : Ref → Prop) (w w' : World) : Prop where
  circ : ∀ (x : Ref) c, P x → w.circs[x]? = some c → w'.circs[x]? = some c
  calls : ∀ (x : Ref) c mr, P x → w.circs[x]? = some c → Calls w c mr → P mr
  mods : ∀ c mid q, w.module? c mid = some q → w'.module? c mid = some q

theorem SameOn.callsOk {P w w'} (h : SameOn P w w') {x : Ref} {c : Circuit} (hx : P x) (hc : w.circs[x]? = some c)
    (hcalls : CallsOk w c) : CallsOk w' c := by
  intro g nIn nOut ids oi mid hg
  obtain ⟨mr, mc, h1, h2, h3⟩ := hcalls g nIn nOut ids oi mid hg
  exact ⟨mr, mc, h.mods c mid mr h1, h.circ mr mc (h.calls x c mr hx hc ⟨g, nIn, nOut, ids, oi, mid, hg, h1⟩) h2, h3⟩

theorem SameOn.callsBack {P w w'} (h : SameOn P w w') {c : Circuit} (hcalls : CallsOk w c) {mr : Ref}
    (hm : Calls w' c mr) : Calls w c mr := by
  obtain ⟨g, nIn, nOut, ids, oi, mid, hg, h1⟩ := hm
  obtain ⟨mr', mc, h2, _⟩ := hcalls g nIn nOut ids oi mid hg
  have := h.mods c mid mr' h2
  rw [h1] at this; cases this
  exact ⟨g, nIn, nOut, ids, oi, mid, hg, h2⟩

theorem Spec.Built.transfer {P w w'} (h : SameOn P w w') {x : Ref} (hb : Built w x) : P x → Built w' x := by
  induction hb with
  | @mk r c hc ht hcalls _ ih =>
    intro hx
    refine .mk (h.circ r c hx hc) ht (h.callsOk hx hc hcalls) ?_
    intro mr hm
    have hm := h.callsBack hcalls hm
    exact ih mr hm (h.calls r c mr hx hc hm)

theorem Spec.Evaluable.transfer {P w w'} (h : SameOn P w w') {x : Ref} (hb : Evaluable w x) : P x → Evaluable w' x := by
  induction hb with
  | @mk r c hc ht hr hcalls _ ih =>
    intro hx
    refine .mk (h.circ r c hx hc) ht hr (h.callsOk hx hc hcalls) ?_
    intro mr hm
    have hm := h.callsBack hcalls hm
    exact ih mr hm (h.calls r c mr hx hc hm)

/-- values survive extension of the heap if no called circuit gains inputs -/
theorem Spec.Val.ext {w w' : World} (he : Ext w w')
    (hlen : ∀ (mr : Ref) mc mc', Called w mr → w.circs[mr]? = some mc → w'.circs[mr]? = some mc' →
      mc'.inputLen = mc.inputLen) {r : Ref} {ins g b} (h : Val w r ins g b) : Val w' r ins g b := by
  induction h with
  | input hc hg hb =>
    obtain ⟨c', hc', hx⟩ := he.circs _ _ hc
    exact .input hc' (hx.gates _ _ hg) hb
  | const hc hg =>
    obtain ⟨c', hc', hx⟩ := he.circs _ _ hc
    exact .const hc' (hx.gates _ _ hg)
  | not hc hg _ ih =>
    obtain ⟨c', hc', hx⟩ := he.circs _ _ hc
    exact .not hc' (hx.gates _ _ hg) ih
  | and hc hg _ _ ih1 ih2 =>
    obtain ⟨c', hc', hx⟩ := he.circs _ _ hc
    exact .and hc' (hx.gates _ _ hg) ih1 ih2
  | xor hc hg _ _ ih1 ih2 =>
    obtain ⟨c', hc', hx⟩ := he.circs _ _ hc
    exact .xor hc' (hx.gates _ _ hg) ih1 ih2
  | or hc hg _ _ ih1 ih2 =>
    obtain ⟨c', hc', hx⟩ := he.circs _ _ hc
    exact .or hc' (hx.gates _ _ hg) ih1 ih2
  | module hc hg hm hmc hl _ hin ho _ ih1 ih2 =>
    obtain ⟨c', hc', hx⟩ := he.circs _ _ hc
    obtain ⟨mc', hmc', hmx⟩ := he.circs _ _ hmc
    refine .module hc' (hx.gates _ _ hg) (he.module? hx.storage hm) hmc' hl ih1 ?_ (hmx.outputs _ _ ho) ih2
    rw [hlen _ _ _ ⟨_, _, hc, _, _, _, _, _, _, hg, hm⟩ hmc hmc']; exact hin

/-! ### changing one circuit that is not called -/

/-- every circuit is well-built -/
def AllBuilt (w : World) : Prop := ∀ (r : Ref) c, w.circs[r]? = some c → Built w r

theorem sameOn_setC {w : World} {r : Ref} (c' : Circuit) (hnc : ¬ Called w r) :
    SameOn (· ≠ r) w (w.setC r c') where
  circ x c hx hc := by rw [setC_get_ne c' hx]; exact hc
  calls x c mr _ hc hm := by rintro rfl; exact hnc ⟨x, c, hc, hm⟩
  mods _ _ _ h := h

/-- calls in `c'` are right with respect to heap `w` -/
theorem AllBuilt.setC {w : World} {r : Ref} {c c' : Circuit} (hb : AllBuilt w) (hc : w.circs[r]? = some c)
    (hnc : ¬ Called w r) (ht : Topo c') (hs : c'.storage = c.storage)
    (hcalls : ∀ g nIn nOut ids oi mid, c'.gateMap g = some (.module nIn nOut ids oi mid) →
      ∃ mr mc, w.module? c mid = some mr ∧ mr ≠ r ∧ w.circs[mr]? = some mc ∧ ids.length = nIn ∧ nIn = mc.inputLen ∧
        nOut = mc.outputLen) : AllBuilt (w.setC r c') := by
  have hso := sameOn_setC c' hnc
  intro x d hd
  by_cases hx : x = r
  · subst hx
    rw [setC_get hc] at hd; cases hd
    refine .mk (setC_get hc c') ht ?_ ?_
    · intro g nIn nOut ids oi mid hg
      obtain ⟨mr, mc, h1, h2, h3, h4⟩ := hcalls g nIn nOut ids oi mid hg
      exact ⟨mr, mc, by rw [← h1]; exact World.module?_congr rfl hs mid, by rw [setC_get_ne _ h2]; exact h3, h4⟩
    · rintro mr ⟨g, nIn, nOut, ids, oi, mid, hg, hm⟩
      obtain ⟨mr', mc, h1, h2, h3, h4⟩ := hcalls g nIn nOut ids oi mid hg
      rw [World.module?_congr (w := w) (w' := w.setC x c') (c := c) rfl hs, h1] at hm
      cases hm
      exact (hb mr mc h3).transfer hso h2
  · rw [setC_get_ne _ hx] at hd
    exact (hb x d hd).transfer hso hx

theorem Spec.Topo.append {c c' : Circuit} {gs : List Gate} (ht : Topo c) (h : Appends c c' gs)
    (hgs : ∀ (i : Nat) gate, gs[i]? = some gate → ∀ x ∈ gate.operands, x < lead (c.gateIndex + i) gate) : Topo c' := by
  intro g gate hg x hx
  rw [h.gate] at hg
  split at hg
  · exact ht g gate hg x hx
  · have := hgs _ _ hg x hx
    have e : c.gateIndex + (g - c.gateIndex) = g := by omega
    rw [e] at this; exact this

theorem Spec.Topo.append1 {c c' : Circuit} {gate : Gate} (ht : Topo c) (h : Appends c c' [gate])
    (hnm : ∀ a b ids o m, gate ≠ .module a b ids o m) (hx : ∀ x ∈ gate.operands, x < c.gateIndex) : Topo c' := by
  refine ht.append h ?_
  intro i gt hi x hxo
  cases i with
  | zero =>
    simp at hi; subst hi
    have := hx x hxo
    have e : lead (c.gateIndex + 0) gate = c.gateIndex := by
      cases gate <;> first | rfl | exact absurd rfl (hnm _ _ _ _ _)
    omega
  | succ i => simp at hi

/-- calls of a circuit in an all-built heap -/
theorem AllBuilt.calls {w : World} (hw : WFw w) (hb : AllBuilt w) {r : Ref} {c : Circuit} (hc : w.circs[r]? = some c) :
    ∀ g nIn nOut ids oi mid, c.gateMap g = some (.module nIn nOut ids oi mid) →
      ∃ mr mc, w.module? c mid = some mr ∧ mr ≠ r ∧ w.circs[mr]? = some mc ∧ ids.length = nIn ∧ nIn = mc.inputLen ∧
        nOut = mc.outputLen := by
  intro g nIn nOut ids oi mid hg
  obtain ⟨hc', _, hok, _⟩ := hb r c hc
  rw [hc] at hc'; cases hc'
  obtain ⟨mr, mc, h1, h2, h3⟩ := hok g nIn nOut ids oi mid hg
  obtain ⟨mr', h4, h5⟩ := hw.calls r c hc g nIn nOut ids oi mid hg
  rw [h1] at h4; cases h4
  exact ⟨mr, mc, h1, h5, h2, h3⟩

theorem Spec.Built.topo {w : World} {r : Ref} {c : Circuit} (hb : Built w r) (hc : w.circs[r]? = some c) : Topo c := by
  obtain ⟨hc', ht, _, _⟩ := hb
  rw [hc] at hc'; cases hc'; exact ht

/-- appending one gate that is not a module gate -/
theorem AllBuilt.append1 {w : World} (hw : WFw w) (hb : AllBuilt w) {r : Ref} {c c' : Circuit} {gate : Gate}
    (hc : w.circs[r]? = some c) (hnc : ¬ Called w r) (h : Appends c c' [gate])
    (hnm : ∀ a b ids o m, gate ≠ .module a b ids o m) (hx : ∀ x ∈ gate.operands, x < c.gateIndex) :
    AllBuilt (w.setC r c') := by
  refine hb.setC hc hnc ((hb r c hc).topo hc |>.append1 h hnm hx) h.storage ?_
  intro g nIn nOut ids oi mid hg
  rw [h.gate] at hg
  split at hg
  · exact hb.calls hw hc g nIn nOut ids oi mid hg
  · cases e : g - c.gateIndex with
    | zero => rw [e] at hg; simp at hg; exact absurd hg (hnm _ _ _ _ _)
    | succ k => rw [e] at hg; simp at hg

/-- still not called after appending a gate -/
theorem not_called_setC {w : World} {r : Ref} {c' : Circuit}
    (hw' : WFw (w.setC r c')) (hnc : ¬ Called w r) : ¬ Called (w.setC r c') r := by
  rintro ⟨q, d, hd, g, nIn, nOut, ids, oi, mid, hg, hm⟩
  by_cases hq : q = r
  · subst hq
    obtain ⟨mr, h1, h2⟩ := hw'.calls q d hd g nIn nOut ids oi mid hg
    rw [hm] at h1; cases h1; exact h2 rfl
  · rw [setC_get_ne _ hq] at hd
    exact hnc ⟨q, d, hd, g, nIn, nOut, ids, oi, mid, hg, hm⟩

/-! ### every valid call keeps all circuits well-built -/

section
variable {w : World} (hw : WFw w) (hb : AllBuilt w) {r : Ref} {c : Circuit} (hc : w.circs[r]? = some c)
  (hnc : ¬ Called w r)
include hw hb hc hnc

theorem AllBuilt.input : AllBuilt (w.setC r c.input.2) :=
  hb.append1 hw hc hnc (Circuit.input_appends (hw.circ r c hc)) (by intros; simp) (by simp [Gate.operands])

theorem AllBuilt.constant (v : Bool) : AllBuilt (w.setC r (c.constant v).2) :=
  hb.append1 hw hc hnc (Circuit.constant_appends (hw.circ r c hc) v) (by intros; simp) (by simp [Gate.operands])

theorem AllBuilt.not {x : GateId} (hx : x < c.gateIndex) : AllBuilt (w.setC r (c.not x).2) :=
  hb.append1 hw hc hnc (Circuit.not_appends (hw.circ r c hc) x) (by intros; simp)
    (by simp only [Gate.operands, List.mem_singleton]; rintro y rfl; exact hx)

theorem AllBuilt.xor {x y : GateId} (hx : x < c.gateIndex) (hy : y < c.gateIndex) : AllBuilt (w.setC r (c.xor x y).2) :=
  hb.append1 hw hc hnc (Circuit.xor_appends (hw.circ r c hc) x y) (by intros; simp)
    (by simp only [Gate.operands, List.mem_cons, List.not_mem_nil, or_false]; rintro z (rfl | rfl) <;> assumption)

theorem AllBuilt.and {x y : GateId} (hx : x < c.gateIndex) (hy : y < c.gateIndex) : AllBuilt (w.setC r (c.and x y).2) :=
  hb.append1 hw hc hnc (Circuit.and_appends (hw.circ r c hc) x y) (by intros; simp)
    (by simp only [Gate.operands, List.mem_cons, List.not_mem_nil, or_false]; rintro z (rfl | rfl) <;> assumption)

theorem AllBuilt.or {x y : GateId} (hx : x < c.gateIndex) (hy : y < c.gateIndex) : AllBuilt (w.setC r (c.or x y).2) :=
  hb.append1 hw hc hnc (Circuit.or_appends (hw.circ r c hc) x y) (by intros; simp)
    (by simp only [Gate.operands, List.mem_cons, List.not_mem_nil, or_false]; rintro z (rfl | rfl) <;> assumption)

theorem AllBuilt.output (g : GateId) : AllBuilt (w.setC r (c.output g).2) := by
  unfold Circuit.output
  cases e : c.gateMap g with
  | none => simp only; rw [setC_self hc]; exact hb
  | some gate =>
    have h1 := (hb r c hc).topo hc
    have h2 := hb.calls hw hc
    exact hb.setC hc hnc h1 rfl h2

theorem AllBuilt.module {mid : ModuleId} {ids : List GateId} {mr : Ref} {m c' : Circuit} {outs : List GateId}
    (hm : w.module? c mid = some mr) (hne : mr ≠ r) (hmc : w.circs[mr]? = some m) (hids : ∀ x ∈ ids, x < c.gateIndex)
    (hlen : ids.length = m.inputLen) (he : ModuleEffect c m c' mid ids outs) : AllBuilt (w.setC r c') := by
  refine hb.setC hc hnc ?_ he.appends.storage ?_
  · refine (hb r c hc).topo hc |>.append he.appends ?_
    intro i gate hi x hx
    rw [moduleGates_get] at hi
    split at hi
    · cases hi
      have := hids x hx
      simp only [lead]; omega
    · cases hi
  · intro g nIn nOut ids' oi mid' hg
    rw [he.appends.gate] at hg
    split at hg
    · exact hb.calls hw hc g nIn nOut ids' oi mid' hg
    · rw [moduleGates_get] at hg
      split at hg
      · cases hg; exact ⟨mr, m, hm, hne, hmc, hlen, rfl, rfl⟩
      · cases hg

end

theorem Ext.sameOn {w w' : World} (he : Ext w w') (h : ∀ (x : Ref) c, w.circs[x]? = some c → w'.circs[x]? = some c) :
    SameOn (fun _ => True) w w' :=
  ⟨fun x c _ => h x c, fun _ _ _ _ _ _ => trivial, fun _ _ _ hq => he.module? rfl hq⟩

theorem AllBuilt.grow {w w' : World} (hb : AllBuilt w) (he : Ext w w')
    (h : ∀ (x : Ref) c, w.circs[x]? = some c → w'.circs[x]? = some c)
    (hnew : ∀ (x : Ref) c, w'.circs[x]? = some c → (∃ y : Ref, w.circs[y]? = some c) ∨ ∃ s, c = Circuit.new s) :
    AllBuilt w' := by
  have hso := he.sameOn h
  intro x c hc
  rcases hnew x c hc with ⟨y, hy⟩ | ⟨s, rfl⟩
  · cases hb y c hy with
    | mk hc' ht hcalls hrec =>
      rw [hy] at hc'; cases hc'
      exact .mk hc ht (hso.callsOk trivial hy hcalls) fun mr hm =>
        (hrec mr (hso.callsBack hcalls hm)).transfer hso trivial
  · refine .mk hc ?_ ?_ ?_
    · intro g gate hg; cases hg
    · intro g _ _ _ _ _ hg; cases hg
    · rintro mr ⟨g, _, _, _, _, _, hg, _⟩; cases hg

theorem AllBuilt.newCircuit {w : World} (hw : WFw w) (hb : AllBuilt w) (s : StoreRef) : AllBuilt (newCircuit s w).2 := by
  refine hb.grow (good_newCircuit s w hw).2 ?_ ?_
  · intro x c hx
    unfold CC.newCircuit
    cases w.stores[s]? with
    | none => exact hx
    | some st => simp only; rw [List.getElem?_append_left (lt_of_getElem? hx)]; exact hx
  · intro x c hx
    unfold CC.newCircuit at hx
    cases e : w.stores[s]? with
    | none => rw [e] at hx; exact Or.inl ⟨x, hx⟩
    | some st =>
      rw [e] at hx; simp only at hx
      rw [getElem?_append_one] at hx
      split at hx
      · exact Or.inl ⟨x, hx⟩
      · split at hx
        · cases hx; exact Or.inr ⟨s, rfl⟩
        · cases hx

theorem AllBuilt.registerModule {w : World} (hw : WFw w) (hb : AllBuilt w) (r m : Ref) :
    AllBuilt (registerModule r m w).2 := by
  have hsame : (CC.registerModule r m w).2.circs = w.circs := by
    unfold CC.registerModule
    cases w.circs[r]? with
    | none => rfl
    | some c =>
      simp only
      cases w.circs[m]? with
      | none => rfl
      | some d =>
        simp only
        cases w.stores[c.storage]? <;> rfl
  refine hb.grow (good_registerModule r m w hw).2 ?_ ?_
  · intro x c hx; rw [hsame]; exact hx
  · intro x c hx; rw [hsame] at hx; exact Or.inl ⟨x, hx⟩

theorem map_world {α β} (x : M α) (f : α → β) (w : World) : ((do let a ← x; pure (f a)) w : Except Err β × World).2 = (x w).2 := by
  rw [M.bind_apply]
  rcases x w with ⟨a | a, w'⟩ <;> rfl

theorem AllBuilt.subCircuit {w : World} (hw : WFw w) (hb : AllBuilt w) (r : Ref) : AllBuilt (subCircuit r w).2 := by
  unfold CC.subCircuit
  cases hr : w.circs[r]? with
  | none => exact hb
  | some c =>
    simp only
    rw [M.bind_apply]
    have h1 := hb.newCircuit hw c.storage
    have h2 := (good_newCircuit c.storage w hw).1
    rcases e : CC.newCircuit c.storage w with ⟨n | n, w1⟩
    · rw [e] at h1; exact h1
    · rw [e] at h1 h2
      simp only
      have := map_world (CC.registerModule r n) (fun mid => (mid, n)) w1
      rw [this]
      exact h1.registerModule h2 r n

theorem AllBuilt.op {w : World} (hw : WFw w) (hb : AllBuilt w) (op : Op) (hv : op.Valid w) : AllBuilt (op.call w).2 := by
  cases op with
  | newStorage =>
    refine hb.grow (good_op .newStorage w hw).2 (fun x c hx => hx) (fun x c hx => Or.inl ⟨x, hx⟩)
  | newCircuit s =>
    have e : (Op.call (.newCircuit s) w).2 = (CC.newCircuit s w).2 := map_world _ _ w
    rw [e]; exact hb.newCircuit hw s
  | registerModule r m =>
    have e : (Op.call (.registerModule r m) w).2 = (CC.registerModule r m w).2 := map_world _ _ w
    rw [e]; exact hb.registerModule hw r m
  | storeModule s m =>
    have e : (Op.call (.storeModule s m) w).2 = (CC.storeModule s m w).2 := map_world _ _ w
    have hsame : (CC.storeModule s m w).2.circs = w.circs := by
      unfold CC.storeModule
      cases w.circs[m]? with
      | none => rfl
      | some d => simp only; cases w.stores[s]? <;> rfl
    rw [e]
    refine hb.grow (good_storeModule s m w hw).2 ?_ ?_
    · intro x c hx; rw [hsame]; exact hx
    · intro x c hx; rw [hsame] at hx; exact Or.inl ⟨x, hx⟩
  | clone r =>
    have e : (Op.call (.clone r) w).2 = (cloneCircuit r w).2 := map_world _ _ w
    have he := (good_clone r w hw).2
    rw [e]
    revert he
    unfold cloneCircuit
    cases hr : w.circs[r]? with
    | none => exact fun _ => hb
    | some c0 =>
      intro he
      refine hb.grow he ?_ ?_
      · intro x c hx; simp only; rw [List.getElem?_append_left (lt_of_getElem? hx)]; exact hx
      · intro x c hx
        simp only at hx
        rw [getElem?_append_one] at hx
        split at hx
        · exact Or.inl ⟨x, hx⟩
        · split at hx
          · cases hx; exact Or.inl ⟨r, hr⟩
          · cases hx
  | subCircuit r =>
    have e : (Op.call (.subCircuit r) w).2 = (CC.subCircuit r w).2 := map_world _ _ w
    rw [e]; exact hb.subCircuit hw r
  | input r =>
    have e : (Op.call (.input r) w).2 = (CC.input r w).2 := map_world _ _ w
    rw [e]
    cases hr : w.circs[r]? with
    | none => unfold CC.input; rw [onCircuit_none hr]; exact hb
    | some c => rw [input_eq hr]; exact hb.input hw hr hv
  | output r g =>
    have e : (Op.call (.output r g) w).2 = (CC.output r g w).2 := map_world _ _ w
    rw [e]
    cases hr : w.circs[r]? with
    | none => unfold CC.output; rw [onCircuit_none hr]; exact hb
    | some c => rw [output_eq hr]; exact hb.output hw hr hv g
  | constant r v =>
    have e : (Op.call (.constant r v) w).2 = (CC.constant r v w).2 := map_world _ _ w
    rw [e]
    cases hr : w.circs[r]? with
    | none => unfold CC.constant; rw [onCircuit_none hr]; exact hb
    | some c => rw [constant_eq hr]; exact hb.constant hw hr hv v
  | not r x =>
    have e : (Op.call (.not r x) w).2 = (CC.not r x w).2 := map_world _ _ w
    rw [e]
    cases hr : w.circs[r]? with
    | none => unfold CC.not; rw [onCircuit_none hr]; exact hb
    | some c => rw [not_eq hr]; exact hb.not hw hr hv.1 (hv.2.lt hw hr)
  | xor r a b =>
    have e : (Op.call (.xor r a b) w).2 = (CC.xor r a b w).2 := map_world _ _ w
    rw [e]
    cases hr : w.circs[r]? with
    | none => unfold CC.xor; rw [onCircuit_none hr]; exact hb
    | some c => rw [xor_eq hr]; exact hb.xor hw hr hv.1 (hv.2.1.lt hw hr) (hv.2.2.lt hw hr)
  | and r a b =>
    have e : (Op.call (.and r a b) w).2 = (CC.and r a b w).2 := map_world _ _ w
    rw [e]
    cases hr : w.circs[r]? with
    | none => unfold CC.and; rw [onCircuit_none hr]; exact hb
    | some c => rw [and_eq hr]; exact hb.and hw hr hv.1 (hv.2.1.lt hw hr) (hv.2.2.lt hw hr)
  | or r a b =>
    have e : (Op.call (.or r a b) w).2 = (CC.or r a b w).2 := map_world _ _ w
    rw [e]
    cases hr : w.circs[r]? with
    | none => unfold CC.or; rw [onCircuit_none hr]; exact hb
    | some c => rw [or_eq hr]; exact hb.or hw hr hv.1 (hv.2.1.lt hw hr) (hv.2.2.lt hw hr)
  | equivalent r a b =>
    have e : (Op.call (.equivalent r a b) w).2 = (CC.equivalent r a b w).2 := map_world _ _ w
    rw [e]
    cases hr : w.circs[r]? with
    | none => unfold CC.equivalent; rw [bind_error (show CC.xor r a b w = (.error .dangling, w) from onCircuit_none hr)]; exact hb
    | some c =>
      have h1 := hb.xor hw hr hv.1 (hv.2.1.lt hw hr) (hv.2.2.lt hw hr)
      have h2 : WFw (w.setC r (c.xor a b).2) := by
        have := (good_xor r a b w hw).1; rw [xor_eq hr] at this; exact this
      have h3 := h1.not h2 (setC_get hr _) (not_called_setC h2 hv.1) (x := c.gateIndex) (by rw [xor_gateIndex]; omega)
      rw [equivalent_eq hr]; rw [setC_setC] at h3; exact h3
  | identity r x =>
    have e : (Op.call (.identity r x) w).2 = (CC.identity r x w).2 := map_world _ _ w
    rw [e]
    cases hr : w.circs[r]? with
    | none => unfold CC.identity; rw [bind_error (show CC.not r x w = (.error .dangling, w) from onCircuit_none hr)]; exact hb
    | some c =>
      have h1 := hb.not hw hr hv.1 (hv.2.lt hw hr)
      have h2 : WFw (w.setC r (c.not x).2) := by
        have := (good_not r x w hw).1; rw [not_eq hr] at this; exact this
      have h3 := h1.not h2 (setC_get hr _) (not_called_setC h2 hv.1) (x := c.gateIndex) (by rw [not_gateIndex]; omega)
      rw [identity_eq hr]; rw [setC_setC] at h3; exact h3
  | module r mid ids =>
    have e : (Op.call (.module r mid ids) w).2 = (CC.module r mid ids w).2 := map_world _ _ w
    rw [e]
    obtain ⟨h1, h2, h3⟩ := hv
    unfold CC.module
    cases hr : w.circs[r]? with
    | none => exact hb
    | some c =>
      simp only
      cases hm : w.module? c mid with
      | none => exact hb
      | some mr =>
        simp only
        by_cases hself : mr = r
        · rw [if_pos hself]; exact hb
        · rw [if_neg hself]
          cases hmc : w.circs[mr]? with
          | none => exact hb
          | some m =>
            simp only
            by_cases hroom : m.inputLen + m.outputLen ≤ m.numWire
            · obtain ⟨outs, _, he⟩ := Circuit.module_ok (hw.circ r c hr) mid ids hroom
              refine hb.module hw hr h1 hm hself hmc (fun x hx => (h2 x hx).lt hw hr) (h3 m ?_) he
              unfold callee
              rw [hr]; simp only; rw [hm]; exact hmc
            · rw [Circuit.module_err mid ids hroom, setC_self hr]; exact hb

theorem Spec.ValidRun.wf {w : World} (h : ValidRun w) : WFw w := by
  induction h with
  | nil => exact WFw.empty
  | step op _ _ ih => exact (good_op op _ ih).1

theorem Spec.ValidRun.reachable {w : World} (h : ValidRun w) : Reachable w := by
  induction h with
  | nil => exact ⟨[], .nil⟩
  | step op _ _ ih => obtain ⟨evs, ih⟩ := ih; exact ⟨_, .step op ih⟩

theorem Spec.ValidRun.allBuilt {w : World} (h : ValidRun w) : AllBuilt w := by
  induction h with
  | nil => intro r c hc; simp [World.empty] at hc
  | step op h hv ih => exact ih.op h.wf op hv

theorem AllBuilt.evaluable {w : World} (hb : AllBuilt w)
    (h : ∀ (r : Ref) c i o, w.circs[r]? = some c → c.outputMap i = some o → Readable c i o) {r : Ref} {c : Circuit}
    (hc : w.circs[r]? = some c) : Evaluable w r := by
  have := hb r c hc
  induction this generalizing c with
  | @mk r c' hc' ht hcalls _ ih =>
    refine .mk hc' ht (fun i o ho => h r c' i o hc' ho) hcalls ?_
    rintro mr ⟨g, nIn, nOut, ids, oi, mid, hg, hm⟩
    obtain ⟨mr', mc, h1, h2, _⟩ := hcalls g nIn nOut ids oi mid hg
    rw [hm] at h1; cases h1
    exact ih mr ⟨g, nIn, nOut, ids, oi, mid, hg, hm⟩ h2

end CC

namespace CC
open Spec

/-! ### recursion depth: never exhausted on well-built circuits, whether or not evaluation succeeds -/

/-- not out of fuel -/
def NF {α} (x : Except Err α) : Prop := x ≠ .error .outOfFuel

theorem NF.ok {α} (a : α) : NF (.ok a : Except Err α) := by intro h; cases h

theorem NF.bind {α β} {x : Except Err α} {f : α → Except Err β} (hx : NF x) (hf : ∀ a, x = .ok a → NF (f a)) :
    NF (x >>= f) := by
  cases x with
  | error e => intro h; exact hx (by cases h; rfl)
  | ok a => exact hf a rfl

theorem NF.bit (st : EvSt) (g : GateId) : NF (st.bit g) := by
  unfold EvSt.bit; split
  · intro h; cases h
  · exact .ok _

theorem NF.release (st : EvSt) (g : GateId) : NF (st.release g) := by
  unfold EvSt.release; split
  · intro h; cases h
  · intro h; cases h
  · simp only; split <;> exact .ok _

theorem NF.releaseAll (ids : List GateId) : ∀ st, NF (releaseAll ids st) := by
  induction ids with
  | nil => intro st; exact .ok _
  | cons x xs ih => intro st; exact (NF.release st x).bind fun _ _ => ih _

theorem NF.recordOutputs (c : Circuit) (first : GateId) (outs : List Bool) (k : Nat) : ∀ i st,
    NF (recordOutputs c first outs i k st) := by
  induction k with
  | zero => intro i st; exact .ok _
  | succ k ih =>
    intro i st; unfold CC.recordOutputs; split
    · intro h; cases h
    · exact ih _ _

theorem NF.seedInputs (c : Circuit) (bs : List Bool) : ∀ i st, NF (seedInputs c i bs st) := by
  induction bs with
  | nil => intro i st; exact .ok _
  | cons b bs ih =>
    intro i st; unfold CC.seedInputs; split
    · intro h; cases h
    · exact ih _ _

theorem NF.ensure {eg : GateId → EvSt → Except Err EvSt} {x : GateId} (h : ∀ st, NF (eg x st)) (st : EvSt) :
    NF (ensure eg x st) := by
  unfold CC.ensure; split
  · exact h st
  · exact .ok _

theorem NF.collectBits {eg : GateId → EvSt → Except Err EvSt} (ids : List GateId) : (∀ x ∈ ids, ∀ st, NF (eg x st)) →
    ∀ st, NF (collectBits eg ids st) := by
  induction ids with
  | nil => intro _ st; exact .ok _
  | cons x xs ih =>
    intro h st
    exact (NF.ensure (h x (by simp)) st).bind fun _ _ => (NF.bit _ _).bind fun _ _ =>
      (ih (fun y hy => h y (List.mem_cons_of_mem _ hy)) _).bind fun _ _ => .ok _

theorem NF.evalBinary {eg : GateId → EvSt → Except Err EvSt} {c op g l r} (hl : ∀ st, NF (eg l st))
    (hr : ∀ st, NF (eg r st)) (st : EvSt) : NF (evalBinary c eg op g l r st) :=
  (NF.ensure hl st).bind fun _ _ => (NF.ensure hr _).bind fun _ _ => (NF.bit _ _).bind fun _ _ =>
    (NF.bit _ _).bind fun _ _ => (NF.release _ _).bind fun _ _ => (NF.release _ _).bind fun _ _ => .ok _

theorem NF.evalOutputs {c : Circuit} {eg : GateId → EvSt → Except Err EvSt} {inputs : List Bool}
    (h : ∀ i o, c.outputMap i = some o → ∀ st, NF (eg o st)) (k : Nat) : ∀ i st, NF (evalOutputs c eg inputs i k st) := by
  induction k with
  | zero => intro i st; exact .ok _
  | succ k ih =>
    intro i st
    refine NF.bind ?_ fun _ _ => (ih _ _).bind fun _ _ => .ok _
    unfold evalSingleOutput
    split
    · intro h; cases h
    · split
      · intro h; cases h
      · split
        · intro h; cases h
        · next o ho =>
          split
          · exact .ok _
          · exact (h i o ho st).bind fun _ _ => (NF.bit _ _).bind fun _ _ => .ok _

theorem Spec.Built.depth {w : World} (hw : WFw w) {r : Ref} (h : Built w r) :
    ∃ F, ∀ c, w.circs[r]? = some c → ∀ fuel, F ≤ fuel → ∀ ins, NF (evalOutputWith c (evalGate w fuel r) ins) := by
  induction h with
  | @mk r c hc ht hcalls _ ih =>
    have hwf := hw.circ r c hc
    obtain ⟨F, hF⟩ := exists_bound (n := c.gateIndex)
      (P := fun g F => ∀ nIn nOut ids oi mid mr mc, c.gateMap g = some (.module nIn nOut ids oi mid) →
        w.module? c mid = some mr → w.circs[mr]? = some mc → ∀ fuel, F ≤ fuel → ∀ bits : List Bool,
        NF (evalOutputWith mc (evalGate w fuel mr) bits))
      (by
        intro g a b hab h nIn nOut ids oi mid mr mc h1 h2 h3 fuel hf
        exact h nIn nOut ids oi mid mr mc h1 h2 h3 fuel (by omega))
      (by
        intro g _
        cases e : c.gateMap g with
        | none => exact ⟨0, by intro _ _ _ _ _ _ _ h; cases h⟩
        | some gate =>
          cases gate with
          | module nIn nOut ids oi mid =>
            obtain ⟨mr, mc, h1, h2, _⟩ := hcalls g nIn nOut ids oi mid e
            obtain ⟨F, hF⟩ := ih mr ⟨g, nIn, nOut, ids, oi, mid, e, h1⟩
            refine ⟨F, ?_⟩
            intro nIn' nOut' ids' oi' mid' mr' mc' h h1' h2'
            cases h
            rw [h1] at h1'; cases h1'
            exact hF mc' h2'
          | _ => exact ⟨0, by intro _ _ _ _ _ _ _ h; cases h⟩)
    have main : ∀ L fuel, F + L ≤ fuel → ∀ g, leadOf c g < L → ∀ st, NF (evalGate w fuel r g st) := by
      intro L
      induction L with
      | zero => intro fuel _ g hg; omega
      | succ L ihL =>
        intro fuel hfuel g hg st
        obtain ⟨fuel, rfl⟩ : ∃ k, fuel = k + 1 := ⟨fuel - 1, by omega⟩
        have heg := ihL fuel (by omega)
        unfold evalGate
        rw [bind_of_ok (circuit_of hc)]
        cases hgate : c.gateMap g with
        | none => intro h; cases h
        | some gate =>
          have hop : ∀ x ∈ gate.operands, ∀ st, NF (evalGate w fuel r x st) := by
            intro x hx
            have h1 := ht g gate hgate x hx
            have h2 : leadOf c g = lead g gate := by simp [leadOf, hgate]
            have h3 := leadOf_le (c := c) x
            exact heg x (by omega)
          cases gate with
          | input k => exact .ok _
          | const v => exact .ok _
          | not x =>
            exact (NF.ensure (hop x (by simp [Gate.operands])) st).bind fun _ _ => (NF.bit _ _).bind fun _ _ =>
              (NF.release _ _).bind fun _ _ => .ok _
          | xor a b => exact NF.evalBinary (hop a (by simp [Gate.operands])) (hop b (by simp [Gate.operands])) st
          | and a b => exact NF.evalBinary (hop a (by simp [Gate.operands])) (hop b (by simp [Gate.operands])) st
          | or a b => exact NF.evalBinary (hop a (by simp [Gate.operands])) (hop b (by simp [Gate.operands])) st
          | module nIn nOut ids oi mid =>
            simp only
            refine (NF.collectBits ids (fun x hx => hop x hx) st).bind fun p _ => ?_
            obtain ⟨mr, mc, h1, h2, _⟩ := hcalls g nIn nOut ids oi mid hgate
            rw [h1]
            simp only
            rw [bind_of_ok (circuit_of h2)]
            refine (hF g (hwf.lt_of_some hgate) nIn nOut ids oi mid mr mc hgate h1 h2 fuel (by omega) _).bind fun _ _ => ?_
            refine (NF.releaseAll _ _).bind fun _ _ => ?_
            split
            · intro h; cases h
            · exact NF.recordOutputs _ _ _ _ _ _
    refine ⟨F + c.gateIndex, ?_⟩
    intro c' hc' fuel hf ins
    rw [hc] at hc'; cases hc'
    unfold evalOutputWith
    split
    · intro h; cases h
    · refine (NF.seedInputs _ _ _ _).bind fun st _ => NF.evalOutputs ?_ _ _ _
      intro i o ho
      have h1 := hwf.output_gate i o ho
      have h2 := leadOf_le (c := c) o
      exact main c.gateIndex fuel hf o (by omega)

end CC
