import Verif.Proofs.WF

/-!
# Effect of every API call, and growth of the heap
-/

namespace CC

variable {w : World} {r : Ref} {c : Circuit}

theorem onCircuit_eq {α} {f : Circuit → Except Err α × Circuit} (hr : w.circs[r]? = some c) :
    M.onCircuit r f w = ((f c).1, w.setC r (f c).2) := by
  unfold M.onCircuit; rw [hr]

theorem onCircuit_none {α} {f : Circuit → Except Err α × Circuit} (hr : w.circs[r]? = none) :
    M.onCircuit r f w = (.error .dangling, w) := by
  unfold M.onCircuit; rw [hr]

theorem input_eq (hr : w.circs[r]? = some c) : input r w = (.ok c.gateIndex, w.setC r c.input.2) :=
  onCircuit_eq hr

theorem constant_eq (hr : w.circs[r]? = some c) (v : Bool) :
    constant r v w = (.ok c.gateIndex, w.setC r (c.constant v).2) := onCircuit_eq hr

theorem not_eq (hr : w.circs[r]? = some c) (x : GateId) :
    not r x w = (.ok c.gateIndex, w.setC r (c.not x).2) := onCircuit_eq hr

theorem xor_eq (hr : w.circs[r]? = some c) (a b : GateId) :
    xor r a b w = (.ok c.gateIndex, w.setC r (c.xor a b).2) := onCircuit_eq hr

theorem and_eq (hr : w.circs[r]? = some c) (a b : GateId) :
    and r a b w = (.ok c.gateIndex, w.setC r (c.and a b).2) := onCircuit_eq hr

theorem or_eq (hr : w.circs[r]? = some c) (a b : GateId) :
    or r a b w = (.ok c.gateIndex, w.setC r (c.or a b).2) := onCircuit_eq hr

theorem output_eq (hr : w.circs[r]? = some c) (g : GateId) :
    output r g w = ((c.output g).1, w.setC r (c.output g).2) := onCircuit_eq hr

theorem output_eq_ok (hr : w.circs[r]? = some c) {g : GateId} {gate : Gate} (hg : c.gateMap g = some gate) :
    output r g w = (.ok c.outputLen, w.setC r
      { c with outputMap := c.outputMap.insert c.outputLen g, outputLen := c.outputLen + 1 }) := by
  rw [output_eq hr]; unfold Circuit.output; rw [hg]

theorem setC_self (hr : w.circs[r]? = some c) : w.setC r c = w := by
  obtain ⟨h1, h2⟩ := List.getElem?_eq_some_iff.mp hr
  unfold World.setC
  have : w.circs.set r c = w.circs := by rw [← h2]; exact List.set_getElem_self h1
  rw [this]

theorem output_eq_err (hr : w.circs[r]? = some c) {g : GateId} (hg : c.gateMap g = none) :
    output r g w = (.error (.unknownGate g), w) := by
  rw [output_eq hr]; unfold Circuit.output; rw [hg]
  simp only [setC_self hr]

theorem setC_get (hr : w.circs[r]? = some c) (c' : Circuit) : (w.setC r c').circs[r]? = some c' := by
  rw [getElem?_setC (lt_of_getElem? hr), if_pos rfl]

theorem setC_get_ne {r' : Ref} (c' : Circuit) (h : r' ≠ r) : (w.setC r c').circs[r']? = w.circs[r']? := by
  unfold World.setC
  simp only [List.getElem?_set]
  rw [if_neg (fun e => h e.symm)]

theorem setC_setC (c1 c2 : Circuit) : (w.setC r c1).setC r c2 = w.setC r c2 := by
  simp [World.setC]

theorem setC_length (c' : Circuit) : (w.setC r c').circs.length = w.circs.length := by simp [World.setC]

theorem setC_stores (c' : Circuit) : (w.setC r c').stores = w.stores := rfl

theorem not_gateIndex (x : GateId) : (c.not x).2.gateIndex = c.gateIndex + 1 := by
  simp [Circuit.not, Circuit.addGate]

theorem xor_gateIndex (a b : GateId) : (c.xor a b).2.gateIndex = c.gateIndex + 1 := by
  simp [Circuit.xor, Circuit.addGate]

theorem equivalent_eq (hr : w.circs[r]? = some c) (a b : GateId) :
    equivalent r a b w = (.ok (c.gateIndex + 1), w.setC r ((c.xor a b).2.not c.gateIndex).2) := by
  unfold equivalent
  rw [bind_ok (xor_eq hr a b), not_eq (setC_get hr _), setC_setC, xor_gateIndex]

theorem identity_eq (hr : w.circs[r]? = some c) (x : GateId) :
    identity r x w = (.ok (c.gateIndex + 1), w.setC r ((c.not x).2.not c.gateIndex).2) := by
  unfold identity
  rw [bind_ok (not_eq hr x), not_eq (setC_get hr _), setC_setC, not_gateIndex]

theorem newCircuit_eq {s : StoreRef} {st : Storage} (hs : w.stores[s]? = some st) :
    newCircuit s w = (.ok w.circs.length, { w with circs := w.circs ++ [Circuit.new s] }) := by
  unfold newCircuit; rw [hs]

theorem registerModule_eq {m : Ref} {mc : Circuit} {st : Storage} (hr : w.circs[r]? = some c)
    (hm : w.circs[m]? = some mc) (hs : w.stores[c.storage]? = some st) :
    registerModule r m w =
      (.ok st.numModule, { w with stores := w.stores.set c.storage (st.register m).2 }) := by
  unfold registerModule; rw [hr]; simp only; rw [hm]; simp only; rw [hs]; rfl

theorem subCircuit_eq {st : Storage} (hr : w.circs[r]? = some c) (hs : w.stores[c.storage]? = some st) :
    subCircuit r w = (.ok (st.numModule, w.circs.length),
      { circs := w.circs ++ [Circuit.new c.storage]
        stores := w.stores.set c.storage (st.register w.circs.length).2 }) := by
  unfold subCircuit; rw [hr]; simp only
  have hlt := lt_of_getElem? hr
  rw [bind_ok (newCircuit_eq hs)]
  have h2 := registerModule_eq (w := { w with circs := w.circs ++ [Circuit.new c.storage] }) (r := r) (c := c)
    (m := w.circs.length) (mc := Circuit.new c.storage) (st := st)
    (by simp only; rw [List.getElem?_append_left hlt]; exact hr) (by simp) hs
  rw [bind_ok h2]
  rfl

theorem module_eq {mid : ModuleId} {mr : Ref} {m : Circuit} (hr : w.circs[r]? = some c)
    (hm : w.module? c mid = some mr) (hne : mr ≠ r) (hmc : w.circs[mr]? = some m) (ids : List GateId) :
    module r mid ids w = ((c.module m mid ids).1, w.setC r (c.module m mid ids).2) := by
  unfold module; rw [hr]; simp only; rw [hm]; simp only; rw [if_neg hne, hmc]

/-- a successful module call -/
theorem module_eq_ok {mid : ModuleId} {mr : Ref} {m : Circuit} (hc : WFc c) (hr : w.circs[r]? = some c)
    (hm : w.module? c mid = some mr) (hne : mr ≠ r) (hmc : w.circs[mr]? = some m)
    (hroom : m.inputLen + m.outputLen ≤ m.numWire) (ids : List GateId) :
    ∃ c', module r mid ids w = (.ok (List.range' c.gateIndex m.outputLen), w.setC r c') ∧
      ModuleEffect c m c' mid ids (List.range' c.gateIndex m.outputLen) := by
  obtain ⟨outs, h1, h2⟩ := Circuit.module_ok hc mid ids hroom
  refine ⟨(c.module m mid ids).2, ?_, ?_⟩
  · rw [module_eq hr hm hne hmc, h1, h2.outs_eq]
  · have := h2.outs_eq
    rw [this] at h2; exact h2

/-! ### growth -/

/-- `c'` keeps everything in `c` -/
structure ExtC (c c' : Circuit) : Prop where
  storage : c'.storage = c.storage
  gates : ∀ g x, c.gateMap g = some x → c'.gateMap g = some x
  inputs : ∀ k g, c.inputMap k = some g → c'.inputMap k = some g
  outputs : ∀ k g, c.outputMap k = some g → c'.outputMap k = some g
  gateIndex : c.gateIndex ≤ c'.gateIndex
  inputLen : c.inputLen ≤ c'.inputLen
  outputLen : c.outputLen ≤ c'.outputLen
  constGates : c.constGates <+: c'.constGates

theorem ExtC.refl (c : Circuit) : ExtC c c :=
  ⟨rfl, fun _ _ h => h, fun _ _ h => h, fun _ _ h => h, Nat.le_refl _, Nat.le_refl _, Nat.le_refl _,
    List.prefix_rfl⟩

theorem ExtC.trans {a b c : Circuit} (h : ExtC a b) (k : ExtC b c) : ExtC a c :=
  ⟨k.storage.trans h.storage, fun g x hg => k.gates g x (h.gates g x hg),
    fun g x hg => k.inputs g x (h.inputs g x hg), fun g x hg => k.outputs g x (h.outputs g x hg),
    Nat.le_trans h.gateIndex k.gateIndex, Nat.le_trans h.inputLen k.inputLen,
    Nat.le_trans h.outputLen k.outputLen, h.constGates.trans k.constGates⟩

/-- `w'` keeps everything in `w` -/
structure Ext (w w' : World) : Prop where
  circs : ∀ (r : Ref) c, w.circs[r]? = some c → ∃ c', w'.circs[r]? = some c' ∧ ExtC c c'
  stores : ∀ (s : StoreRef) st, w.stores[s]? = some st → ∃ st', w'.stores[s]? = some st' ∧
    ∀ m q, st.moduleMap m = some q → st'.moduleMap m = some q

theorem Ext.refl (w : World) : Ext w w :=
  ⟨fun _ c h => ⟨c, h, ExtC.refl c⟩, fun _ st h => ⟨st, h, fun _ _ h => h⟩⟩

theorem Ext.trans {a b c : World} (h : Ext a b) (k : Ext b c) : Ext a c := by
  constructor
  · intro r x hx
    obtain ⟨y, hy, h1⟩ := h.circs r x hx
    obtain ⟨z, hz, h2⟩ := k.circs r y hy
    exact ⟨z, hz, h1.trans h2⟩
  · intro r x hx
    obtain ⟨y, hy, h1⟩ := h.stores r x hx
    obtain ⟨z, hz, h2⟩ := k.stores r y hy
    exact ⟨z, hz, fun m q hq => h2 m q (h1 m q hq)⟩

theorem Ext.module? {w w' : World} (h : Ext w w') {c c' : Circuit} (hs : c'.storage = c.storage)
    {mid : ModuleId} {q : Ref} (hq : w.module? c mid = some q) : w'.module? c' mid = some q := by
  unfold World.module? at hq ⊢
  rw [hs]
  cases e : w.stores[c.storage]? with
  | none => rw [e] at hq; cases hq
  | some st =>
    rw [e] at hq
    obtain ⟨st', h1, h2⟩ := h.stores _ _ e
    rw [h1]; exact h2 _ _ hq

theorem Ext.setC {c' : Circuit} (hr : w.circs[r]? = some c) (h : ExtC c c') : Ext w (w.setC r c') := by
  refine ⟨?_, fun s st hst => ⟨st, hst, fun _ _ h => h⟩⟩
  intro r' d hd
  by_cases e : r' = r
  · subst e; rw [hr] at hd; cases hd; exact ⟨c', setC_get hr c', h⟩
  · exact ⟨d, by rw [setC_get_ne c' e]; exact hd, ExtC.refl d⟩

theorem ExtC.of_appends {c' : Circuit} {gs : List Gate} (hw : WFc c) (h : Appends c c' gs)
    (h1 : ∀ k g, c.inputMap k = some g → c'.inputMap k = some g) (h2 : c.inputLen ≤ c'.inputLen)
    (h3 : c.constGates <+: c'.constGates) : ExtC c c' :=
  ⟨h.storage, fun _ _ hg => h.mono hw hg, h1, fun k g hk => by rw [h.outputMap]; exact hk,
    by rw [h.idx]; omega, h2, by rw [h.outputLen]; exact Nat.le_refl _, h3⟩

theorem ExtC.input (hw : WFc c) : ExtC c c.input.2 := by
  refine .of_appends hw (Circuit.input_appends hw) ?_ (Nat.le_succ _) List.prefix_rfl
  intro k g hk
  have : c.input.2.inputMap = c.inputMap.insert c.inputLen c.gateIndex := rfl
  rw [this, Map.insert_apply, if_neg]
  · exact hk
  · have := (hw.input_dom k).mp (by simp [hk]); omega

theorem ExtC.constant (hw : WFc c) (v : Bool) : ExtC c (c.constant v).2 :=
  .of_appends hw (Circuit.constant_appends hw v) (fun _ _ h => h) (Nat.le_refl _)
    (List.prefix_append _ _)

theorem ExtC.not (hw : WFc c) (x : GateId) : ExtC c (c.not x).2 := by
  refine .of_appends hw (Circuit.not_appends hw x) ?_ ?_ ?_ <;> simp [Circuit.not, Circuit.addGate]

theorem ExtC.xor (hw : WFc c) (a b : GateId) : ExtC c (c.xor a b).2 := by
  refine .of_appends hw (Circuit.xor_appends hw a b) ?_ ?_ ?_ <;> simp [Circuit.xor, Circuit.addGate]

theorem ExtC.and (hw : WFc c) (a b : GateId) : ExtC c (c.and a b).2 := by
  refine .of_appends hw (Circuit.and_appends hw a b) ?_ ?_ ?_ <;> simp [Circuit.and, Circuit.addGate]

theorem ExtC.or (hw : WFc c) (a b : GateId) : ExtC c (c.or a b).2 := by
  refine .of_appends hw (Circuit.or_appends hw a b) ?_ ?_ ?_ <;> simp [Circuit.or, Circuit.addGate]

theorem ExtC.output (hw : WFc c) (g : GateId) : ExtC c (c.output g).2 := by
  unfold Circuit.output
  cases c.gateMap g with
  | none => exact ExtC.refl c
  | some gate =>
    refine ⟨rfl, fun _ _ h => h, fun _ _ h => h, ?_, Nat.le_refl _, Nat.le_refl _, Nat.le_succ _,
      List.prefix_rfl⟩
    intro k g hk
    simp only [Map.insert_apply]
    rw [if_neg]
    · exact hk
    · have := (hw.output_dom k).mp (by simp [hk]); omega

theorem ExtC.of_moduleEffect {m c' : Circuit} {mid ids outs} (hw : WFc c)
    (h : ModuleEffect c m c' mid ids outs) : ExtC c c' :=
  .of_appends hw h.appends (fun k g hk => by rw [h.inputMap]; exact hk) (by rw [h.inputLen]; exact Nat.le_refl _)
    (by rw [h.constGates]; exact List.prefix_rfl)

/-- a program that keeps heaps well-formed and never removes or changes what is there -/
def Good {α} (x : M α) : Prop := ∀ w, WFw w → WFw (x w).2 ∧ Ext w (x w).2

theorem Good.pure {α} (a : α) : Good (pure a : M α) := fun w h => ⟨h, Ext.refl w⟩

theorem Good.throw {α} (e : Err) : Good (M.throw e : M α) := fun w h => ⟨h, Ext.refl w⟩

theorem Good.read {α} (f : World → Except Err α) : Good (M.read f) := fun w h => ⟨h, Ext.refl w⟩

theorem Good.bind {α β} {x : M α} {f : α → M β} (hx : Good x) (hf : ∀ a, Good (f a)) :
    Good (x >>= f) := by
  intro w hw
  have h1 := hx w hw
  rw [M.bind_apply]
  rcases e : x w with ⟨a | a, w'⟩ <;> rw [e] at h1
  · exact h1
  · have h2 := hf a w' h1.1
    exact ⟨h2.1, h1.2.trans h2.2⟩

theorem Good.expect {α} {x : M α} (hx : Good x) : Good (M.expect x) := by
  intro w hw
  have h1 := hx w hw
  unfold M.expect
  split <;> simp_all

theorem Good.replicate {α} {x : M α} (hx : Good x) : ∀ n, Good (M.replicate x n)
  | 0 => Good.pure _
  | n + 1 => hx.bind fun _ => (Good.replicate hx n).bind fun _ => Good.pure _

theorem Good.mapList {α β} {f : α → M β} (hf : ∀ a, Good (f a)) : ∀ l, Good (M.mapList f l)
  | [] => Good.pure _
  | x :: xs => (hf x).bind fun _ => (Good.mapList hf xs).bind fun _ => Good.pure _

theorem Good.foldList {σ α} {f : σ → α → M σ} (hf : ∀ s a, Good (f s a)) : ∀ s l, Good (M.foldList f s l)
  | _, [] => Good.pure _
  | s, x :: xs => (hf s x).bind fun s' => Good.foldList hf s' xs

theorem Good.idx {α} (l : List α) (i : Nat) : Good (M.idx l i) := by
  unfold M.idx; cases l[i]? with
  | none => exact Good.throw _
  | some a => exact Good.pure a

theorem Good.onCircuit {α} {r : Ref} {f : Circuit → Except Err α × Circuit}
    (hk : KeepsWF (M.onCircuit r f)) (h : ∀ c, WFc c → ExtC c (f c).2) : Good (M.onCircuit r f) := by
  intro w hw
  refine ⟨hk w hw, ?_⟩
  unfold M.onCircuit
  cases e : w.circs[r]? with
  | none => exact Ext.refl w
  | some c => exact Ext.setC e (h c (hw.circ r c e))

theorem good_input (r : Ref) : Good (input r) := Good.onCircuit (keepsWF_input r) fun _ h => .input h
theorem good_constant (r : Ref) (v : Bool) : Good (constant r v) :=
  Good.onCircuit (keepsWF_constant r v) fun _ h => .constant h v
theorem good_not (r : Ref) (x : GateId) : Good (not r x) :=
  Good.onCircuit (keepsWF_not r x) fun _ h => .not h x
theorem good_xor (r : Ref) (a b : GateId) : Good (xor r a b) :=
  Good.onCircuit (keepsWF_xor r a b) fun _ h => .xor h a b
theorem good_and (r : Ref) (a b : GateId) : Good (and r a b) :=
  Good.onCircuit (keepsWF_and r a b) fun _ h => .and h a b
theorem good_or (r : Ref) (a b : GateId) : Good (or r a b) :=
  Good.onCircuit (keepsWF_or r a b) fun _ h => .or h a b
theorem good_output (r : Ref) (g : GateId) : Good (output r g) :=
  Good.onCircuit (keepsWF_output r g) fun _ h => .output h g
theorem good_equivalent (r : Ref) (a b : GateId) : Good (equivalent r a b) :=
  (good_xor r a b).bind fun _ => good_not r _
theorem good_identity (r : Ref) (x : GateId) : Good (identity r x) :=
  (good_not r x).bind fun _ => good_not r _

theorem good_newStorage : Good newStorage := by
  intro w hw
  refine ⟨keepsWF_newStorage w hw, fun r c h => ⟨c, h, ExtC.refl c⟩, ?_⟩
  intro s st hs
  refine ⟨st, ?_, fun _ _ h => h⟩
  simp only [newStorage]
  rw [List.getElem?_append_left (lt_of_getElem? hs)]; exact hs

theorem good_newCircuit (s : StoreRef) : Good (newCircuit s) := by
  intro w hw
  refine ⟨keepsWF_newCircuit s w hw, ?_⟩
  unfold newCircuit
  cases w.stores[s]? with
  | none => exact Ext.refl w
  | some st0 =>
    refine ⟨?_, fun s st hs => ⟨st, hs, fun _ _ h => h⟩⟩
    intro r c hr
    refine ⟨c, ?_, ExtC.refl c⟩
    simp only
    rw [List.getElem?_append_left (lt_of_getElem? hr)]; exact hr

theorem good_storeModule (s : StoreRef) (m : Ref) : Good (storeModule s m) := by
  intro w hw
  refine ⟨keepsWF_storeModule s m w hw, ?_⟩
  unfold storeModule
  cases hm : w.circs[m]? with
  | none => exact Ext.refl w
  | some mc =>
    simp only
    cases hs : w.stores[s]? with
    | none => exact Ext.refl w
    | some st =>
      simp only
      refine ⟨fun r c h => ⟨c, h, ExtC.refl c⟩, ?_⟩
      intro s' st' hs'
      simp only [List.getElem?_set]
      by_cases e : s = s'
      · subst e
        rw [hs] at hs'; cases hs'
        refine ⟨_, by simp [lt_of_getElem? hs]; rfl, ?_⟩
        intro k q hq
        simp only [Storage.register, Map.insert_apply]
        have := (hw.mods _ _ hs k).mp (by simp [hq])
        rw [if_neg (by omega)]; exact hq
      · exact ⟨st', by simp [e, hs'], fun _ _ h => h⟩

theorem good_registerModule (r m : Ref) : Good (registerModule r m) := by
  intro w hw
  cases hr : w.circs[r]? with
  | none => unfold registerModule; rw [hr]; exact ⟨hw, Ext.refl w⟩
  | some c => rw [registerModule_store hr]; exact good_storeModule _ _ w hw

theorem good_clone (r : Ref) : Good (cloneCircuit r) := by
  intro w hw
  refine ⟨keepsWF_clone r w hw, ?_⟩
  unfold cloneCircuit
  cases w.circs[r]? with
  | none => exact Ext.refl w
  | some c0 =>
    refine ⟨?_, fun s st hs => ⟨st, hs, fun _ _ h => h⟩⟩
    intro r c hr
    refine ⟨c, ?_, ExtC.refl c⟩
    simp only
    rw [List.getElem?_append_left (lt_of_getElem? hr)]; exact hr

theorem good_subCircuit (r : Ref) : Good (subCircuit r) := by
  intro w hw
  unfold subCircuit
  cases hr : w.circs[r]? with
  | none => exact ⟨hw, Ext.refl w⟩
  | some c =>
    exact ((good_newCircuit c.storage).bind fun n =>
      (good_registerModule r n).bind fun mid => Good.pure (mid, n)) w hw

theorem good_module (r : Ref) (mid : ModuleId) (ids : List GateId) : Good (module r mid ids) := by
  intro w hw
  refine ⟨keepsWF_module r mid ids w hw, ?_⟩
  unfold module
  cases hr : w.circs[r]? with
  | none => exact Ext.refl w
  | some c =>
    simp only
    cases hm : w.module? c mid with
    | none => exact Ext.refl w
    | some mr =>
      simp only
      by_cases hself : mr = r
      · rw [if_pos hself]; exact Ext.refl w
      · rw [if_neg hself]
        cases hmc : w.circs[mr]? with
        | none => exact Ext.refl w
        | some m =>
          simp only
          have hc := hw.circ r c hr
          by_cases hroom : m.inputLen + m.outputLen ≤ m.numWire
          · obtain ⟨outs, _, he⟩ := Circuit.module_ok hc mid ids hroom
            exact Ext.setC hr (ExtC.of_moduleEffect hc he)
          · rw [Circuit.module_err mid ids hroom]
            exact Ext.setC hr (ExtC.refl c)

open Spec in
theorem good_op (op : Op) : Good op.call := by
  cases op <;> unfold Op.call
  · exact good_newStorage.bind fun _ => Good.pure _
  · exact (good_newCircuit _).bind fun _ => Good.pure _
  · exact (good_input _).bind fun _ => Good.pure _
  · exact (good_output _ _).bind fun _ => Good.pure _
  · exact (good_constant _ _).bind fun _ => Good.pure _
  · exact (good_not _ _).bind fun _ => Good.pure _
  · exact (good_xor _ _ _).bind fun _ => Good.pure _
  · exact (good_and _ _ _).bind fun _ => Good.pure _
  · exact (good_or _ _ _).bind fun _ => Good.pure _
  · exact (good_equivalent _ _ _).bind fun _ => Good.pure _
  · exact (good_identity _ _).bind fun _ => Good.pure _
  · exact (good_registerModule _ _).bind fun _ => Good.pure _
  · exact (good_storeModule _ _).bind fun _ => Good.pure _
  · exact (good_subCircuit _).bind fun _ => Good.pure _
  · exact (good_clone _).bind fun _ => Good.pure _
  · exact (good_module _ _ _).bind fun _ => Good.pure _

open Spec in
theorem ext_of_later {w w' : World} (hw : WFw w) (h : Later w w') : WFw w' ∧ Ext w w' := by
  induction h with
  | refl => exact ⟨hw, Ext.refl w⟩
  | step op _ ih =>
    obtain ⟨h1, h2⟩ := ih
    obtain ⟨h3, h4⟩ := good_op op _ h1
    exact ⟨h3, h2.trans h4⟩

end CC
