import Verif.Proofs.Release
import Verif.Proofs.EvalComplete

/-!
# Release builds: heaps and evaluation

A heap of a release build is compared with a heap of the unbounded model whose `num_wire` counters have been raised so that no
module call can underflow. Neither `Val` nor the evaluator looks at these counters.
-/

namespace CC
open Spec

/-- equal up to the statistics -/
structure CoreW (w v : World) : Prop where
  stores : w.stores = v.stores
  len : w.circs.length = v.circs.length
  circ : ∀ (r : Ref) c d, w.circs[r]? = some c → v.circs[r]? = some d → Core c d

theorem CoreW.rfl' {w : World} : CoreW w w :=
  ⟨rfl, rfl, fun _ c d h k => by rw [h] at k; cases k; exact Core.rfl'⟩

theorem CoreW.symm {w v : World} (h : CoreW w v) : CoreW v w :=
  ⟨h.stores.symm, h.len.symm, fun r c d k k' => (h.circ r d c k' k).symm⟩

theorem CoreW.get {w v : World} (h : CoreW w v) {r : Ref} {c : Circuit} (k : w.circs[r]? = some c) :
    ∃ d, v.circs[r]? = some d ∧ Core c d := by
  have hlt : r < v.circs.length := h.len ▸ (List.getElem?_eq_some_iff.mp k).1
  exact ⟨v.circs[r], List.getElem?_eq_getElem hlt, h.circ r c _ k (List.getElem?_eq_getElem hlt)⟩

theorem CoreW.get_none {w v : World} (h : CoreW w v) {r : Ref} (k : w.circs[r]? = none) : v.circs[r]? = none := by
  rw [List.getElem?_eq_none_iff] at k ⊢
  exact h.len ▸ k

theorem CoreW.trans {u w v : World} (h : CoreW u w) (k : CoreW w v) : CoreW u v := by
  refine ⟨h.stores.trans k.stores, h.len.trans k.len, fun r c d hc hd => ?_⟩
  obtain ⟨e, he, h1⟩ := h.get hc
  exact h1.trans (k.circ r e d he hd)

theorem CoreW.module? {w v : World} (h : CoreW w v) {c d : Circuit} (k : Core c d) (mid : ModuleId) :
    w.module? c mid = v.module? d mid := by
  unfold World.module?
  rw [h.stores, k.storage]

theorem CoreW.setC {w v : World} (h : CoreW w v) (r : Ref) {c d : Circuit} (k : Core c d) :
    CoreW (w.setC r c) (v.setC r d) := by
  refine ⟨h.stores, by simp [World.setC, h.len], fun r' c' d' hc hd => ?_⟩
  simp only [World.setC, List.getElem?_set] at hc hd
  by_cases e : r = r'
  · subst e
    rw [if_pos rfl] at hc hd
    split at hc
    · split at hd
      · cases hc; cases hd; exact k
      · cases hd
    · cases hc
  · rw [if_neg e] at hc hd
    exact h.circ r' c' d' hc hd

/-- the counters that hand out ids fit -/
structure IdsW (w : World) : Prop where
  circs : ∀ c ∈ w.circs, IdsC c
  stores : ∀ s ∈ w.stores, s.numModule < 2 ^ 64

theorem IdsW.setC {w : World} (h : IdsW w) {r : Ref} {c : Circuit} (k : IdsC c) : IdsW (w.setC r c) := by
  refine ⟨fun d hd => ?_, h.stores⟩
  rcases List.mem_or_eq_of_mem_set hd with h1 | h1
  · exact h.circs d h1
  · exact h1 ▸ k

theorem room_of_setC {w : World} {r : Ref} {c c' : Circuit} (hc : w.circs[r]? = some c) (h : Room (w.setC r c'))
    (k : RoomC c' → RoomC c) : RoomC c' ∧ Room w := by
  have h1 : RoomC c' := h.circs c' (List.mem_iff_getElem?.mpr ⟨r, by
    simp [World.setC, (List.getElem?_eq_some_iff.mp hc).1]⟩)
  refine ⟨h1, fun d hd => ?_, h.stores⟩
  obtain ⟨r', hr'⟩ := List.mem_iff_getElem?.mp hd
  by_cases e : r = r'
  · subst e
    rw [hc] at hr'
    cases hr'
    exact k h1
  · exact h.circs d (List.mem_iff_getElem?.mpr ⟨r', by simpa [World.setC, List.getElem?_set, e] using hr'⟩)

/-- no module call on this heap underflows -/
def Padded (w : World) : Prop := ∀ c ∈ w.circs, c.inputLen + c.outputLen ≤ c.numWire

/-- a call of a release build against the one with unbounded counters -/
structure StepW {α} (P : World → Prop) (fR f : M α) : Prop where
  ids : ∀ w, IdsW w → IdsW (fR w).2
  room : ∀ w, Room (fR w).2 → Room w
  core : ∀ w v, IdsW w → Room (fR w).2 → CoreW w v → P v → (fR w).1 = (f v).1 ∧ CoreW (fR w).2 (f v).2

def Always (_ : World) : Prop := True

theorem StepW.pure {α} (a : α) : StepW Always (Pure.pure a : M α) (Pure.pure a) :=
  ⟨fun _ h => h, fun _ h => h, fun _ _ _ _ h _ => ⟨rfl, h⟩⟩

theorem StepW.bind {α β} {P : World → Prop} {xR x : M α} {fR f : α → M β} (hx : StepW P xR x)
    (hf : ∀ a, StepW Always (fR a) (f a)) : StepW P (xR >>= fR) (x >>= f) := by
  refine ⟨fun w h => ?_, fun w h => ?_, fun w v hi hr h hP => ?_⟩
  · have h1 := hx.ids w h
    simp only [M.bind_apply]
    cases hxw : xR w with
    | mk a w' =>
      rw [hxw] at h1
      cases a with
      | ok a => exact (hf a).ids w' h1
      | error e => exact h1
  · refine hx.room w ?_
    simp only [M.bind_apply] at h
    cases hxw : xR w with
    | mk a w' =>
      rw [hxw] at h
      cases a with
      | ok a => exact (hf a).room w' h
      | error e => exact h
  · have h1 := hx.ids w hi
    have h2 := hx.core w v hi
    simp only [M.bind_apply] at hr ⊢
    cases hxw : xR w with
    | mk a w' =>
      rw [hxw] at h1 h2 hr
      cases hxv : x v with
      | mk b v' =>
        rw [hxv] at h2
        cases a with
        | ok a =>
          obtain ⟨h3, h4⟩ := h2 ((hf a).room w' hr) h hP
          simp only at h3
          subst h3
          exact (hf a).core w' v' h1 hr h4 trivial
        | error e =>
          obtain ⟨h3, h4⟩ := h2 hr h hP
          simp only at h3
          subst h3
          exact ⟨rfl, h4⟩

theorem StepW.onCircuit {α} (r : Ref) {fR f : Circuit → Except Err α × Circuit} (h : CoreStep fR f) :
    StepW Always (M.onCircuit r fR) (M.onCircuit r f) := by
  refine ⟨fun w hi => ?_, fun w hr => ?_, fun w v hi hr hc _ => ?_⟩
  · unfold M.onCircuit
    cases hc : w.circs[r]? with
    | none => exact hi
    | some c => exact hi.setC (h.ids c (hi.circs c (List.mem_iff_getElem?.mpr ⟨r, hc⟩)))
  · unfold M.onCircuit at hr
    cases hc : w.circs[r]? with
    | none => rw [hc] at hr; exact hr
    | some c =>
      rw [hc] at hr
      exact (room_of_setC hc hr (h.room c)).2
  · unfold M.onCircuit at hr ⊢
    cases hw : w.circs[r]? with
    | none =>
      rw [hc.get_none hw]
      exact ⟨rfl, hc⟩
    | some c =>
      rw [hw] at hr
      obtain ⟨d, hd, h1⟩ := hc.get hw
      rw [hd]
      obtain ⟨h2, h3⟩ := h.core c d (hi.circs c (List.mem_iff_getElem?.mpr ⟨r, hw⟩)) (room_of_setC hw hr (h.room c)).1 h1
      exact ⟨h2, hc.setC r h3⟩

/-- a method that cannot fail -/
theorem CoreStep.ok {α} {fR f : Circuit → α × Circuit} (h : CoreStep fR f) :
    CoreStep (fun c => ((.ok (fR c).1, (fR c).2) : Except Err α × Circuit)) (fun c => (.ok (f c).1, (f c).2)) :=
  ⟨h.ids, h.room, fun c d hi hr k => by
    obtain ⟨h1, h2⟩ := h.core c d hi hr k
    exact ⟨congrArg Except.ok h1, h2⟩⟩

theorem stepW_newStorage : StepW Always newStorage newStorage := by
  refine ⟨fun w h => ⟨h.circs, fun s hs => ?_⟩, fun w h => ⟨h.circs, fun s hs => ?_⟩, fun w v _ _ h _ => ?_⟩
  · rcases List.mem_append.mp hs with hs | hs
    · exact h.stores s hs
    · rw [List.mem_singleton] at hs
      exact hs ▸ Nat.two_pow_pos 64
  · exact h.stores s (List.mem_append_left _ hs)
  · refine ⟨?_, ?_, h.len, h.circ⟩
    · simp only [newStorage, h.stores]
    · simp only [newStorage, h.stores]

theorem stepW_newCircuit (s : StoreRef) : StepW Always (newCircuit s) (newCircuit s) := by
  refine ⟨fun w h => ?_, fun w h => ?_, fun w v _ _ h _ => ?_⟩
  · unfold newCircuit
    cases w.stores[s]? with
    | none => exact h
    | some st =>
      refine ⟨fun c hc => ?_, h.stores⟩
      rcases List.mem_append.mp hc with hc | hc
      · exact h.circs c hc
      · rw [List.mem_singleton] at hc
        have := Nat.two_pow_pos 64
        exact hc ▸ ⟨this, this, this⟩
  · unfold newCircuit at h
    cases hs : w.stores[s]? with
    | none => rw [hs] at h; exact h
    | some st =>
      rw [hs] at h
      exact ⟨fun c hc => h.circs c (List.mem_append_left _ hc), h.stores⟩
  · unfold newCircuit
    rw [← h.stores]
    cases w.stores[s]? with
    | none => exact ⟨rfl, h⟩
    | some st =>
      refine ⟨by simp only [h.len], rfl, by simp [h.len], fun r c d hc hd => ?_⟩
      simp only [getElem?_append_one] at hc hd
      rw [h.len] at hc
      split at hc
      · next hlt =>
        rw [if_pos hlt] at hd
        exact h.circ r c d hc hd
      · next hlt =>
        rw [if_neg hlt] at hd
        split at hc
        · next e =>
          rw [if_pos e] at hd
          cases hc; cases hd
          exact Core.rfl'
        · cases hc

theorem stepW_registerModule (r m : Ref) : StepW Always (WrappingApi.registerModule r m) (CC.registerModule r m) := by
  refine ⟨fun w h => ?_, fun w h => ?_, fun w v hi hr h _ => ?_⟩
  · unfold WrappingApi.registerModule
    repeat' split
    all_goals first | exact h | skip
    refine ⟨h.circs, fun s hs => ?_⟩
    rcases List.mem_or_eq_of_mem_set hs with h1 | h1
    · exact h.stores s h1
    · exact h1 ▸ Wrapping.add_lt _ _
  · unfold WrappingApi.registerModule at h
    split at h
    · exact h
    · split at h
      · exact h
      · split at h
        · exact h
        · next c _ _ _ _ _ s hs =>
          refine ⟨h.circs, fun s' hs' => ?_⟩
          obtain ⟨i, hi⟩ := List.mem_iff_getElem?.mp hs'
          by_cases e : c.storage = i
          · subst e
            rw [hs] at hi
            cases hi
            have := h.stores (Wrapping.register s m).2 (List.mem_iff_getElem?.mpr ⟨c.storage, by
              simp [(List.getElem?_eq_some_iff.mp hs).1]⟩)
            exact (Wrapping.insert_none this).1
          · exact h.stores s' (List.mem_iff_getElem?.mpr ⟨i, by simpa [List.getElem?_set, e] using hi⟩)
  · unfold WrappingApi.registerModule at hr
    unfold WrappingApi.registerModule CC.registerModule
    cases hw : w.circs[r]? with
    | none =>
      rw [h.get_none hw]
      exact ⟨rfl, h⟩
    | some c =>
      rw [hw] at hr
      obtain ⟨d, hd, h1⟩ := h.get hw
      rw [hd]
      simp only at hr ⊢
      cases hm : w.circs[m]? with
      | none =>
        rw [h.get_none hm]
        exact ⟨rfl, h⟩
      | some mc =>
        rw [hm] at hr
        obtain ⟨md, hmd, _⟩ := h.get hm
        rw [hmd]
        simp only at hr ⊢
        rw [← h.stores, ← h1.storage]
        cases hs : w.stores[c.storage]? with
        | none => exact ⟨rfl, h⟩
        | some s =>
          rw [hs] at hr
          simp only at hr ⊢
          have h2 := hr.stores (Wrapping.register s m).2 (List.mem_iff_getElem?.mpr ⟨c.storage, by
            simp [(List.getElem?_eq_some_iff.mp hs).1]⟩)
          have h3 := Wrapping.add_one (hi.stores s (List.mem_iff_getElem?.mpr ⟨_, hs⟩)) (Wrapping.insert_none h2).2
          refine ⟨rfl, ?_, h.len, h.circ⟩
          simp only [Wrapping.register, Storage.register, h3]

theorem stepW_storeModule (q : StoreRef) (m : Ref) : StepW Always (WrappingApi.storeModule q m) (CC.storeModule q m) := by
  refine ⟨fun w h => ?_, fun w h => ?_, fun w v hi hr h _ => ?_⟩
  · unfold WrappingApi.storeModule
    repeat' split
    all_goals first | exact h | skip
    refine ⟨h.circs, fun s hs => ?_⟩
    rcases List.mem_or_eq_of_mem_set hs with h1 | h1
    · exact h.stores s h1
    · exact h1 ▸ Wrapping.add_lt _ _
  · unfold WrappingApi.storeModule at h
    split at h
    · exact h
    · split at h
      · exact h
      · next s hs =>
        refine ⟨h.circs, fun s' hs' => ?_⟩
        obtain ⟨i, hi⟩ := List.mem_iff_getElem?.mp hs'
        by_cases e : q = i
        · subst e
          rw [hs] at hi
          cases hi
          have := h.stores (Wrapping.register s m).2 (List.mem_iff_getElem?.mpr ⟨q, by
            simp [(List.getElem?_eq_some_iff.mp hs).1]⟩)
          exact (Wrapping.insert_none this).1
        · exact h.stores s' (List.mem_iff_getElem?.mpr ⟨i, by simpa [List.getElem?_set, e] using hi⟩)
  · unfold WrappingApi.storeModule at hr
    unfold WrappingApi.storeModule CC.storeModule
    cases hm : w.circs[m]? with
    | none =>
      rw [h.get_none hm]
      exact ⟨rfl, h⟩
    | some mc =>
      rw [hm] at hr
      obtain ⟨md, hmd, _⟩ := h.get hm
      rw [hmd]
      simp only at hr ⊢
      rw [← h.stores]
      cases hs : w.stores[q]? with
      | none => exact ⟨rfl, h⟩
      | some s =>
        rw [hs] at hr
        simp only at hr ⊢
        have h2 := hr.stores (Wrapping.register s m).2 (List.mem_iff_getElem?.mpr ⟨q, by
          simp [(List.getElem?_eq_some_iff.mp hs).1]⟩)
        have h3 := Wrapping.add_one (hi.stores s (List.mem_iff_getElem?.mpr ⟨_, hs⟩)) (Wrapping.insert_none h2).2
        refine ⟨rfl, ?_, h.len, h.circ⟩
        simp only [Wrapping.register, Storage.register, h3]

theorem stepW_clone (r : Ref) : StepW Always (cloneCircuit r) (cloneCircuit r) := by
  refine ⟨fun w h => ?_, fun w h => ?_, fun w v _ _ h _ => ?_⟩
  · unfold cloneCircuit
    cases hr : w.circs[r]? with
    | none => exact h
    | some d =>
      refine ⟨fun c hc => ?_, h.stores⟩
      rcases List.mem_append.mp hc with hc | hc
      · exact h.circs c hc
      · rw [List.mem_singleton] at hc
        exact hc ▸ h.circs d (List.mem_iff_getElem?.mpr ⟨r, hr⟩)
  · unfold cloneCircuit at h
    cases hr : w.circs[r]? with
    | none => rw [hr] at h; exact h
    | some d =>
      rw [hr] at h
      exact ⟨fun c hc => h.circs c (List.mem_append_left _ hc), h.stores⟩
  · unfold cloneCircuit
    cases hr : w.circs[r]? with
    | none => rw [h.get_none hr]; exact ⟨rfl, h⟩
    | some c0 =>
      obtain ⟨d0, hd0, h1⟩ := h.get hr
      rw [hd0]
      refine ⟨by simp only [h.len], h.stores, by simp [h.len], fun r c d hc hd => ?_⟩
      simp only [getElem?_append_one] at hc hd
      rw [h.len] at hc
      split at hc
      · next hlt =>
        rw [if_pos hlt] at hd
        exact h.circ r c d hc hd
      · next hlt =>
        rw [if_neg hlt] at hd
        split at hc
        · next e =>
          rw [if_pos e] at hd
          cases hc; cases hd
          exact h1
        · cases hc

theorem stepW_subCircuit (r : Ref) : StepW Always (WrappingApi.subCircuit r) (CC.subCircuit r) := by
  have key (s : StoreRef) : StepW Always
      (do let n ← newCircuit s; let mid ← WrappingApi.registerModule r n; pure (mid, n))
      (do let n ← newCircuit s; let mid ← CC.registerModule r n; pure (mid, n)) :=
    (stepW_newCircuit s).bind fun n => (stepW_registerModule r n).bind fun mid => StepW.pure _
  refine ⟨fun w h => ?_, fun w h => ?_, fun w v hi hr h _ => ?_⟩
  · unfold WrappingApi.subCircuit
    cases hw : w.circs[r]? with
    | none => exact h
    | some c => exact (key c.storage).ids w h
  · unfold WrappingApi.subCircuit at h
    cases hw : w.circs[r]? with
    | none => rw [hw] at h; exact h
    | some c => rw [hw] at h; exact (key c.storage).room w h
  · unfold WrappingApi.subCircuit at hr
    unfold WrappingApi.subCircuit CC.subCircuit
    cases hw : w.circs[r]? with
    | none =>
      rw [h.get_none hw]
      exact ⟨rfl, h⟩
    | some c =>
      rw [hw] at hr
      obtain ⟨d, hd, h1⟩ := h.get hw
      rw [hd]
      simp only [← h1.storage]
      exact (key c.storage).core w v hi hr h trivial

theorem stepW_module (r : Ref) (mid : ModuleId) (ids : List GateId) :
    StepW Padded (WrappingApi.module r mid ids) (CC.module r mid ids) := by
  refine ⟨fun w h => ?_, fun w h => ?_, fun w v hi hr h hP => ?_⟩
  · unfold WrappingApi.module
    cases hw : w.circs[r]? with
    | none => exact h
    | some c =>
      simp only
      split
      · exact h
      · split
        · exact h
        · split
          · exact h
          · exact h.setC (Wrapping.module_ids mid ids (h.circs c (List.mem_iff_getElem?.mpr ⟨r, hw⟩)))
  · unfold WrappingApi.module at h
    cases hw : w.circs[r]? with
    | none => rw [hw] at h; exact h
    | some c =>
      rw [hw] at h
      simp only at h
      split at h
      · exact h
      · split at h
        · exact h
        · split at h
          · exact h
          · exact (room_of_setC hw h Wrapping.module_room).2
  · unfold WrappingApi.module at hr
    unfold WrappingApi.module CC.module
    cases hw : w.circs[r]? with
    | none =>
      rw [h.get_none hw]
      exact ⟨rfl, h⟩
    | some c =>
      rw [hw] at hr
      obtain ⟨d, hd, h1⟩ := h.get hw
      rw [hd]
      simp only at hr ⊢
      rw [← h.module? h1]
      cases hm : w.module? c mid with
      | none => exact ⟨rfl, h⟩
      | some mr =>
        rw [hm] at hr
        simp only at hr ⊢
        by_cases e : mr = r
        · rw [if_pos e, if_pos e]
          exact ⟨rfl, h⟩
        · rw [if_neg e] at hr
          rw [if_neg e, if_neg e]
          cases hmr : w.circs[mr]? with
          | none =>
            rw [h.get_none hmr]
            exact ⟨rfl, h⟩
          | some m =>
            rw [hmr] at hr
            obtain ⟨n, hn, h2⟩ := h.get hmr
            rw [hn]
            simp only at hr ⊢
            obtain ⟨h3, h4⟩ := Wrapping.module_core (hi.circs c (List.mem_iff_getElem?.mpr ⟨r, hw⟩))
              (room_of_setC hw hr Wrapping.module_room).1 h1 h2 (hP n (List.mem_iff_getElem?.mpr ⟨mr, hn⟩))
            exact ⟨h3, h.setC r h4⟩

theorem StepW.weaken {α} {fR f : M α} (h : StepW Always fR f) : StepW Padded fR f :=
  ⟨h.ids, h.room, fun w v hi hr hc _ => h.core w v hi hr hc trivial⟩

theorem callR_step (op : Op) : StepW Padded op.callR op.call := by
  have hnot r x : StepW Always (WrappingApi.not r x) (CC.not r x) := .onCircuit r (Wrapping.not_core x).ok
  have hbin r gate a b : StepW Always (WrappingApi.binary r gate a b)
      (M.onCircuit r fun c => (.ok (Wrapping.binaryU gate a b c).1, (Wrapping.binaryU gate a b c).2)) :=
    .onCircuit r (Wrapping.binary_core gate a b).ok
  have hxor r a b : StepW Always (WrappingApi.xor r a b) (CC.xor r a b) := hbin r (.xor a b) a b
  cases op with
  | newStorage => exact (stepW_newStorage.bind fun _ => StepW.pure _).weaken
  | newCircuit s => exact ((stepW_newCircuit s).bind fun _ => StepW.pure _).weaken
  | input r => exact ((StepW.onCircuit r Wrapping.input_core.ok).bind fun _ => StepW.pure _).weaken
  | output r g => exact ((StepW.onCircuit r (Wrapping.output_core g)).bind fun _ => StepW.pure _).weaken
  | constant r v => exact ((StepW.onCircuit r (Wrapping.constant_core v).ok).bind fun _ => StepW.pure _).weaken
  | not r x => exact ((hnot r x).bind fun _ => StepW.pure _).weaken
  | xor r a b => exact ((hxor r a b).bind fun _ => StepW.pure _).weaken
  | and r a b => exact ((hbin r (.and a b) a b).bind fun _ => StepW.pure _).weaken
  | or r a b => exact ((hbin r (.or a b) a b).bind fun _ => StepW.pure _).weaken
  | equivalent r a b => exact (((hxor r a b).bind fun x => hnot r x).bind fun _ => StepW.pure _).weaken
  | identity r x => exact (((hnot r x).bind fun y => hnot r y).bind fun _ => StepW.pure _).weaken
  | registerModule r m => exact ((stepW_registerModule r m).bind fun _ => StepW.pure _).weaken
  | storeModule s m => exact ((stepW_storeModule s m).bind fun _ => StepW.pure _).weaken
  | clone r => exact ((stepW_clone r).bind fun _ => StepW.pure _).weaken
  | subCircuit r => exact ((stepW_subCircuit r).bind fun _ => StepW.pure _).weaken
  | module r mid ids => exact (stepW_module r mid ids).bind fun _ => StepW.pure _

/-! ### raising `num_wire` -/

/-- the circuit with a `num_wire` large enough for a call of it -/
def padC (c : Circuit) : Circuit := { c with numWire := c.numWire + (c.inputLen + c.outputLen) }

def padW (w : World) : World := { w with circs := w.circs.map padC }

theorem padW_get {w : World} {r : Ref} : (padW w).circs[r]? = (w.circs[r]?).map padC := by simp [padW]

theorem padW_core (w : World) : CoreW w (padW w) := by
  refine ⟨rfl, by simp [padW], fun r c d hc hd => ?_⟩
  rw [padW_get, hc] at hd
  cases hd
  exact ⟨rfl, rfl, rfl, rfl, rfl, rfl, rfl, rfl, rfl⟩

theorem padW_padded (w : World) : Padded (padW w) := by
  intro c hc
  obtain ⟨d, _, rfl⟩ := List.mem_map.mp hc
  exact Nat.le_add_left _ _

theorem padW_wf {w : World} (h : WFw w) : WFw (padW w) := by
  have hget : ∀ {r : Ref} {c}, (padW w).circs[r]? = some c → ∃ d, w.circs[r]? = some d ∧ c = padC d := by
    intro r c hc
    rw [padW_get] at hc
    cases hd : w.circs[r]? with
    | none => rw [hd] at hc; cases hc
    | some d => rw [hd] at hc; cases hc; exact ⟨d, rfl, rfl⟩
  refine ⟨?_, ?_, h.mods, ?_, ?_⟩
  · intro r c hc
    obtain ⟨d, hd, rfl⟩ := hget hc
    have k := h.circ r d hd
    exact ⟨k.gate_dom, k.input_iff, k.input_dom, k.output_dom, k.output_gate, k.const_iff, k.const_sorted, k.dep, k.group,
      Nat.le_trans k.wires (Nat.le_add_right _ _), k.consts⟩
  · intro r c hc
    obtain ⟨d, hd, rfl⟩ := hget hc
    exact h.store r d hd
  · intro s st hst m r hm
    have := h.mods_ref s st hst m r hm
    simpa [padW] using this
  · intro r c hc g nIn nOut ids oi mid hg
    obtain ⟨d, hd, rfl⟩ := hget hc
    exact h.calls r d hd g nIn nOut ids oi mid hg

/-! ### what does not look at the statistics -/

theorem Core.calls {w v : World} (h : CoreW w v) {c d : Circuit} (k : Core c d) {mr : Ref} (hc : Calls w c mr) :
    Calls v d mr := by
  obtain ⟨g, nIn, nOut, ids, oi, mid, hg, hm⟩ := hc
  exact ⟨g, nIn, nOut, ids, oi, mid, k.gateMap ▸ hg, h.module? k mid ▸ hm⟩

theorem Core.topo {c d : Circuit} (k : Core c d) (h : Topo c) : Topo d := by
  unfold Topo at h ⊢
  rw [← k.gateMap]
  exact h

theorem Core.callsOk {w v : World} (h : CoreW w v) {c d : Circuit} (k : Core c d) (hc : CallsOk w c) : CallsOk v d := by
  intro g nIn nOut ids oi mid hg
  rw [← k.gateMap] at hg
  obtain ⟨mr, mc, h1, h2, h3, h4, h5⟩ := hc g nIn nOut ids oi mid hg
  obtain ⟨md, h6, h7⟩ := h.get h2
  exact ⟨mr, md, h.module? k mid ▸ h1, h6, h3, h7.inputLen ▸ h4, h7.outputLen ▸ h5⟩

theorem CoreW.built {w v : World} (h : CoreW w v) {r : Ref} (hb : Built w r) : Built v r := by
  induction hb with
  | mk hc ht hk _ ih =>
    obtain ⟨d, hd, k⟩ := h.get hc
    exact .mk hd (k.topo ht) (k.callsOk h hk) fun mr hm => ih mr (k.symm.calls h.symm hm)

theorem Core.reach {c d : Circuit} (k : Core c d) {g x : GateId} (h : Reach c g x) : Reach d g x := by
  induction h with
  | refl => exact .refl
  | operand _ h2 h3 ih => exact .operand ih (k.gateMap ▸ h2) h3
  | sibling _ h2 h3 ih => exact .sibling ih (k.gateMap ▸ h2) h3

theorem Core.readable {c d : Circuit} (k : Core c d) {i : WireId} {o : GateId} (h : Readable c i o) : Readable d i o := by
  rcases h with h | ⟨g, gate, h1, h2, h3⟩
  · exact Or.inl fun g gate hg => h g gate (by rw [k.gateMap]; exact hg)
  · refine Or.inr ⟨g, gate, k.gateMap ▸ h1, h2, ?_⟩
    rcases h3 with h3 | h3
    · exact Or.inl fun j p hj hp hr => h3 j p hj (by rw [k.outputMap]; exact hp) (k.symm.reach hr)
    · exact Or.inr h3

theorem CoreW.evaluable {w v : World} (h : CoreW w v) {r : Ref} (hb : Evaluable w r) : Evaluable v r := by
  induction hb with
  | mk hc ht hr hk _ ih =>
    obtain ⟨d, hd, k⟩ := h.get hc
    refine .mk hd (k.topo ht) (fun i o ho => k.readable (hr i o (by rw [k.outputMap]; exact ho))) (k.callsOk h hk)
      fun mr hm => ih mr (k.symm.calls h.symm hm)

theorem CoreW.called {w v : World} (h : CoreW w v) {r : Ref} (hc : Called w r) : Called v r := by
  obtain ⟨q, c, h1, h2⟩ := hc
  obtain ⟨d, h3, k⟩ := h.get h1
  exact ⟨q, d, h3, k.calls h h2⟩

theorem CoreW.hasGate {w v : World} (h : CoreW w v) {r : Ref} {g : GateId} (hc : HasGate w r g) : HasGate v r g := by
  obtain ⟨gate, hg⟩ := hc
  unfold World.getGate World.circuit at hg
  cases hw : w.circs[r]? with
  | none => rw [hw] at hg; cases hg
  | some c =>
    rw [hw] at hg
    obtain ⟨d, hd, k⟩ := h.get hw
    refine ⟨gate, ?_⟩
    unfold World.getGate World.circuit
    rw [hd]
    show (match d.gateMap g with
      | none => .error (.unknownGate g)
      | some gate => .ok gate : Except Err Gate) = .ok gate
    rw [← k.gateMap]
    exact hg

theorem CoreW.callee {w v : World} (h : CoreW w v) {r : Ref} {mid : ModuleId} {d : Circuit}
    (hd : callee v r mid = some d) : ∃ c, callee w r mid = some c ∧ Core c d := by
  unfold Spec.callee at hd ⊢
  cases hv : v.circs[r]? with
  | none => rw [hv] at hd; cases hd
  | some e =>
    rw [hv] at hd
    obtain ⟨c, hc, k⟩ := h.symm.get hv
    rw [hc]
    simp only at hd ⊢
    rw [h.module? k.symm]
    cases hm : v.module? e mid with
    | none => rw [hm] at hd; cases hd
    | some mr =>
      rw [hm] at hd
      simp only at hd ⊢
      obtain ⟨m, hm', k'⟩ := h.symm.get hd
      exact ⟨m, hm', k'.symm⟩

theorem CoreW.valid {w v : World} (h : CoreW w v) {op : Op} (hv : op.Valid w) : op.Valid v := by
  have hc {r} (k : ¬ Called w r) : ¬ Called v r := fun k' => k (h.symm.called k')
  cases op with
  | newStorage => trivial
  | newCircuit s => trivial
  | registerModule r m => trivial
  | storeModule s m => trivial
  | clone r => trivial
  | subCircuit r => trivial
  | input r => exact hc hv
  | output r g => exact hc hv
  | constant r v => exact hc hv
  | not r x => exact ⟨hc hv.1, h.hasGate hv.2⟩
  | identity r x => exact ⟨hc hv.1, h.hasGate hv.2⟩
  | xor r a b => exact ⟨hc hv.1, h.hasGate hv.2.1, h.hasGate hv.2.2⟩
  | and r a b => exact ⟨hc hv.1, h.hasGate hv.2.1, h.hasGate hv.2.2⟩
  | or r a b => exact ⟨hc hv.1, h.hasGate hv.2.1, h.hasGate hv.2.2⟩
  | equivalent r a b => exact ⟨hc hv.1, h.hasGate hv.2.1, h.hasGate hv.2.2⟩
  | module r mid ids =>
    refine ⟨hc hv.1, fun x hx => h.hasGate (hv.2.1 x hx), fun mc hmc => ?_⟩
    obtain ⟨c, h1, k⟩ := h.callee hmc
    rw [hv.2.2 c h1, k.inputLen]

theorem CoreW.val {w v : World} (h : CoreW w v) {r : Ref} {ins : List Bool} {g : GateId} {b : Bool}
    (hv : Val w r ins g b) : Val v r ins g b := by
  induction hv with
  | input h1 h2 h3 => obtain ⟨d, hd, k⟩ := h.get h1; exact .input hd (k.gateMap ▸ h2) h3
  | const h1 h2 => obtain ⟨d, hd, k⟩ := h.get h1; exact .const hd (k.gateMap ▸ h2)
  | not h1 h2 _ ih => obtain ⟨d, hd, k⟩ := h.get h1; exact .not hd (k.gateMap ▸ h2) ih
  | and h1 h2 _ _ ih ih' => obtain ⟨d, hd, k⟩ := h.get h1; exact .and hd (k.gateMap ▸ h2) ih ih'
  | xor h1 h2 _ _ ih ih' => obtain ⟨d, hd, k⟩ := h.get h1; exact .xor hd (k.gateMap ▸ h2) ih ih'
  | or h1 h2 _ _ ih ih' => obtain ⟨d, hd, k⟩ := h.get h1; exact .or hd (k.gateMap ▸ h2) ih ih'
  | module h1 h2 h3 h4 h5 _ h7 h8 _ ih ih' =>
    obtain ⟨d, hd, k⟩ := h.get h1
    obtain ⟨m, hm, k'⟩ := h.get h4
    exact .module hd (k.gateMap ▸ h2) (h.module? k _ ▸ h3) hm h5 ih (k'.inputLen ▸ h7) (k'.outputMap ▸ h8) ih'

theorem CoreW.outputs {w v : World} (h : CoreW w v) {r : Ref} {ins outs : List Bool} (ho : Outputs w r ins outs) :
    Outputs v r ins outs := by
  obtain ⟨c, hc, h1, h2, h3⟩ := ho
  obtain ⟨d, hd, k⟩ := h.get hc
  refine ⟨d, hd, k.inputLen ▸ h1, k.outputLen ▸ h2, fun i b hb => ?_⟩
  obtain ⟨o, h4, h5⟩ := h3 i b hb
  exact ⟨o, k.outputMap ▸ h4, h.val h5⟩

/-! ### evaluation -/

theorem Core.record {c d : Circuit} (k : Core c d) (st : EvSt) (g : GateId) (b : Bool) : st.record c g b = st.record d g b := by
  simp only [EvSt.record, Circuit.dependedGates, k.depMap]

theorem Core.recordOutputs {c d : Circuit} (k : Core c d) (first : GateId) (outs : List Bool) (n : Nat) :
    ∀ (i : Nat) (st : EvSt), CC.recordOutputs c first outs i n st = CC.recordOutputs d first outs i n st := by
  induction n with
  | zero => exact fun _ _ => rfl
  | succ n ih =>
    intro i st
    unfold CC.recordOutputs
    cases outs[i]? with
    | none => rfl
    | some b => simp only [k.record, ih]

theorem Core.evalOutputWith {c d : Circuit} (k : Core c d) (eg : GateId → EvSt → Except Err EvSt) (ins : List Bool) :
    CC.evalOutputWith c eg ins = CC.evalOutputWith d eg ins := by
  have hseed (bs : List Bool) : ∀ (i : WireId) (st : EvSt), seedInputs c i bs st = seedInputs d i bs st := by
    induction bs with
    | nil => exact fun _ _ => rfl
    | cons b bs ih =>
      intro i st
      unfold seedInputs
      rw [k.inputMap]
      cases d.inputMap i with
      | none => rfl
      | some g => simp only [k.record, ih]
  have houts (n : Nat) : ∀ (i : Nat) (st : EvSt), evalOutputs c eg ins i n st = evalOutputs d eg ins i n st := by
    induction n with
    | zero => exact fun _ _ => rfl
    | succ n ih =>
      intro i st
      simp only [evalOutputs, evalSingleOutput, k.inputLen, k.outputLen, k.outputMap, ih]
  simp only [CC.evalOutputWith, k.inputLen, k.outputLen, hseed, houts]

theorem CoreW.circuit_err {w v : World} (h : CoreW w v) {r : Ref} (k : w.circs[r]? = none) :
    w.circuit r = .error .dangling ∧ v.circuit r = .error .dangling := by
  simp only [World.circuit, k, h.get_none k, and_self]

theorem CoreW.evalGate {w v : World} (h : CoreW w v) (fuel : Nat) : ∀ r : Ref, CC.evalGate w fuel r = CC.evalGate v fuel r := by
  induction fuel with
  | zero => exact fun _ => rfl
  | succ fuel ih =>
    intro r
    funext g st
    unfold CC.evalGate
    cases hw : w.circs[r]? with
    | none =>
      rw [(h.circuit_err hw).1, (h.circuit_err hw).2]
      rfl
    | some c =>
      obtain ⟨d, hd, k⟩ := h.get hw
      have e1 : w.circuit r = .ok c := by simp only [World.circuit, hw]
      have e2 : v.circuit r = .ok d := by simp only [World.circuit, hd]
      simp only [e1, e2, ok_bind', ← k.gateMap]
      cases hgate : c.gateMap g with
      | none => rfl
      | some gate =>
        cases gate with
        | input k => rfl
        | const v => simp only [k.record]
        | not x => simp only [ih, k.record]
        | xor a b => simp only [evalBinary, ih, k.record]
        | and a b => simp only [evalBinary, ih, k.record]
        | or a b => simp only [evalBinary, ih, k.record]
        | module nIn nOut ids oi mid =>
          simp only [ih, ← h.module? k, k.recordOutputs]
          cases w.module? c mid with
          | none => rfl
          | some mr =>
            cases hm : w.circs[mr]? with
            | none => simp only [(h.circuit_err hm).1, (h.circuit_err hm).2]
            | some m =>
              obtain ⟨n, hn, k'⟩ := h.get hm
              have e3 : w.circuit mr = .ok m := by simp only [World.circuit, hm]
              have e4 : v.circuit mr = .ok n := by simp only [World.circuit, hn]
              simp only [e3, e4, ok_bind', k'.evalOutputWith]
  where
    ok_bind' {α β : Type} (a : α) (f : α → Except Err β) : ((.ok a : Except Err α) >>= f) = f a := rfl

theorem CoreW.evalOutput {w v : World} (h : CoreW w v) (fuel : Nat) (r : Ref) (ins : List Bool) :
    CC.evalOutput w fuel r ins = CC.evalOutput v fuel r ins := by
  unfold CC.evalOutput
  cases hw : w.circs[r]? with
  | none => rw [(h.circuit_err hw).1, (h.circuit_err hw).2]; rfl
  | some c =>
    obtain ⟨d, hd, k⟩ := h.get hw
    have e1 : w.circuit r = .ok c := by simp only [World.circuit, hw]
    have e2 : v.circuit r = .ok d := by simp only [World.circuit, hd]
    rw [e1, e2]
    show CC.evalOutputWith c _ ins = CC.evalOutputWith d _ ins
    rw [k.evalOutputWith, h.evalGate]

/-! ### histories -/

theorem idsW_empty : IdsW World.empty :=
  ⟨fun _ h => absurd h List.not_mem_nil, fun _ h => absurd h List.not_mem_nil⟩

theorem Spec.RunR.ids {w : World} (h : RunR w) : IdsW w := by
  induction h with
  | nil => exact idsW_empty
  | step op _ ih => exact (callR_step op).ids _ ih

theorem Spec.ValidRunR.run {w : World} (h : ValidRunR w) : RunR w := by
  induction h with
  | nil => exact .nil
  | step op _ _ ih => exact .step op ih

/-- a heap of the unbounded model that differs only in the statistics -/
theorem Spec.RunR.ideal {w : World} (h : RunR w) (hr : Room w) : ∃ v, CoreW w v ∧ WFw v ∧ Padded v := by
  induction h with
  | nil => exact ⟨World.empty, CoreW.rfl', WFw.empty, fun _ h => absurd h List.not_mem_nil⟩
  | @step w op h ih =>
    obtain ⟨v, h1, h2, h3⟩ := ih ((callR_step op).room w hr)
    obtain ⟨_, h4⟩ := (callR_step op).core w v h.ids hr h1 h3
    exact ⟨padW (op.call v).2, h4.trans (padW_core _), padW_wf (keepsWF_op op v h2), padW_padded _⟩

theorem Spec.ValidRunR.ideal {w : World} (h : ValidRunR w) (hr : Room w) :
    ∃ v, CoreW w v ∧ WFw v ∧ Padded v ∧ AllBuilt v := by
  induction h with
  | nil =>
    exact ⟨World.empty, CoreW.rfl', WFw.empty, fun _ h => absurd h List.not_mem_nil,
      fun r c hc => by simp [World.empty] at hc⟩
  | @step w op h hv ih =>
    obtain ⟨v, h1, h2, h3, h3'⟩ := ih ((callR_step op).room w hr)
    obtain ⟨_, h4⟩ := (callR_step op).core w v h.run.ids hr h1 h3
    refine ⟨padW (op.call v).2, h4.trans (padW_core _), padW_wf (keepsWF_op op v h2), padW_padded _, fun r c hc => ?_⟩
    obtain ⟨d, hd, _⟩ := (padW_core (op.call v).2).symm.get hc
    exact (padW_core _).built (h3'.op h2 op (h1.valid hv) r d hd)

end CC
