import Verif.Proofs.Hist

/-!
# The module tables as a function of the history
-/

namespace CC
open Spec

/-- storage `s` is what the history says -/
def RegAt (evs : List Ev) (w : World) (s : StoreRef) : Prop :=
  (∀ k, ((w.stores[s]?).getD Storage.new).moduleMap k = (evs.flatMap (Ev.registered s))[k]?) ∧
    ((w.stores[s]?).getD Storage.new).numModule = (evs.flatMap (Ev.registered s)).length

/-- calls other than registrations do not touch existing module tables -/
theorem stores_op (op : Op) (w : World) (h1 : ∀ r m, op ≠ .registerModule r m) (h2 : ∀ r, op ≠ .subCircuit r)
    (h3 : ∀ s m, op ≠ .storeModule s m) :
    (op.call w).2.stores = w.stores ∨ op = .newStorage ∧ (op.call w).2.stores = w.stores ++ [Storage.new] := by
  have on {α β} (r' : Ref) (f : Circuit → Except Err α × Circuit) (k : α → M β) (hk : ∀ a w, (k a w).2 = w) :
      ((M.onCircuit r' f >>= k) w).2.stores = w.stores := by
    rw [M.bind_apply]
    unfold M.onCircuit
    cases e : w.circs[r']? with
    | none => rfl
    | some c =>
      simp only
      rcases e2 : (f c).1 with e' | a
      · rfl
      · simp only; rw [hk]; rfl
  have on' {α β γ} (r' : Ref) (f : Circuit → Except Err α × Circuit) (f' : α → Circuit → Except Err β × Circuit)
      (k : β → M γ) (hk : ∀ a w, (k a w).2 = w) :
      (((M.onCircuit r' f >>= fun a => M.onCircuit r' (f' a)) >>= k) w).2.stores = w.stores := by
    rw [M.bind_apply, M.bind_apply]
    unfold M.onCircuit
    cases e : w.circs[r']? with
    | none => rfl
    | some c =>
      simp only
      rcases e2 : (f c).1 with e' | a
      · rfl
      · simp only
        rw [setC_get e]
        simp only
        rcases e3 : (f' a (f c).2).1 with e' | b
        · rfl
        · simp only; rw [hk]; rfl
  cases op
  case newStorage => exact Or.inr ⟨rfl, rfl⟩
  case newCircuit s =>
    refine Or.inl ?_
    simp only [Op.call, newCircuit, M.bind_apply]
    cases w.stores[s]? <;> rfl
  case input => exact Or.inl (on _ _ _ (fun _ _ => rfl))
  case output => exact Or.inl (on _ _ _ (fun _ _ => rfl))
  case constant => exact Or.inl (on _ _ _ (fun _ _ => rfl))
  case not => exact Or.inl (on _ _ _ (fun _ _ => rfl))
  case xor => exact Or.inl (on _ _ _ (fun _ _ => rfl))
  case and => exact Or.inl (on _ _ _ (fun _ _ => rfl))
  case or => exact Or.inl (on _ _ _ (fun _ _ => rfl))
  case equivalent => exact Or.inl (on' _ _ _ _ (fun _ _ => rfl))
  case identity => exact Or.inl (on' _ _ _ _ (fun _ _ => rfl))
  case registerModule r m => exact absurd rfl (h1 r m)
  case storeModule s m => exact absurd rfl (h3 s m)
  case subCircuit r => exact absurd rfl (h2 r)
  case clone r =>
    refine Or.inl ?_
    simp only [Op.call, cloneCircuit, M.bind_apply]
    cases w.circs[r]? <;> rfl
  case module r' mid ids =>
    refine Or.inl ?_
    simp only [Op.call, M.bind_apply]
    unfold CC.module
    cases e : w.circs[r']? with
    | none => rfl
    | some c =>
      simp only
      cases e2 : w.module? c mid with
      | none => rfl
      | some mr =>
        simp only
        by_cases hs : mr = r'
        · rw [if_pos hs]
        · rw [if_neg hs]
          cases e3 : w.circs[mr]? with
          | none => rfl
          | some m =>
            simp only
            rcases e4 : (c.module m mid ids).1 with x | x <;> rfl

theorem RegAt.quiet {evs : List Ev} {w w' : World} {s : StoreRef} {e : Ev} (h : RegAt evs w s)
    (hq : e.registered s = [])
    (hs : (w'.stores[s]?).getD Storage.new = (w.stores[s]?).getD Storage.new) : RegAt (evs ++ [e]) w' s := by
  unfold RegAt at *
  simpa [hs, hq] using h

theorem getD_set_ne {st : Storage} {l : List Storage} {s s' : Nat} (h : s' ≠ s) :
    ((l.set s' st)[s]?) = l[s]? := by
  rw [List.getElem?_set, if_neg h]

theorem getD_snoc (l : List Storage) (s : Nat) :
    ((l ++ [Storage.new])[s]?).getD Storage.new = (l[s]?).getD Storage.new := by
  rw [getElem?_snoc]
  by_cases h : s = l.length
  · subst h; simp
  · rw [if_neg h]

/-- registering `n` in `s'` -/
theorem RegAt.register {evs : List Ev} {w w' : World} {s s' : StoreRef} {e : Ev} {st : Storage} {n : Ref}
    (h : RegAt evs w s) (hst : w.stores[s']? = some st)
    (hw' : w'.stores = w.stores.set s' (st.register n).2)
    (he : e.registered s = if s' = s then [n] else []) : RegAt (evs ++ [e]) w' s := by
  by_cases hs : s' = s
  · subst hs
    unfold RegAt at *
    rw [hw', List.getElem?_set, if_pos rfl, if_pos (lt_of_getElem? hst)]
    rw [hst] at h
    simp only [Option.getD_some] at h ⊢
    obtain ⟨h1, h2⟩ := h
    rw [List.flatMap_append]
    simp only [List.flatMap_cons, List.flatMap_nil, List.append_nil, he, if_true, List.length_append,
      List.length_singleton]
    constructor
    · intro k
      rw [getElem?_snoc, ← h2, ← h1]
      simp only [Storage.register, Map.insert_apply]
    · simp only [Storage.register]; omega
  · refine h.quiet (by rw [he, if_neg hs]) ?_
    rw [hw', getD_set_ne hs]

theorem RegAt.step {evs : List Ev} {w : World} (hw : WFw w) (op : Op) (s : StoreRef) (h : RegAt evs w s) :
    RegAt (evs ++ [⟨op, w, (op.call w).1⟩]) (op.call w).2 s := by
  by_cases h1 : ∃ r m, op = .registerModule r m
  · obtain ⟨r, m, rfl⟩ := h1
    have err {e : Err} (he : CC.registerModule r m w = (.error e, w)) :
        RegAt (evs ++ [⟨.registerModule r m, w, ((Op.registerModule r m).call w).1⟩])
          ((Op.registerModule r m).call w).2 s := by
      have e' : (Op.registerModule r m).call w = (.error e, w) := bind_error he
      rw [e']; exact h.quiet rfl rfl
    cases hr : w.circs[r]? with
    | none => exact err (by unfold CC.registerModule; rw [hr])
    | some c =>
      cases hm : w.circs[m]? with
      | none => exact err (by unfold CC.registerModule; rw [hr]; simp only; rw [hm])
      | some mc =>
        obtain ⟨st, hst⟩ : ∃ st, w.stores[c.storage]? = some st :=
          ⟨_, List.getElem?_eq_getElem (hw.store _ _ hr)⟩
        have e' : (Op.registerModule r m).call w = _ := bind_ok (registerModule_eq hr hm hst)
        rw [e']
        refine h.register hst rfl ?_
        simp only [Ev.registered, M.pure_apply, hr, Option.map_some, Option.some.injEq]
  · by_cases h2 : ∃ r, op = .subCircuit r
    · obtain ⟨r, rfl⟩ := h2
      cases hr : w.circs[r]? with
      | none =>
        have e' : (Op.subCircuit r).call w = (.error .dangling, w) :=
          bind_error (by unfold CC.subCircuit; rw [hr])
        rw [e']; exact h.quiet rfl rfl
      | some c =>
        obtain ⟨st, hst⟩ : ∃ st, w.stores[c.storage]? = some st :=
          ⟨_, List.getElem?_eq_getElem (hw.store _ _ hr)⟩
        have e' : (Op.subCircuit r).call w = _ := bind_ok (subCircuit_eq hr hst)
        rw [e']
        refine h.register hst rfl ?_
        simp only [Ev.registered, M.pure_apply, hr, Option.map_some, Option.some.injEq]
    · by_cases h3 : ∃ s' m, op = .storeModule s' m
      · obtain ⟨s', m, rfl⟩ := h3
        have err {e : Err} (he : CC.storeModule s' m w = (.error e, w)) :
            RegAt (evs ++ [⟨.storeModule s' m, w, ((Op.storeModule s' m).call w).1⟩])
              ((Op.storeModule s' m).call w).2 s := by
          have e' : (Op.storeModule s' m).call w = (.error e, w) := bind_error he
          rw [e']; exact h.quiet rfl rfl
        cases hm : w.circs[m]? with
        | none => exact err (by unfold CC.storeModule; rw [hm])
        | some mc =>
          cases hst : w.stores[s']? with
          | none => exact err (by unfold CC.storeModule; rw [hm]; simp only; rw [hst])
          | some st =>
            have e : CC.storeModule s' m w = (.ok (st.register m).1, { w with stores := w.stores.set s' (st.register m).2 }) := by
              unfold CC.storeModule; rw [hm]; simp only; rw [hst]
            have e' : (Op.storeModule s' m).call w = _ := bind_ok e
            rw [e']
            exact h.register hst rfl rfl
      · have hq : (Ev.mk op w (op.call w).1).registered s = [] := by
          unfold Ev.registered
          cases op <;> first | rfl | (exact absurd ⟨_, _, rfl⟩ h1) | (exact absurd ⟨_, rfl⟩ h2) | (exact absurd ⟨_, _, rfl⟩ h3)
        refine h.quiet hq ?_
        rcases stores_op op w (fun r m e => h1 ⟨r, m, e⟩) (fun r e => h2 ⟨r, e⟩) (fun s' m e => h3 ⟨s', m, e⟩) with e | ⟨_, e⟩
        · rw [e]
        · rw [e, getD_snoc]

theorem RegAt.of_run {w : World} {evs : List Ev} (h : Run w evs) (s : StoreRef) : RegAt evs w s := by
  induction h with
  | nil => unfold RegAt; simp [World.empty, Storage.new, Map.empty]
  | step op h ih => exact RegAt.step (WFw.of_run h) op s ih

end CC
