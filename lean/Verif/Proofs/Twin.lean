import Verif.Spec.Twin
import Verif.Proofs.Reg

/-!
# Circuits that receive the same calls
-/

namespace CC
open Spec

theorem plays_append (a b : List Op) : ∀ x, play (a ++ b) x = play b (play a x) := by
  induction a with
  | nil => exact fun _ => rfl
  | cons op a ih => exact fun x => ih _

/-- the results of calls made one after another -/
def results : List Op → World → List (Except Err Ret)
  | [], _ => []
  | op :: ops, w => (op.call w).1 :: results ops (op.call w).2

/-- the heap after calls made one after another -/
def heapAfter : List Op → World → World
  | [], w => w
  | op :: ops, w => heapAfter ops (op.call w).2

theorem play_after (ops : List Op) : ∀ w evs, (play ops (w, evs)).1 = heapAfter ops w ∧
    (play ops (w, evs)).2.map (·.res) = evs.map (·.res) ++ results ops w := by
  induction ops with
  | nil => exact fun w evs => ⟨rfl, by simp [play, results]⟩
  | cons op ops ih =>
    intro w evs
    obtain ⟨h1, h2⟩ := ih (op.call w).2 (evs ++ [⟨op, w, (op.call w).1⟩])
    refine ⟨h1, ?_⟩
    show (play ops _).2.map _ = _
    rw [h2]
    simp [results]

theorem later_after (ops : List Op) : ∀ {w0 w : World}, Later w0 w → Later w0 (heapAfter ops w) := by
  induction ops with
  | nil => exact fun h => h
  | cons op ops ih => exact fun h => ih (.step op h)

theorem length_op (op : Op) (w : World) (hw : WFw w) : w.circs.length ≤ (op.call w).2.circs.length := by
  refine Nat.le_of_not_lt fun h => ?_
  have h1 : w.circs[(op.call w).2.circs.length]? = some _ := List.getElem?_eq_getElem h
  obtain ⟨c', h2, _⟩ := (good_op op w hw).2.circs _ _ h1
  simp at h2

theorem frame_after (ops : List Op) : ∀ (w : World), WFw w → ∀ {x : Ref}, (∀ op ∈ ops, op.target ≠ some x) →
    x < w.circs.length → (heapAfter ops w).circs[x]? = w.circs[x]? := by
  induction ops with
  | nil => exact fun _ _ _ _ _ => rfl
  | cons op ops ih =>
    intro w hw x h hx
    have h1 := frame_op op w x (h op (by simp)) hx
    exact (ih _ (good_op op w hw).1 (fun o ho => h o (by simp [ho])) (Nat.lt_of_lt_of_le hx (length_op op w hw))).trans h1

/-- circuit `r` in `w` is circuit `n` in `v`; the rest is equal -/
structure Twin (r n : Ref) (w v : World) : Prop where
  circ : w.circs[r]? = v.circs[n]?
  stores : w.stores = v.stores
  rest : ∀ x, x ≠ r → x ≠ n → w.circs[x]? = v.circs[x]?

theorem Twin.setC {r n : Ref} {w v : World} (h : Twin r n w v) {c : Circuit} (hr : w.circs[r]? = some c) (c' : Circuit) :
    Twin r n (w.setC r c') (v.setC n c') where
  circ := by rw [setC_get hr, setC_get (h.circ ▸ hr)]
  stores := h.stores
  rest x h1 h2 := by rw [setC_get_ne _ h1, setC_get_ne _ h2]; exact h.rest x h1 h2

theorem Twin.onCircuit {α} {r n : Ref} {w v : World} (h : Twin r n w v) (f : Circuit → Except Err α × Circuit) :
    (M.onCircuit r f w).1 = (M.onCircuit n f v).1 ∧ Twin r n (M.onCircuit r f w).2 (M.onCircuit n f v).2 := by
  unfold M.onCircuit
  cases hr : w.circs[r]? with
  | none => rw [← h.circ, hr]; exact ⟨rfl, h⟩
  | some c => rw [← h.circ, hr]; exact ⟨rfl, h.setC hr _⟩

/-- two monadic calls that agree on twins -/
def Agree {α} (r n : Ref) (x y : M α) : Prop :=
  ∀ w v, Twin r n w v → (x w).1 = (y v).1 ∧ Twin r n (x w).2 (y v).2

theorem Agree.bind {α β} {r n : Ref} {x y : M α} {f g : α → M β} (h : Agree r n x y) (k : ∀ a, Agree r n (f a) (g a)) :
    Agree r n (x >>= f) (y >>= g) := by
  intro w v hw
  obtain ⟨h1, h2⟩ := h w v hw
  simp only [M.bind_apply]
  cases hx : x w with
  | mk a w' =>
    cases hy : y v with
    | mk b v' =>
      rw [hx, hy] at h1 h2
      simp only at h1 h2
      subst h1
      cases a with
      | error e => exact ⟨rfl, h2⟩
      | ok a => exact k a w' v' h2

theorem Agree.pure {α} (r n : Ref) (a : α) : Agree r n (Pure.pure a : M α) (Pure.pure a) := fun _ _ h => ⟨rfl, h⟩

theorem agree_on {α} (r n : Ref) (f : Circuit → Except Err α × Circuit) : Agree r n (M.onCircuit r f) (M.onCircuit n f) :=
  fun _ _ h => h.onCircuit f

theorem getModule_some {w : World} {r : Ref} {c : Circuit} (hr : w.circs[r]? = some c) {mid : ModuleId} {q : Ref}
    (h : w.module? c mid = some q) : w.getModule r mid = .ok q := by
  unfold World.getModule World.circuit
  rw [hr]
  simp only [bind, Except.bind]
  rw [h]

theorem Twin.getModule {r n : Ref} {w v : World} (h : Twin r n w v) (mid : ModuleId) : w.getModule r mid = v.getModule n mid := by
  unfold World.getModule World.circuit
  rw [h.circ]
  cases v.circs[n]? with
  | none => rfl
  | some c => simp only [bind, Except.bind, World.module?, h.stores]

theorem Twin.op {r n : Ref} {w v : World} (h : Twin r n w v) {op : Op} (hb : op.Builds w r n) :
    (op.call w).1 = ((op.onto n).call v).1 ∧ Twin r n (op.call w).2 ((op.onto n).call v).2 := by
  cases op
  case input r' => cases hb; exact ((agree_on r n _).bind fun _ => .pure r n _) w v h
  case output r' g => cases hb; exact ((agree_on r n _).bind fun _ => .pure r n _) w v h
  case constant r' v => cases hb; exact ((agree_on r n _).bind fun _ => .pure r n _) w _ h
  case not r' x => cases hb; exact ((agree_on r n _).bind fun _ => .pure r n _) w v h
  case xor r' a b => cases hb; exact ((agree_on r n _).bind fun _ => .pure r n _) w v h
  case and r' a b => cases hb; exact ((agree_on r n _).bind fun _ => .pure r n _) w v h
  case or r' a b => cases hb; exact ((agree_on r n _).bind fun _ => .pure r n _) w v h
  case equivalent r' a b =>
    cases hb; exact (((agree_on r n _).bind fun _ => agree_on r n _).bind fun _ => .pure r n _) w v h
  case identity r' x =>
    cases hb; exact (((agree_on r n _).bind fun _ => agree_on r n _).bind fun _ => .pure r n _) w v h
  case module r' mid ids =>
    obtain ⟨rfl, h1, h2⟩ := hb
    have key : (CC.module r' mid ids w).1 = (CC.module n mid ids v).1 ∧
        Twin r' n (CC.module r' mid ids w).2 (CC.module n mid ids v).2 := by
      unfold CC.module
      cases hr : w.circs[r']? with
      | none => rw [← h.circ, hr]; exact ⟨rfl, h⟩
      | some c =>
        rw [← h.circ, hr]
        simp only
        have hmod : v.module? c mid = w.module? c mid := by simp only [World.module?, h.stores]
        rw [hmod]
        cases hm : w.module? c mid with
        | none => exact ⟨rfl, h⟩
        | some q =>
          have hq := getModule_some hr hm
          have n1 : q ≠ r' := by rintro rfl; exact h1 hq
          have n2 : q ≠ n := by rintro rfl; exact h2 hq
          simp only
          rw [if_neg n1, if_neg n2, ← h.rest q n1 n2]
          cases w.circs[q]? with
          | none => exact ⟨rfl, h⟩
          | some m => exact ⟨rfl, h.setC hr _⟩
    simp only [Op.call, Op.onto, M.bind_apply]
    obtain ⟨k1, k2⟩ := key
    cases hx : CC.module r' mid ids w with
    | mk a w' =>
      cases hy : CC.module n mid ids v with
      | mk b v' =>
        rw [hx, hy] at k1 k2
        simp only at k1 k2
        subst k1
        cases a <;> exact ⟨rfl, k2⟩
  all_goals exact absurd hb (by simp [Op.Builds])

/-- what a building call leaves as it is -/
theorem Spec.Op.Builds.frame {w : World} {r n : Ref} {op : Op} (hb : op.Builds w r n) :
    op.target = some r ∧ (op.call w).2.stores = w.stores := by
  have ht : op.target = some r := by
    cases op <;> first | exact congrArg some hb | exact congrArg some hb.1 | exact absurd hb (by simp [Op.Builds])
  refine ⟨ht, ?_⟩
  rcases stores_op op w (by rintro _ _ rfl; exact hb) (by rintro _ rfl; exact hb) (by rintro _ _ rfl; exact hb) with e | ⟨rfl, _⟩
  · exact e
  · exact hb.elim

theorem onCircuit_length {α} (r : Ref) (f : Circuit → Except Err α × Circuit) (w : World) :
    (M.onCircuit r f w).2.circs.length = w.circs.length := by
  unfold M.onCircuit
  cases w.circs[r]? with
  | none => rfl
  | some c => simp [World.setC]

theorem bind_length {α β} {x : M α} {f : α → M β} (hx : ∀ w, (x w).2.circs.length = w.circs.length)
    (hf : ∀ a w, (f a w).2.circs.length = w.circs.length) (w : World) : ((x >>= f) w).2.circs.length = w.circs.length := by
  have := hx w
  rw [M.bind_apply]
  rcases h : x w with ⟨a | a, w'⟩ <;> rw [h] at this
  · exact this
  · exact (hf a w').trans this

theorem Spec.Op.Builds.length {w : World} {r n : Ref} {op : Op} (hb : op.Builds w r n) :
    (op.call w).2.circs.length = w.circs.length := by
  have hp {α} (a : α) (w : World) : ((pure a : M α) w).2.circs.length = w.circs.length := rfl
  cases op
  case equivalent r' a b =>
    exact bind_length (bind_length (onCircuit_length _ _) fun _ => onCircuit_length _ _) (fun _ => hp _) w
  case identity r' x =>
    exact bind_length (bind_length (onCircuit_length _ _) fun _ => onCircuit_length _ _) (fun _ => hp _) w
  case module r' mid ids =>
    refine bind_length (fun w => ?_) (fun _ => hp _) w
    unfold CC.module
    repeat' split
    all_goals first | rfl | simp [World.setC]
  all_goals first
    | exact hb.elim
    | exact bind_length (onCircuit_length _ _) (fun _ => hp _) w

theorem Spec.Op.Builds.later {w : World} (hw : WFw w) {r n : Ref} {c : Circuit} (hr : w.circs[r]? = some c) {op : Op}
    (hb : op.Builds w r n) :
    (∀ mid, (op.call w).2.getModule r mid = w.getModule r mid) ∧ ∃ c', (op.call w).2.circs[r]? = some c' := by
  obtain ⟨c', h1, h2⟩ := (good_op op w hw).2.circs r c hr
  refine ⟨fun mid => ?_, c', h1⟩
  unfold World.getModule World.circuit
  rw [hr, h1]
  simp only [bind, Except.bind, World.module?, h2.storage, hb.frame.2]

theorem twin_after {r n : Ref} (ops : List Op) : ∀ {w v : World} {c : Circuit}, WFw w → w.circs[r]? = some c → Twin r n w v →
    (∀ op ∈ ops, op.Builds w r n) →
    results ops w = results (ops.map (Op.onto n)) v ∧ Twin r n (heapAfter ops w) (heapAfter (ops.map (Op.onto n)) v) ∧
      (heapAfter ops w).stores = w.stores ∧ (heapAfter ops w).circs.length = w.circs.length := by
  induction ops with
  | nil => exact fun _ _ h _ => ⟨rfl, h, rfl, rfl⟩
  | cons op ops ih =>
    intro w v c hw hr h hb
    have hop := hb op (by simp)
    obtain ⟨h1, h2⟩ := h.op hop
    obtain ⟨h3, c', h4⟩ := hop.later hw hr
    obtain ⟨k1, k2, k3, k4⟩ := ih (good_op op w hw).1 h4 h2 fun o ho => by
      have := hb o (by simp [ho])
      cases o <;> first | exact this | (obtain ⟨a1, a2⟩ := this; exact ⟨a1, by rw [h3]; exact a2⟩)
    exact ⟨by simp only [results, List.map_cons, h1, k1], k2, k3.trans hop.frame.2, k4.trans hop.length⟩

/-- first the calls on `r`, then the same calls on `n` -/
theorem twins_after {w : World} (hw : WFw w) {r n : Ref} (hne : n ≠ r) {c : Circuit} (hr : w.circs[r]? = some c)
    (hn : w.circs[n]? = some c) {ops : List Op} (hb : ∀ op ∈ ops, op.Builds w r n) :
    results ops w = results (ops.map (Op.onto n)) (heapAfter ops w) ∧
      (heapAfter ops w).circs[r]? = (heapAfter (ops.map (Op.onto n)) (heapAfter ops w)).circs[n]? := by
  have h0 : Twin r n w w := ⟨by rw [hr, hn], rfl, fun _ _ _ => rfl⟩
  obtain ⟨_, _, h1, hlen⟩ := twin_after ops hw hr h0 hb
  have ht : ∀ x, x ≠ r → ∀ op ∈ ops, op.target ≠ some x := fun x hx op ho e => by
    rw [(hb op ho).frame.1] at e; cases e; exact hx rfl
  have h2 : Twin r n w (heapAfter ops w) := by
    refine ⟨?_, h1.symm, fun x h3 h4 => ?_⟩
    · rw [frame_after ops w hw (ht n hne) (lt_of_getElem? hn), hr, hn]
    · by_cases hx : x < w.circs.length
      · exact (frame_after ops w hw (ht x h3) hx).symm
      · rw [List.getElem?_eq_none (by omega), List.getElem?_eq_none (by omega)]
  obtain ⟨k1, k2, _, _⟩ := twin_after ops hw hr h2 hb
  exact ⟨k1, k2.circ⟩

end CC
