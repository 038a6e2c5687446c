import Verif.Proofs.EvalComplete
import Verif.Proofs.Account
import Verif.Model.Ticks
import Verif.Spec.Effort

/-!
# How often the evaluator computes a gate (C66)

`G` weakens the invariant `J` of `Proofs/EvalComplete.lean` so that it holds in every state: it speaks only about the gates
computed since some moment (`done`), so it can be started afresh at any time. As long as a gate of `done` has a reader that
is not in `done`, its value is in the map; so no gate is computed twice while `done` grows.
-/

namespace CC
open Spec Ticks

/-! ### results do not depend on the clock -/

namespace Ticks

/-- `x` gives `y`, whatever the time -/
def Er {α : Type} (x : T α) (y : Except Err α) : Prop := ∀ n, (x n).1 = y

theorem Er.pure {α : Type} (a : α) : Er (Pure.pure a : T α) (.ok a) := fun _ => rfl
theorem Er.lift {α : Type} (a : Except Err α) : Er (Ticks.lift a) a := fun _ => rfl
theorem Er.throw {α : Type} (e : Err) : Er (Ticks.throw e : T α) (.error e) := fun _ => rfl

theorem Er.bind {α β : Type} {x : T α} {y : Except Err α} {f : α → T β} {g : α → Except Err β} (h : Er x y)
    (k : ∀ a, Er (f a) (g a)) : Er (x >>= f) (y >>= g) := by
  intro n
  have h1 := h n
  show (match x n with | (.ok a, m) => f a m | (.error e, m) => (.error e, m)).1 = _
  rcases e : x n with ⟨a, m⟩
  rw [e] at h1
  cases h1
  cases a with
  | error e => rfl
  | ok a => exact k a m

theorem Er.tick {α : Type} {k : Nat} {f : Unit → T α} {y : Except Err α} (h : Er (f ()) y) :
    Er (Ticks.tick k >>= f) y := fun n => h (n + k)

theorem Er.ensure {eg : GateId → EvSt → T EvSt} {eg' : GateId → EvSt → Except Err EvSt}
    (h : ∀ g st, Er (eg g st) (eg' g st)) (id : GateId) (st : EvSt) : Er (Ticks.ensure eg id st) (CC.ensure eg' id st) := by
  unfold Ticks.ensure CC.ensure
  cases st.evaled id with
  | none => exact h id st
  | some _ => exact Er.pure _

theorem Er.collectBits {eg : GateId → EvSt → T EvSt} {eg' : GateId → EvSt → Except Err EvSt}
    (h : ∀ g st, Er (eg g st) (eg' g st)) : ∀ (ids : List GateId) (st : EvSt),
    Er (Ticks.collectBits eg ids st) (CC.collectBits eg' ids st)
  | [], _ => Er.pure _
  | id :: ids, st => by
    unfold Ticks.collectBits CC.collectBits
    exact (Er.ensure h id st).bind fun st => (Er.lift _).bind fun b => (Er.collectBits h ids st).bind fun _ => Er.pure _

theorem Er.evalBinary {eg : GateId → EvSt → T EvSt} {eg' : GateId → EvSt → Except Err EvSt}
    (h : ∀ g st, Er (eg g st) (eg' g st)) (c : Circuit) (op : Bool → Bool → Bool) (g l r : GateId) (st : EvSt) :
    Er (Ticks.evalBinary c eg op g l r st) (CC.evalBinary c eg' op g l r st) := by
  unfold Ticks.evalBinary CC.evalBinary
  exact (Er.ensure h l st).bind fun st => (Er.ensure h r st).bind fun st => (Er.lift _).bind fun _ => (Er.lift _).bind
    fun _ => (Er.lift _).bind fun _ => (Er.lift _).bind fun _ => Er.pure _

theorem Er.evalSingleOutput {eg : GateId → EvSt → T EvSt} {eg' : GateId → EvSt → Except Err EvSt}
    (h : ∀ g st, Er (eg g st) (eg' g st)) (c : Circuit) (inputs : List Bool) (i : WireId) (st : EvSt) :
    Er (Ticks.evalSingleOutput c eg inputs i st) (CC.evalSingleOutput c eg' inputs i st) := by
  unfold Ticks.evalSingleOutput CC.evalSingleOutput
  split
  · exact Er.throw _
  · split
    · exact Er.throw _
    · cases c.outputMap i with
      | none => exact Er.throw _
      | some g =>
        simp only
        cases st.evaled g with
        | some b => exact Er.pure _
        | none => exact (h g st).bind fun st => (Er.lift _).bind fun _ => Er.pure _

theorem Er.evalOutputs {eg : GateId → EvSt → T EvSt} {eg' : GateId → EvSt → Except Err EvSt}
    (h : ∀ g st, Er (eg g st) (eg' g st)) (c : Circuit) (inputs : List Bool) : ∀ (k i : Nat) (st : EvSt),
    Er (Ticks.evalOutputs c eg inputs i k st) (CC.evalOutputs c eg' inputs i k st)
  | 0, _, _ => Er.pure _
  | k + 1, i, st => by
    unfold Ticks.evalOutputs CC.evalOutputs
    exact (Er.evalSingleOutput h c inputs i st).bind fun p => (Er.evalOutputs h c inputs k (i + 1) p.2).bind fun _ =>
      Er.pure _

theorem Er.evalOutputWith {eg : GateId → EvSt → T EvSt} {eg' : GateId → EvSt → Except Err EvSt}
    (h : ∀ g st, Er (eg g st) (eg' g st)) (c : Circuit) (inputs : List Bool) :
    Er (Ticks.evalOutputWith c eg inputs) (CC.evalOutputWith c eg' inputs) := by
  unfold Ticks.evalOutputWith CC.evalOutputWith
  split
  · exact Er.throw _
  · exact (Er.lift _).bind fun st => Er.evalOutputs h c inputs _ _ st

theorem Er.evalGate (κ : Ref → GateId → Nat) (w : World) : ∀ (fuel : Nat) (r : Ref) (g : GateId) (st : EvSt),
    Er (Ticks.evalGate κ w fuel r g st) (CC.evalGate w fuel r g st)
  | 0, _, _, _ => Er.throw _
  | fuel + 1, r, g, st => by
    unfold Ticks.evalGate CC.evalGate
    refine (Er.lift _).bind fun c => ?_
    have h := Er.evalGate κ w fuel r
    cases c.gateMap g with
    | none => exact Er.throw _
    | some gate =>
      cases gate with
      | input _ => exact Er.pure _
      | const v => exact Er.tick (Er.pure _)
      | not x => exact Er.tick ((Er.ensure h x st).bind fun st => (Er.lift _).bind fun _ => (Er.lift _).bind fun _ => Er.pure _)
      | xor l r' => exact Er.tick (Er.evalBinary h c _ g l r' st)
      | and l r' => exact Er.tick (Er.evalBinary h c _ g l r' st)
      | or l r' => exact Er.tick (Er.evalBinary h c _ g l r' st)
      | module _ outLen ids outIndex mid =>
        refine Er.tick ((Er.collectBits h ids st).bind fun p => ?_)
        simp only
        cases w.module? c mid with
        | none => exact Er.throw _
        | some mr =>
          refine (Er.lift _).bind fun mc => (Er.evalOutputWith (Er.evalGate κ w fuel mr) mc _).bind fun outs =>
            (Er.lift _).bind fun st => ?_
          split
          · exact Er.throw _
          · exact Er.lift _

theorem Er.evalOutput (κ : Ref → GateId → Nat) (w : World) (fuel : Nat) (r : Ref) (inputs : List Bool) :
    Er (Ticks.evalOutput κ w fuel r inputs) (CC.evalOutput w fuel r inputs) :=
  (Er.lift _).bind fun c => Er.evalOutputWith (Er.evalGate κ w fuel r) c inputs

/-! ### reasoning about results and time -/

/-- started at time `n`, `x` fails at a time satisfying `E`, or succeeds with a result and time satisfying `Q` -/
def Tri {α : Type} (x : T α) (n : Nat) (E : Nat → Prop) (Q : α → Nat → Prop) : Prop :=
  match x n with
  | (.ok a, m) => Q a m
  | (.error _, m) => E m

theorem Tri.pure {α : Type} {a : α} {n : Nat} {E : Nat → Prop} {Q : α → Nat → Prop} (h : Q a n) :
    Tri (Pure.pure a : T α) n E Q := h

theorem Tri.throw {α : Type} {e : Err} {n : Nat} {E : Nat → Prop} {Q : α → Nat → Prop} (h : E n) :
    Tri (Ticks.throw e : T α) n E Q := h

theorem Tri.lift {α : Type} {a : Except Err α} {n : Nat} {E : Nat → Prop} {Q : α → Nat → Prop} (he : E n)
    (h : ∀ v, a = .ok v → Q v n) : Tri (Ticks.lift a) n E Q := by
  cases a with
  | error e => exact he
  | ok v => exact h v rfl

theorem Tri.bind {α β : Type} {x : T α} {f : α → T β} {n : Nat} {E : Nat → Prop} {Q : β → Nat → Prop}
    (h : Tri x n E fun a m => Tri (f a) m E Q) : Tri (x >>= f) n E Q := by
  unfold Tri at h ⊢
  show match (match x n with | (.ok a, m) => f a m | (.error e, m) => (.error e, m)) with
    | (.ok a, m) => Q a m | (.error _, m) => E m
  rcases e : x n with ⟨a, m⟩
  rw [e] at h
  cases a with
  | error e => exact h
  | ok a => exact h

theorem Tri.tick {α : Type} {k : Nat} {f : Unit → T α} {n : Nat} {E : Nat → Prop} {Q : α → Nat → Prop}
    (h : Tri (f ()) (n + k) E Q) : Tri (Ticks.tick k >>= f) n E Q := h

theorem Tri.mono {α : Type} {x : T α} {n : Nat} {E E' : Nat → Prop} {Q Q' : α → Nat → Prop} (h : Tri x n E Q)
    (he : ∀ m, E m → E' m) (hq : ∀ a m, Q a m → Q' a m) : Tri x n E' Q' := by
  unfold Tri at h ⊢
  rcases e : x n with ⟨a, m⟩
  rw [e] at h
  cases a with
  | error e => exact he _ h
  | ok a => exact hq _ _ h

theorem Tri.bindLift {α β : Type} {a : Except Err α} {f : α → T β} {n : Nat} {E : Nat → Prop} {Q : β → Nat → Prop}
    (he : E n) (h : ∀ v, a = .ok v → Tri (f v) n E Q) : Tri (Ticks.lift a >>= f) n E Q :=
  Tri.bind (Tri.lift he h)

end Ticks

/-! ### groups of gates -/

/-- what is charged for gate `g`: a module call is charged to its first gate -/
def charge (c : Circuit) (v : GateId → Nat) (g : GateId) : Nat :=
  match c.gateMap g with
  | some (.input _) => 0
  | some (.module _ _ _ (_ + 1) _) => 0
  | some _ => v g
  | none => 0

/-- what is charged for the gates in `done` -/
def charged (c : Circuit) (v : GateId → Nat) (done : GateId → Bool) : Nat :=
  sumTo c.gateIndex fun g => if done g then charge c v g else 0

/-- add the group starting at `L` -/
def markL (c : Circuit) (done : GateId → Bool) (L : GateId) (g : GateId) : Bool :=
  done g || (decide (g < c.gateIndex) && decide (leadOf c g = L))

theorem markL_iff {c : Circuit} {done : GateId → Bool} {L g : GateId} :
    markL c done L g = true ↔ done g = true ∨ (g < c.gateIndex ∧ leadOf c g = L) := by
  simp [markL]

section
variable {c : Circuit} (hwf : WFc c)
include hwf

/-- the first gate of a group -/
theorem lead_gate {g : GateId} {gate : Gate} (hg : c.gateMap g = some gate) :
    ∃ gl, c.gateMap (leadOf c g) = some gl ∧ gl.operands = gate.operands ∧ leadOf c (leadOf c g) = leadOf c g ∧
      (∀ x, wt c (leadOf c g) x = gate.operands.count x) ∧
      ((∀ k, gate ≠ .input k) → ∀ v, charge c v (leadOf c g) = v (leadOf c g)) := by
  have e : leadOf c g = lead g gate := by simp [leadOf, hg]
  cases gate with
  | module nIn nOut ids oi mid =>
    obtain ⟨h1, h2, h3⟩ := hwf.group g nIn nOut ids oi mid hg
    have h0 := h3 0 (by omega)
    have e' : leadOf c g = g - oi := e
    rw [Nat.add_zero] at h0
    rw [e']
    refine ⟨_, h0, rfl, ?_, ?_, ?_⟩
    · simp [leadOf, h0, lead]
    · intro x; simp [wt, h0, Gate.operands]
    · intro _ v; simp [charge, h0]
  | input k =>
    have e' : leadOf c g = g := e
    rw [e']
    exact ⟨_, hg, rfl, e', by intro x; simp [wt, hg, Gate.operands], fun h => absurd rfl (h k)⟩
  | const _ =>
    have e' : leadOf c g = g := e
    rw [e']
    exact ⟨_, hg, rfl, e', by intro x; simp [wt, hg, Gate.operands], by intro _ v; simp [charge, hg]⟩
  | not _ =>
    have e' : leadOf c g = g := e
    rw [e']
    exact ⟨_, hg, rfl, e', by intro x; simp [wt, hg, Gate.operands], by intro _ v; simp [charge, hg]⟩
  | xor _ _ =>
    have e' : leadOf c g = g := e
    rw [e']
    exact ⟨_, hg, rfl, e', by intro x; simp [wt, hg, Gate.operands], by intro _ v; simp [charge, hg]⟩
  | and _ _ =>
    have e' : leadOf c g = g := e
    rw [e']
    exact ⟨_, hg, rfl, e', by intro x; simp [wt, hg, Gate.operands], by intro _ v; simp [charge, hg]⟩
  | or _ _ =>
    have e' : leadOf c g = g := e
    rw [e']
    exact ⟨_, hg, rfl, e', by intro x; simp [wt, hg, Gate.operands], by intro _ v; simp [charge, hg]⟩

omit hwf in
/-- a gate that is not the first of its group -/
theorem not_lead {g : GateId} (h : leadOf c g ≠ g) : (∀ x, wt c g x = 0) ∧ ∀ v, charge c v g = 0 := by
  unfold leadOf at h
  cases hg : c.gateMap g with
  | none => rw [hg] at h; exact absurd rfl h
  | some gate =>
    rw [hg] at h
    cases gate with
    | module nIn nOut ids oi mid =>
      cases oi with
      | zero => exact absurd (by simp [lead]) h
      | succ k => exact ⟨by intro x; simp [wt, hg], by intro v; simp [charge, hg]⟩
    | _ => exact absurd rfl h

/-- gates of a group have the same operands -/
theorem same_group {g g' : GateId} {gate gate' : Gate} (hg : c.gateMap g = some gate) (hg' : c.gateMap g' = some gate')
    (h : leadOf c g = leadOf c g') : gate.operands = gate'.operands := by
  obtain ⟨l, h1, h2, _⟩ := lead_gate hwf hg
  obtain ⟨l', h3, h4, _⟩ := lead_gate hwf hg'
  rw [h, h3] at h1
  cases h1
  rw [← h2, h4]

omit hwf in
/-- adding a group to a sum in which only its first gate counts -/
theorem sum_markL {f : GateId → Nat} (hf : ∀ g, leadOf c g ≠ g → f g = 0) {done : GateId → Bool} {L : GateId}
    (hL : L < c.gateIndex) (hl : leadOf c L = L) (hd : done L = false) :
    sumTo c.gateIndex (fun g => if done g then f g else 0) + f L =
      sumTo c.gateIndex fun g => if markL c done L g then f g else 0 := by
  refine sumTo_add_at hL (by simp [hd, markL, hL, hl]) ?_
  intro i hi hne
  by_cases e : leadOf c i = L
  · have := hf i (by omega)
    simp [this]
  · simp [markL, e]

omit hwf in
theorem used_markL {done : GateId → Bool} {L : GateId} (hL : L < c.gateIndex) (hl : leadOf c L = L)
    (hd : done L = false) (x : GateId) : used c done x + wt c L x = used c (markL c done L) x :=
  sum_markL (fun _ h => (not_lead h).1 x) hL hl hd

omit hwf in
theorem charged_markL {done : GateId → Bool} {L : GateId} (v : GateId → Nat) (hL : L < c.gateIndex) (hl : leadOf c L = L)
    (hd : done L = false) : charged c v done + charge c v L = charged c v (markL c done L) :=
  sum_markL (fun _ h => (not_lead h).2 v) hL hl hd

end

theorem charged_mono {c : Circuit} {v : GateId → Nat} {d d' : GateId → Bool} (h : ∀ y, d y = true → d' y = true) :
    charged c v d ≤ charged c v d' := by
  refine sumTo_le fun i _ => ?_
  cases e : d i with
  | false => simp
  | true => simp [h i e]

/-! ### the invariant -/

/-- `done`: gates computed since some moment; `pre`: gates whose values may have been in the map at that moment; `rel`:
releases of the computation in progress -/
structure G (c : Circuit) (pre done : GateId → Bool) (rel : List GateId) (st : EvSt) : Prop where
  group : ∀ y z, done y = true → leadOf c y = leadOf c z → z < c.gateIndex → done z = true
  closed : ∀ g gate x, done g = true → c.gateMap g = some gate → x ∈ gate.operands → done x = true ∨ pre x = true
  cached : ∀ x, done x = true → deg c x = 0 ∨ used c done x + rel.count x < deg c x →
    (st.evaled x).isSome ∧ ∃ n, st.numDep x = some n ∧ deg c x ≤ n + (used c done x + rel.count x)
  fresh : ∀ x, (st.evaled x).isSome → done x = true ∨ pre x = true

theorem G.release {c pre done rel st} (h : G c pre done rel st) {x : GateId} {st' : EvSt}
    (hst : st.release x = .ok st') (hr : used c done x + rel.count x + 1 ≤ deg c x) :
    G c pre done (rel ++ [x]) st' := by
  have hcount : (rel ++ [x]).count x = rel.count x + 1 := by simp
  have hcount' : ∀ y, y ≠ x → (rel ++ [x]).count y = rel.count y := by
    intro y hy; simp [List.count_cons]; exact fun e => hy e.symm
  unfold EvSt.release at hst
  cases hn : st.numDep x with
  | none => rw [hn] at hst; cases hst
  | some n =>
    cases n with
    | zero => rw [hn] at hst; cases hst
    | succ n =>
      rw [hn] at hst
      simp only at hst
      by_cases hz : n = 0
      · rw [if_pos hz] at hst
        cases hst
        refine ⟨h.group, h.closed, ?_, ?_⟩
        · intro y hy hc
          by_cases e : y = x
          · subst e
            rw [hcount] at hc ⊢
            obtain ⟨_, k, k2, k3⟩ := h.cached y hy (by omega)
            rw [hn] at k2; cases k2
            omega
          · rw [hcount' y e] at hc ⊢
            obtain ⟨k1, k, k2, k3⟩ := h.cached y hy hc
            exact ⟨by simp [Map.remove_apply, e, k1], k, by simp [Map.remove_apply, Map.insert_apply, e, k2], k3⟩
        · intro y hy
          simp only [Map.remove_apply] at hy
          split at hy
          · cases hy
          · exact h.fresh y hy
      · rw [if_neg hz] at hst
        cases hst
        refine ⟨h.group, h.closed, ?_, h.fresh⟩
        intro y hy hc
        by_cases e : y = x
        · subst e
          rw [hcount] at hc ⊢
          obtain ⟨k1, k, k2, k3⟩ := h.cached y hy (by omega)
          rw [hn] at k2; cases k2
          exact ⟨k1, n, by simp, by omega⟩
        · rw [hcount' y e] at hc ⊢
          obtain ⟨k1, k, k2, k3⟩ := h.cached y hy hc
          exact ⟨k1, k, by simp [Map.insert_apply, e, k2], k3⟩

theorem G.releaseAll {c pre done} (ids : List GateId) : ∀ {rel st st'}, G c pre done rel st →
    CC.releaseAll ids st = .ok st' → (∀ x, used c done x + (rel.count x + ids.count x) ≤ deg c x) →
    G c pre done (rel ++ ids) st' := by
  induction ids with
  | nil => intro rel st st' h hst _; cases hst; simpa using h
  | cons x xs ih =>
    intro rel st st' h hst hr
    unfold CC.releaseAll at hst
    obtain ⟨s1, h1, h2⟩ := ok_bind hst
    have hx := hr x
    simp only [List.count_cons_self] at hx
    have := ih (h.release h1 (by omega)) h2 (by
      intro y
      have := hr y
      simp only [List.count_append, List.count_cons, List.count_nil] at this ⊢
      omega)
    simpa using this

theorem recordOutputs_inv (c : Circuit) (first : GateId) (outs : List Bool) (k : Nat) : ∀ (i : Nat) (st st' : EvSt),
    recordOutputs c first outs i k st = .ok st' →
      ∀ x, if first + i ≤ x ∧ x < first + i + k then (st'.evaled x).isSome ∧ st'.numDep x = some (deg c x)
        else st'.evaled x = st.evaled x ∧ st'.numDep x = st.numDep x := by
  induction k with
  | zero => intro i st st' h x; cases h; rw [if_neg (by omega)]; exact ⟨rfl, rfl⟩
  | succ k ih =>
    intro i st st' h x
    unfold recordOutputs at h
    cases e : outs[i]? with
    | none => rw [e] at h; cases h
    | some b =>
      rw [e] at h
      have := ih (i + 1) _ st' h x
      by_cases hx : first + (i + 1) ≤ x ∧ x < first + (i + 1) + k
      · rw [if_pos hx] at this
        rw [if_pos (by omega)]
        exact this
      · rw [if_neg hx] at this
        by_cases hx' : x = first + i
        · subst hx'
          rw [if_pos (by omega)]
          rw [this.1, this.2]
          simp [EvSt.record, deg]
        · rw [if_neg (by omega), this.1, this.2]
          simp [EvSt.record, Map.insert_apply, hx']

/-- releasing the operands and recording the values of the group -/
theorem G.finish {c pre done st} (hwf : WFc c) (h : G c pre done [] st) {g : GateId} {gate : Gate}
    (hg : c.gateMap g = some gate) (hnew : ∀ y, y < c.gateIndex → leadOf c y = leadOf c g → done y = false)
    (hids : ∀ x ∈ gate.operands, done x = true ∨ pre x = true) {s1 s2 : EvSt}
    (h1 : CC.releaseAll gate.operands st = .ok s1)
    (h2 : ∀ x, if x < c.gateIndex ∧ leadOf c x = leadOf c g then (s2.evaled x).isSome ∧ s2.numDep x = some (deg c x)
      else s2.evaled x = s1.evaled x ∧ s2.numDep x = s1.numDep x) :
    G c pre (markL c done (leadOf c g)) [] s2 := by
  obtain ⟨gl, l1, l2, l3, l4, _⟩ := lead_gate hwf hg
  have hlt := hwf.lt_of_some l1
  have hLd := hnew _ hlt l3
  have k1 := h.releaseAll gate.operands h1 (by
    intro x
    have := used_add_le hwf (x := x) hlt hLd
    simp only [Circuit.occ, l1, l2] at this
    simpa using this)
  have hused : ∀ x, used c (markL c done (leadOf c g)) x = used c done x + gate.operands.count x := by
    intro x; rw [← used_markL hlt l3 hLd, l4]
  refine ⟨?_, ?_, ?_, ?_⟩
  · intro y z hy hz hzl
    rcases markL_iff.mp hy with hy | hy
    · exact markL_iff.mpr (Or.inl (h.group y z hy hz hzl))
    · exact markL_iff.mpr (Or.inr ⟨hzl, by omega⟩)
  · intro y gt x hy hgt hx
    rcases markL_iff.mp hy with hy | hy
    · exact (h.closed y gt x hy hgt hx).imp_left fun h => markL_iff.mpr (Or.inl h)
    · rw [same_group hwf hgt hg hy.2] at hx
      exact (hids x hx).imp_left fun h => markL_iff.mpr (Or.inl h)
  · intro x hx hc
    have := h2 x
    by_cases hm : x < c.gateIndex ∧ leadOf c x = leadOf c g
    · rw [if_pos hm] at this
      exact ⟨this.1, _, this.2, by omega⟩
    · rw [if_neg hm] at this
      rw [this.1, this.2]
      have hd : done x = true := by
        rcases markL_iff.mp hx with hx | hx
        · exact hx
        · exact absurd hx hm
      rw [hused] at hc ⊢
      have := k1.cached x hd (by simpa using hc)
      simpa using this
  · intro x hx
    have := h2 x
    by_cases hm : x < c.gateIndex ∧ leadOf c x = leadOf c g
    · exact Or.inl (markL_iff.mpr (Or.inr hm))
    · rw [if_neg hm] at this
      rw [this.1] at hx
      exact (k1.fresh x hx).imp_left fun h => markL_iff.mpr (Or.inl h)

end CC
