import Verif.Proofs.EvalInd
import Verif.Proofs.Ticks
import Verif.Spec.Memory

/-!
# The log of an evaluation (C79, C80)

`Tm` compares the evaluator with a log with the one with a clock (`Model/Ticks.lean`), so that the results and the time of
the latter carry over. `Obl` compares two runs on different bits.
-/

namespace CC
open Spec

namespace Log

theorem bind_run {α β : Type} (x : L α) (f : α → L β) (l : List Event) :
    (x >>= f) l = match x l with | (.ok a, m) => f a m | (.error e, m) => (.error e, m) := rfl

/-! ### the log and the clock -/

theorem cost_append (κ : Ref → GateId → Nat) (l m : List Event) : cost κ (l ++ m) = cost κ l + cost κ m := by
  induction l with
  | nil => simp [cost]
  | cons e l ih => cases e <;> simp [cost, ih, Nat.add_assoc]

/-- `x` takes the time that `y` writes down, and gives the same -/
structure Tm {α : Type} (κ : Ref → GateId → Nat) (y : L α) (x : Ticks.T α) : Prop where
  run : ∀ l, x (cost κ l) = ((y l).1, cost κ (y l).2)

variable {κ : Ref → GateId → Nat}

theorem Tm.pure {α : Type} (a : α) : Tm κ (Pure.pure a : L α) (Pure.pure a) := ⟨fun _ => rfl⟩
theorem Tm.lift {α : Type} (a : Except Err α) : Tm κ (Log.lift a) (Ticks.lift a) := ⟨fun _ => rfl⟩
theorem Tm.throw {α : Type} (e : Err) : Tm κ (Log.throw e : L α) (Ticks.throw e) := ⟨fun _ => rfl⟩

theorem Tm.bind {α β : Type} {x : L α} {y : Ticks.T α} {f : α → L β} {g : α → Ticks.T β} (h : Tm κ x y)
    (k : ∀ a, Tm κ (f a) (g a)) : Tm κ (x >>= f) (y >>= g) := by
  refine ⟨fun l => ?_⟩
  have h1 := h.run l
  show (match y (cost κ l) with | (.ok a, m) => g a m | (.error e, m) => (.error e, m)) = _
  rw [bind_run, h1]
  rcases e : x l with ⟨a, m⟩
  cases a with
  | error e => rfl
  | ok a => exact (k a).run m

theorem Tm.emit {α : Type} {e : Event} {f : Unit → L α} {y : Ticks.T α} (h : Tm κ (f ()) y) (he : cost κ [e] = 0 := by rfl) :
    Tm κ (Log.emit e >>= f) y := by
  refine ⟨fun l => ?_⟩
  have := h.run (l ++ [e])
  rw [cost_append, he] at this
  exact this

theorem Tm.compute {α : Type} {r : Ref} {g : GateId} {f : Unit → L α} {y : Unit → Ticks.T α} (h : Tm κ (f ()) (y ())) :
    Tm κ (Log.emit (.compute r g) >>= f) (Ticks.tick (κ r g) >>= y) := by
  refine ⟨fun l => ?_⟩
  have := h.run (l ++ [.compute r g])
  rw [cost_append] at this
  exact this

theorem Tm.bit (r : Ref) (st : EvSt) (id : GateId) : Tm κ (Log.bit r st id) (Ticks.lift (st.bit id)) := Tm.emit (Tm.lift _)

theorem Tm.record (r : Ref) (st : EvSt) (c : Circuit) (g : GateId) (b : Bool) :
    Tm κ (Log.record r st c g b) (Pure.pure (st.record c g b)) := Tm.emit (Tm.pure _)

theorem Tm.release (r : Ref) (st : EvSt) (id : GateId) : Tm κ (Log.release r st id) (Ticks.lift (st.release id)) := by
  unfold Log.release EvSt.release
  cases st.numDep id with
  | none => exact Tm.throw _
  | some n =>
    cases n with
    | zero => exact Tm.throw _
    | succ n =>
      simp only
      refine Tm.emit ?_
      split
      · exact Tm.pure _
      · exact Tm.pure _

theorem Tm.ensure {eg : GateId → EvSt → L EvSt} {eg' : GateId → EvSt → Ticks.T EvSt}
    (h : ∀ g st, Tm κ (eg g st) (eg' g st)) (r : Ref) (id : GateId) (st : EvSt) :
    Tm κ (Log.ensure r eg id st) (Ticks.ensure eg' id st) := by
  unfold Log.ensure Ticks.ensure
  refine Tm.emit ?_
  cases st.evaled id with
  | none => exact h id st
  | some _ => exact Tm.pure _

theorem lift_ok {α : Type} (a : α) : (Ticks.lift (.ok a) : Ticks.T α) = Pure.pure a := rfl

theorem lift_bind {α β : Type} (x : Except Err α) (f : α → Except Err β) :
    (Ticks.lift (x >>= f) : Ticks.T β) = Ticks.lift x >>= fun a => Ticks.lift (f a) := by
  cases x <;> rfl

theorem Tm.releaseAll (r : Ref) : ∀ (ids : List GateId) (st : EvSt),
    Tm κ (Log.releaseAll r ids st) (Ticks.lift (CC.releaseAll ids st))
  | [], _ => Tm.pure _
  | id :: ids, st => by
    unfold Log.releaseAll CC.releaseAll
    rw [lift_bind]
    exact (Tm.release r st id).bind fun st => Tm.releaseAll r ids st

theorem Tm.collectBits {eg : GateId → EvSt → L EvSt} {eg' : GateId → EvSt → Ticks.T EvSt}
    (h : ∀ g st, Tm κ (eg g st) (eg' g st)) (r : Ref) : ∀ (ids : List GateId) (st : EvSt),
    Tm κ (Log.collectBits r eg ids st) (Ticks.collectBits eg' ids st)
  | [], _ => Tm.pure _
  | id :: ids, st => by
    unfold Log.collectBits Ticks.collectBits
    exact (Tm.ensure h r id st).bind fun st => (Tm.bit r st id).bind fun b => (Tm.collectBits h r ids st).bind fun _ =>
      Tm.pure _

theorem Tm.recordOutputs (r : Ref) (c : Circuit) (first : GateId) (outs : List Bool) : ∀ (k i : Nat) (st : EvSt),
    Tm κ (Log.recordOutputs r c first outs i k st) (Ticks.lift (CC.recordOutputs c first outs i k st))
  | 0, _, _ => Tm.pure _
  | k + 1, i, st => by
    unfold Log.recordOutputs CC.recordOutputs
    cases outs[i]? with
    | none => exact Tm.throw _
    | some b =>
      exact Tm.bind (g := fun st => Ticks.lift (CC.recordOutputs c first outs (i + 1) k st))
        (Tm.record r st c _ b) fun st => Tm.recordOutputs r c first outs k (i + 1) st

theorem Tm.evalBinary {eg : GateId → EvSt → L EvSt} {eg' : GateId → EvSt → Ticks.T EvSt}
    (h : ∀ g st, Tm κ (eg g st) (eg' g st)) (r : Ref) (c : Circuit) (op : Bool → Bool → Bool) (g x y : GateId) (st : EvSt) :
    Tm κ (Log.evalBinary r c eg op g x y st) (Ticks.evalBinary c eg' op g x y st) := by
  unfold Log.evalBinary Ticks.evalBinary
  exact (Tm.ensure h r x st).bind fun st => (Tm.ensure h r y st).bind fun st => (Tm.bit r st x).bind fun _ =>
    (Tm.bit r st y).bind fun _ => (Tm.release r st x).bind fun st => (Tm.release r st y).bind fun st => Tm.record ..

theorem Tm.seedInputs (r : Ref) (c : Circuit) : ∀ (bs : List Bool) (i : WireId) (st : EvSt),
    Tm κ (Log.seedInputs r c i bs st) (Ticks.lift (CC.seedInputs c i bs st))
  | [], _, _ => Tm.pure _
  | b :: bs, i, st => by
    unfold Log.seedInputs CC.seedInputs
    cases c.inputMap i with
    | none => exact Tm.throw _
    | some g =>
      exact Tm.bind (g := fun st => Ticks.lift (CC.seedInputs c (i + 1) bs st)) (Tm.record r st c g b)
        fun st => Tm.seedInputs r c bs (i + 1) st

theorem Tm.evalSingleOutput {eg : GateId → EvSt → L EvSt} {eg' : GateId → EvSt → Ticks.T EvSt}
    (h : ∀ g st, Tm κ (eg g st) (eg' g st)) (r : Ref) (c : Circuit) (inputs : List Bool) (i : WireId) (st : EvSt) :
    Tm κ (Log.evalSingleOutput r c eg inputs i st) (Ticks.evalSingleOutput c eg' inputs i st) := by
  unfold Log.evalSingleOutput Ticks.evalSingleOutput
  split
  · exact Tm.throw _
  · split
    · exact Tm.throw _
    · cases c.outputMap i with
      | none => exact Tm.throw _
      | some g =>
        simp only
        refine Tm.emit ?_
        cases st.evaled g with
        | some b => exact Tm.emit (Tm.pure _)
        | none => exact (h g st).bind fun st => (Tm.bit r st g).bind fun _ => Tm.pure _

theorem Tm.evalOutputs {eg : GateId → EvSt → L EvSt} {eg' : GateId → EvSt → Ticks.T EvSt}
    (h : ∀ g st, Tm κ (eg g st) (eg' g st)) (r : Ref) (c : Circuit) (inputs : List Bool) : ∀ (k i : Nat) (st : EvSt),
    Tm κ (Log.evalOutputs r c eg inputs i k st) (Ticks.evalOutputs c eg' inputs i k st)
  | 0, _, _ => Tm.pure _
  | k + 1, i, st => by
    unfold Log.evalOutputs Ticks.evalOutputs
    exact (Tm.evalSingleOutput h r c inputs i st).bind fun p => (Tm.evalOutputs h r c inputs k (i + 1) p.2).bind fun _ =>
      Tm.pure _

theorem bind_pure_T {α : Type} (x : Ticks.T α) : (x >>= fun a => Pure.pure a) = x := by
  funext n
  show (match x n with | (.ok a, m) => (Pure.pure a : Ticks.T α) m | (.error e, m) => (.error e, m)) = _
  rcases x n with ⟨a, m⟩
  cases a <;> rfl

theorem Tm.evalOutputWith {eg : GateId → EvSt → L EvSt} {eg' : GateId → EvSt → Ticks.T EvSt}
    (h : ∀ g st, Tm κ (eg g st) (eg' g st)) (r : Ref) (c : Circuit) (inputs : List Bool) :
    Tm κ (Log.evalOutputWith r c eg inputs) (Ticks.evalOutputWith c eg' inputs) := by
  unfold Log.evalOutputWith Ticks.evalOutputWith
  refine Tm.emit ?_
  split
  · exact Tm.throw _
  · refine (Tm.seedInputs r c _ _ _).bind fun st => ?_
    rw [← bind_pure_T (Ticks.evalOutputs c eg' inputs 0 c.outputLen st)]
    exact (Tm.evalOutputs h r c inputs _ _ st).bind fun _ => Tm.emit (Tm.pure _)

theorem Tm.evalGate (κ : Ref → GateId → Nat) (w : World) : ∀ (fuel : Nat) (r : Ref) (g : GateId) (st : EvSt),
    Tm κ (Log.evalGate w fuel r g st) (Ticks.evalGate κ w fuel r g st)
  | 0, _, _, _ => Tm.throw _
  | fuel + 1, r, g, st => by
    unfold Log.evalGate Ticks.evalGate
    refine (Tm.lift _).bind fun c => ?_
    have h := Tm.evalGate κ w fuel r
    cases c.gateMap g with
    | none => exact Tm.throw _
    | some gate =>
      cases gate with
      | input _ => exact Tm.pure _
      | const v => exact Tm.compute (Tm.record ..)
      | not x => exact Tm.compute ((Tm.ensure h r x st).bind fun st => (Tm.bit r st x).bind fun _ =>
          (Tm.release r st x).bind fun _ => Tm.record ..)
      | xor x y => exact Tm.compute (Tm.evalBinary h r c _ g x y st)
      | and x y => exact Tm.compute (Tm.evalBinary h r c _ g x y st)
      | or x y => exact Tm.compute (Tm.evalBinary h r c _ g x y st)
      | module _ outLen ids outIndex mid =>
        refine Tm.compute ((Tm.collectBits h r ids st).bind fun p => ?_)
        simp only
        cases w.module? c mid with
        | none => exact Tm.throw _
        | some mr =>
          refine (Tm.lift _).bind fun mc => (Tm.evalOutputWith (Tm.evalGate κ w fuel mr) mr mc _).bind fun outs =>
            (Tm.releaseAll r ids _).bind fun st => ?_
          split
          · exact Tm.throw _
          · exact Tm.recordOutputs ..

theorem Tm.evalOutput (κ : Ref → GateId → Nat) (w : World) (fuel : Nat) (r : Ref) (inputs : List Bool) :
    Tm κ (Log.evalOutput w fuel r inputs) (Ticks.evalOutput κ w fuel r inputs) :=
  (Tm.lift _).bind fun c => Tm.evalOutputWith (Tm.evalGate κ w fuel r) r c inputs

/-! ### two runs on different bits -/

/-- the same is written, and the results are related by `R`, or the errors are the same -/
structure Obl {α β : Type} (R : α → β → Prop) (x : L α) (y : L β) : Prop where
  run : ∀ l, LikeE R (x l).1 (y l).1 ∧ (x l).2 = (y l).2

theorem Obl.pure {α β : Type} {R : α → β → Prop} {a : α} {b : β} (h : R a b) : Obl R (Pure.pure a : L α) (Pure.pure b) :=
  ⟨fun _ => ⟨.ok h, rfl⟩⟩
theorem Obl.lift {α β : Type} {R : α → β → Prop} {a : Except Err α} {b : Except Err β} (h : LikeE R a b) :
    Obl R (Log.lift a) (Log.lift b) := ⟨fun _ => ⟨h, rfl⟩⟩
theorem Obl.throw {α β : Type} {R : α → β → Prop} {e : Err} : Obl R (Log.throw e : L α) (Log.throw e : L β) :=
  ⟨fun _ => ⟨.error, rfl⟩⟩

theorem Obl.bind {α β γ δ : Type} {R : α → β → Prop} {S : γ → δ → Prop} {x : L α} {y : L β} {f : α → L γ} {g : β → L δ}
    (h : Obl R x y) (hf : ∀ a b, R a b → Obl S (f a) (g b)) : Obl S (x >>= f) (y >>= g) := by
  refine ⟨fun l => ?_⟩
  obtain ⟨h1, h2⟩ := h.run l
  rw [bind_run, bind_run]
  rcases ex : x l with ⟨a, m⟩
  rcases ey : y l with ⟨b, m'⟩
  rw [ex, ey] at h1 h2
  cases h2
  cases h1 with
  | ok h => exact (hf _ _ h).run m
  | error => exact ⟨.error, rfl⟩

theorem Obl.emit {α β : Type} {R : α → β → Prop} {e : Event} {f : Unit → L α} {g : Unit → L β} (h : Obl R (f ()) (g ())) :
    Obl R (Log.emit e >>= f) (Log.emit e >>= g) := ⟨fun l => h.run (l ++ [e])⟩

theorem Obl.bit {a b : EvSt} (h : a.Like b) (r : Ref) (g : GateId) : Obl (fun _ _ => True) (Log.bit r a g) (Log.bit r b g) :=
  Obl.emit (Obl.lift (h.bit g))

theorem Obl.record {a b : EvSt} (h : a.Like b) (r : Ref) (c : Circuit) (g : GateId) (x y : Bool) :
    Obl EvSt.Like (Log.record r a c g x) (Log.record r b c g y) := Obl.emit (Obl.pure (h.record c g x y))

theorem Obl.release {a b : EvSt} (h : a.Like b) (r : Ref) (g : GateId) :
    Obl EvSt.Like (Log.release r a g) (Log.release r b g) := by
  have hr := h.release g
  unfold EvSt.release at hr
  unfold Log.release
  rw [← h.numDep g] at hr ⊢
  cases ha : a.numDep g with
  | none => exact Obl.throw
  | some n =>
    cases n with
    | zero => exact Obl.throw
    | succ n =>
      rw [ha] at hr
      simp only at hr ⊢
      refine Obl.emit ?_
      split at hr
      · next hn =>
        rw [if_pos hn, if_pos hn]
        cases hr with
        | ok h => exact Obl.pure h
      · next hn =>
        rw [if_neg hn, if_neg hn]
        cases hr with
        | ok h => exact Obl.pure h

/-- a step that goes the same way on similar states, also as far as the log shows -/
def Blind (eg : GateId → EvSt → L EvSt) : Prop := ∀ g a b, a.Like b → Obl EvSt.Like (eg g a) (eg g b)

theorem Blind.ensure {eg : GateId → EvSt → L EvSt} (he : Blind eg) (r : Ref) (id : GateId) {a b : EvSt}
    (h : a.Like b) : Obl EvSt.Like (Log.ensure r eg id a) (Log.ensure r eg id b) := by
  have := h.evaled id
  unfold Log.ensure
  rw [this]
  refine Obl.emit ?_
  cases ha : a.evaled id <;> cases hb : b.evaled id <;> simp only [ha, hb, Option.isSome] at this ⊢
  · exact he _ _ _ h
  · cases this
  · cases this
  · exact Obl.pure h

theorem Obl.releaseAll (r : Ref) : ∀ (ids : List GateId) {a b : EvSt}, a.Like b →
    Obl EvSt.Like (Log.releaseAll r ids a) (Log.releaseAll r ids b)
  | [], _, _, h => Obl.pure h
  | id :: ids, _, _, h => by
    unfold Log.releaseAll
    exact (Obl.release h r id).bind fun _ _ h => Obl.releaseAll r ids h

theorem Blind.collectBits {eg : GateId → EvSt → L EvSt} (he : Blind eg) (r : Ref) : ∀ (ids : List GateId) {a b : EvSt},
    a.Like b → Obl (fun p q => p.1.length = q.1.length ∧ p.2.Like q.2) (Log.collectBits r eg ids a)
      (Log.collectBits r eg ids b)
  | [], _, _, h => Obl.pure ⟨rfl, h⟩
  | id :: ids, a, b, h => by
    unfold Log.collectBits
    refine (he.ensure r id h).bind fun a b h => ?_
    refine (Obl.bit h r id).bind fun x y _ => ?_
    refine (he.collectBits r ids h).bind fun p q h => ?_
    exact Obl.pure ⟨by simp [h.1], h.2⟩

theorem Obl.recordOutputs (r : Ref) (c : Circuit) (first : GateId) {os ps : List Bool} (hl : os.length = ps.length) :
    ∀ (k i : Nat) {a b : EvSt}, a.Like b →
      Obl EvSt.Like (Log.recordOutputs r c first os i k a) (Log.recordOutputs r c first ps i k b)
  | 0, _, _, _, h => Obl.pure h
  | k + 1, i, a, b, h => by
    unfold Log.recordOutputs
    by_cases hi : i < os.length
    · rw [List.getElem?_eq_getElem hi, List.getElem?_eq_getElem (hl ▸ hi)]
      exact (Obl.record h r c _ _ _).bind fun _ _ h => Obl.recordOutputs r c first hl k (i + 1) h
    · rw [List.getElem?_eq_none (by omega), List.getElem?_eq_none (by omega)]
      exact Obl.throw

theorem Blind.evalBinary {eg : GateId → EvSt → L EvSt} (he : Blind eg) (r : Ref) (c : Circuit)
    (op : Bool → Bool → Bool) (g x y : GateId) {a b : EvSt} (h : a.Like b) :
    Obl EvSt.Like (Log.evalBinary r c eg op g x y a) (Log.evalBinary r c eg op g x y b) := by
  unfold Log.evalBinary
  refine (he.ensure r x h).bind fun a b h => ?_
  refine (he.ensure r y h).bind fun a b h => ?_
  refine (Obl.bit h r x).bind fun _ _ _ => ?_
  refine (Obl.bit h r y).bind fun _ _ _ => ?_
  refine (Obl.release h r x).bind fun a b h => ?_
  refine (Obl.release h r y).bind fun a b h => ?_
  exact Obl.record h r c _ _ _

theorem Obl.seedInputs (r : Ref) (c : Circuit) : ∀ (xs ys : List Bool) (i : WireId) {a b : EvSt}, xs.length = ys.length →
    a.Like b → Obl EvSt.Like (Log.seedInputs r c i xs a) (Log.seedInputs r c i ys b)
  | [], [], _, _, _, _, h => Obl.pure h
  | [], _ :: _, _, _, _, hl, _ => by cases hl
  | _ :: _, [], _, _, _, hl, _ => by cases hl
  | x :: xs, y :: ys, i, a, b, hl, h => by
    unfold Log.seedInputs
    cases c.inputMap i with
    | none => exact Obl.throw
    | some g => exact (Obl.record h r c g x y).bind fun _ _ h => Obl.seedInputs r c xs ys (i + 1) (by simpa using hl) h

theorem Blind.evalSingleOutput {eg : GateId → EvSt → L EvSt} (he : Blind eg) (r : Ref) (c : Circuit)
    {xs ys : List Bool} (hl : xs.length = ys.length) (i : WireId) {a b : EvSt} (h : a.Like b) :
    Obl (fun p q => p.2.Like q.2) (Log.evalSingleOutput r c eg xs i a) (Log.evalSingleOutput r c eg ys i b) := by
  unfold Log.evalSingleOutput
  rw [hl]
  split
  · exact Obl.throw
  split
  · exact Obl.throw
  cases c.outputMap i with
  | none => exact Obl.throw
  | some g =>
    have := h.evaled g
    simp only
    rw [this]
    refine Obl.emit ?_
    cases ha : a.evaled g <;> cases hb : b.evaled g <;> simp only [ha, hb, Option.isSome] at this ⊢
    · refine (he g a b h).bind fun a b h => ?_
      refine (Obl.bit h r g).bind fun x y _ => ?_
      exact Obl.pure h
    · cases this
    · cases this
    · exact Obl.emit (Obl.pure h)

theorem Blind.evalOutputs {eg : GateId → EvSt → L EvSt} (he : Blind eg) (r : Ref) (c : Circuit)
    {xs ys : List Bool} (hl : xs.length = ys.length) : ∀ (k i : Nat) {a b : EvSt}, a.Like b →
    Obl (fun p q => p.length = q.length) (Log.evalOutputs r c eg xs i k a) (Log.evalOutputs r c eg ys i k b)
  | 0, _, _, _, _ => Obl.pure rfl
  | k + 1, i, a, b, h => by
    unfold Log.evalOutputs
    refine (he.evalSingleOutput r c hl i h).bind fun p q h => ?_
    refine (he.evalOutputs r c hl k (i + 1) h).bind fun p q h => ?_
    exact Obl.pure (by simp [h])

theorem Blind.evalOutputWith {eg : GateId → EvSt → L EvSt} (he : Blind eg) (r : Ref) (c : Circuit)
    {xs ys : List Bool} (hl : xs.length = ys.length) :
    Obl (fun p q => p.length = q.length) (Log.evalOutputWith r c eg xs) (Log.evalOutputWith r c eg ys) := by
  unfold Log.evalOutputWith
  refine Obl.emit ?_
  rw [hl]
  split
  · exact Obl.throw
  · refine (Obl.seedInputs r c xs ys 0 hl ⟨fun _ => rfl, fun _ => rfl⟩).bind fun a b h => ?_
    exact (he.evalOutputs r c hl _ _ h).bind fun _ _ h => Obl.emit (Obl.pure h)

theorem Obl.circuit {γ δ : Type} {S : γ → δ → Prop} (w : World) (r : Ref) {f : Circuit → L γ} {g : Circuit → L δ}
    (h : ∀ c, Obl S (f c) (g c)) : Obl S (Log.lift (w.circuit r) >>= f) (Log.lift (w.circuit r) >>= g) := by
  refine Obl.bind (R := fun c d => c = d) (Obl.lift ?_) fun c d hcd => hcd ▸ h c
  cases w.circuit r with
  | error e => exact .error
  | ok c => exact .ok rfl

theorem evalGate_blind (w : World) : ∀ (fuel : Nat) (r : Ref), Blind (Log.evalGate w fuel r)
  | 0, _ => fun _ _ _ _ => Obl.throw
  | fuel + 1, r => by
    intro g a b h
    have ih := evalGate_blind w fuel
    unfold Log.evalGate
    refine Obl.circuit w r fun c => ?_
    cases c.gateMap g with
    | none => exact Obl.throw
    | some gate =>
      cases gate with
      | input k => exact Obl.pure h
      | const v => exact Obl.emit (Obl.record h r c g v v)
      | not x =>
        refine Obl.emit ?_
        refine ((ih r).ensure r x h).bind fun a b h => ?_
        refine (Obl.bit h r x).bind fun u v _ => ?_
        refine (Obl.release h r x).bind fun a b h => ?_
        exact Obl.record h r c _ _ _
      | xor x y => exact Obl.emit ((ih r).evalBinary r c _ g x y h)
      | and x y => exact Obl.emit ((ih r).evalBinary r c _ g x y h)
      | or x y => exact Obl.emit ((ih r).evalBinary r c _ g x y h)
      | module nIn nOut ids oi mid =>
        refine Obl.emit ?_
        refine ((ih r).collectBits r ids h).bind fun p q hpq => ?_
        simp only
        cases w.module? c mid with
        | none => exact Obl.throw
        | some mr =>
          simp only
          refine Obl.circuit w mr fun mc => ?_
          refine ((ih mr).evalOutputWith mr mc hpq.1).bind fun os ps ho => ?_
          refine (Obl.releaseAll r ids hpq.2).bind fun a b h => ?_
          split
          · exact Obl.throw
          · exact Obl.recordOutputs r c _ ho _ _ h

theorem evalOutput_blind (w : World) (fuel : Nat) (r : Ref) {xs ys : List Bool} (hl : xs.length = ys.length) :
    Obl (fun p q => p.length = q.length) (Log.evalOutput w fuel r xs) (Log.evalOutput w fuel r ys) :=
  Obl.circuit w r fun c => (evalGate_blind w fuel r).evalOutputWith r c hl

end Log
end CC
