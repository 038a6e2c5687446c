import Verif.Model.WriterObj
import Verif.Proofs.EvalSound

/-!
# The writer object agrees with the writer functions
-/

namespace CC.Bristol.Obj
open CC.Spec

/-- the state of the functions of `Model/Bristol.lean` -/
def ws (x : Run) : WS := (⟨x.self.numWire, x.self.lastConstWire, x.self.out, x.constOf⟩, x.wog)

theorem bind_apply {α β : Type} (f : W α) (k : α → W β) (x : Run) : (f >>= k) x =
    match f x with
    | (.ok a, x') => k a x'
    | (.error e, x') => (.error e, x') := rfl

theorem pure_apply {α : Type} (a : α) (x : Run) : (pure a : W α) x = (.ok a, x) := rfl

theorem bind_of {α β : Type} {f : W α} {k : α → W β} {x x' : Run} {a : α} (h : f x = (.ok a, x')) : (f >>= k) x = k a x' := by
  rw [bind_apply, h]

theorem bind_err {α β : Type} {f : W α} {k : α → W β} {x x' : Run} {e : Err} (h : f x = (.error e, x')) :
    (f >>= k) x = (.error e, x') := by
  rw [bind_apply, h]

theorem bind_get {β : Type} {k : Run → W β} {x : Run} : (W.get >>= k) x = k x x := rfl

theorem bind_set {β : Type} {k : Unit → W β} {x y : Run} : (W.set y >>= k) x = k () y := rfl

theorem bind_circuit {β : Type} {w : World} {k : Circuit → W β} {x : Run} {r : Ref} {c : Circuit} (hr : x.self.cref = r)
    (hc : w.circs[r]? = some c) : (circuit w >>= k) x = k c x := by
  refine bind_of ?_
  unfold circuit
  rw [hr, circuit_of hc]

theorem bind_lift_ok {α β : Type} {a : α} {k : α → W β} {e : Except Err α} (h : e = .ok a) {x : Run} : (W.lift e >>= k) x = k a x := by
  rw [h]; rfl

/-- the result `b` of the object is the result `a` of the function: same value and state, or same error; the object refers to `r`
again; text was only added -/
def Same {α : Type} (r : Ref) (x : Run) (a : Except Err (α × WS)) (b : Except Err α × Run) : Prop :=
  x.self.out <+: b.2.self.out ∧
  match a with
  | .ok (v, s) => b.1 = .ok v ∧ b.2.self.cref = r ∧ ws b.2 = s
  | .error e => b.1 = .error e

/-- for functions that return a state only -/
def unit (a : Except Err WS) : Except Err (Unit × WS) := a.map fun s => ((), s)

def Tracks (r : Ref) (f : WS → Except Err WS) (F : W Unit) : Prop :=
  ∀ x, x.self.cref = r → Same r x (unit (f (ws x))) (F x)

theorem Same.error {α : Type} {r : Ref} {x y : Run} {e : Err} (h : x.self.out <+: y.self.out) :
    Same (α := α) r x (.error e) (.error e, y) := ⟨h, rfl⟩

theorem Same.ok {α : Type} {r : Ref} {x y : Run} {v : α} {s : WS} (h : x.self.out <+: y.self.out) (hr : y.self.cref = r)
    (hs : ws y = s) : Same r x (.ok (v, s)) (.ok v, y) := ⟨h, rfl, hr, hs⟩

/-- running one after another -/
theorem Same.bind {α β : Type} {r : Ref} {x : Run} {a : Except Err (α × WS)} {F : W α} (h : Same r x a (F x))
    {k : α → WS → Except Err (β × WS)} {K : α → W β}
    (hk : ∀ v y, y.self.cref = r → x.self.out <+: y.self.out → Same r y (k v (ws y)) (K v y)) :
    Same r x (a >>= fun p => k p.1 p.2) ((F >>= K) x) := by
  obtain ⟨h1, h2⟩ := h
  generalize hb : F x = b at h1 h2
  obtain ⟨b, y⟩ := b
  cases a with
  | error e =>
    simp only at h2
    subst h2
    rw [bind_err hb]
    exact ⟨h1, rfl⟩
  | ok p =>
    obtain ⟨v, s⟩ := p
    obtain ⟨e1, e2, e3⟩ := h2
    simp only at e1 e2 e3 h1
    subst e1
    rw [bind_of hb]
    obtain ⟨k1, k2⟩ := hk v y e2 h1
    rw [e3] at k2
    exact ⟨h1.trans k1, k2⟩

theorem unit_bind {β : Type} (a : Except Err WS) (k : WS → Except Err β) : (a >>= k) = (unit a >>= fun p => k p.2) := by
  cases a <;> rfl

theorem unit_bind' (a : Except Err WS) (k : WS → Except Err WS) : unit (a >>= k) = (unit a >>= fun p => unit (k p.2)) := by
  cases a <;> rfl

theorem Tracks.pure (r : Ref) : Tracks r .ok (pure ()) := fun _ hx => Same.ok (List.prefix_refl _) hx rfl

theorem Tracks.bind {r : Ref} {f k : WS → Except Err WS} {F K : W Unit} (h1 : Tracks r f F) (h2 : Tracks r k K) :
    Tracks r (fun s => f s >>= k) (F >>= fun _ => K) := by
  intro x hx
  have := Same.bind (h1 x hx) (k := fun _ s => unit (k s)) (K := fun _ => K) (fun _ y hy _ => h2 y hy)
  rw [show unit (f (ws x) >>= k) = _ from unit_bind' ..]
  exact this

section
variable {w : World} {r : Ref} {c : Circuit}

theorem updateWire_tracks (g : GateId) (wires : Option (List Nat)) (str : List Char) :
    Tracks r (fun s => .ok (Bristol.updateWire g wires str s)) (updateWire g wires str) := by
  intro x hx
  cases wires with
  | none => exact Same.ok (List.prefix_refl _) hx rfl
  | some l => exact Same.ok (List.prefix_append _ _) hx rfl

/-- the object's function for single gates follows the function -/
def TracksGate (r : Ref) (wg : Bristol.WriteGate) (WG : WriteGate) : Prop := ∀ g gate, Tracks r (wg g gate) (WG g gate)

theorem ensureWire_tracks (hc : w.circs[r]? = some c) {wg : Bristol.WriteGate} {WG : WriteGate} (h : TracksGate r wg WG)
    (id : GateId) : Tracks r (Bristol.ensureWire c wg id) (ensureWire w WG id) := by
  intro x hx
  unfold Bristol.ensureWire ensureWire
  rw [bind_get]
  rw [show (ws x).2 = x.wog from rfl]
  cases hi : x.wog id with
  | some n => exact Tracks.pure r x hx
  | none =>
    simp only
    rw [bind_circuit hx hc]
    cases hg : c.gateMap id with
    | none => exact Same.error (List.prefix_refl _)
    | some gate => exact h id gate x hx

theorem ensureWires_tracks (hc : w.circs[r]? = some c) {wg : Bristol.WriteGate} {WG : WriteGate} (h : TracksGate r wg WG) :
    ∀ ids, Tracks r (Bristol.ensureWires c wg ids) (ensureWires w WG ids)
  | [] => Tracks.pure r
  | id :: ids => (ensureWire_tracks hc h id).bind (ensureWires_tracks hc h ids)

theorem writeConsts_tracks (hc : w.circs[r]? = some c) : ∀ gs, Tracks r (Bristol.writeConsts c gs) (writeConsts w gs)
  | [] => Tracks.pure r
  | g :: gs => by
    intro x hx
    have ih := writeConsts_tracks hc gs
    unfold Bristol.writeConsts writeConsts
    rw [bind_circuit hx hc]
    cases hg : c.gateMap g with
    | none => exact Same.error (List.prefix_refl _)
    | some gate =>
      cases gate with
      | const v => exact ih { x with
          constOf := x.constOf.insert x.self.lastConstWire v
          wog := x.wog.insert g x.self.lastConstWire
          self := { x.self with lastConstWire := x.self.lastConstWire + 1 } } hx
      | _ => exact ih x hx

theorem writePass1_tracks (hc : w.circs[r]? = some c) {wg : Bristol.WriteGate} {WG : WriteGate} (h : TracksGate r wg WG) :
    ∀ (k i : Nat) (x : Run), x.self.cref = r → Same r x (Bristol.writePass1 c wg i k (ws x)) (writePass1 w WG i k x)
  | 0, i, x, hx => Same.ok (List.prefix_refl _) hx rfl
  | k + 1, i, x, hx => by
    unfold Bristol.writePass1 writePass1
    rw [bind_circuit hx hc]
    cases ho : c.outputMap i with
    | none => exact Same.error (List.prefix_refl _)
    | some g =>
      simp only
      rw [bind_circuit hx hc]
      cases hg : c.gateMap g with
      | none => exact Same.error (List.prefix_refl _)
      | some gate =>
        simp only
        rw [unit_bind]
        exact Same.bind (ensureWires_tracks hc h gate.operands x hx)
          (k := fun _ s => Bristol.writePass1 c wg (i + 1) k s >>= fun p => .ok ((g, gate) :: p.1, p.2)) fun _ y hy _ =>
            Same.bind (writePass1_tracks hc h k (i + 1) y hy) (k := fun v s => .ok ((g, gate) :: v, s))
              fun v z hz _ => Same.ok (List.prefix_refl _) hz rfl

theorem writePass2_tracks {wg : Bristol.WriteGate} {WG : WriteGate} (h : TracksGate r wg WG) :
    ∀ outs, Tracks r (Bristol.writePass2 wg outs) (writePass2 WG outs)
  | [] => Tracks.pure r
  | (g, gate) :: rest => by
    intro x hx
    have ih := writePass2_tracks h rest
    unfold Bristol.writePass2 writePass2
    rw [bind_get]
    rw [show (ws x).2 = x.wog from rfl]
    cases hg : x.wog g with
    | some n => exact ih x hx
    | none => exact (h g gate).bind ih x hx

theorem writeAll_tracks (hc : w.circs[r]? = some c) {wg : Bristol.WriteGate} {WG : WriteGate} (h : TracksGate r wg WG) :
    Tracks r (Bristol.writeAll c wg) (writeAll w WG) := by
  intro x hx
  unfold Bristol.writeAll writeAll
  rw [bind_circuit hx hc, unit_bind']
  refine Same.bind (writeConsts_tracks hc c.constGates x hx)
    (k := fun _ s => unit (Bristol.writePass1 c wg 0 c.outputLen s >>= fun p => Bristol.writePass2 wg p.1 p.2)) fun _ y hy _ => ?_
  rw [bind_circuit hy hc]
  have : ∀ s, unit (Bristol.writePass1 c wg 0 c.outputLen s >>= fun p => Bristol.writePass2 wg p.1 p.2) =
      (Bristol.writePass1 c wg 0 c.outputLen s >>= fun p => unit (Bristol.writePass2 wg p.1 p.2)) := by
    intro s; cases Bristol.writePass1 c wg 0 c.outputLen s <;> rfl
  rw [this]
  exact Same.bind (writePass1_tracks hc h _ _ y hy) (k := fun v s => unit (Bristol.writePass2 wg v s))
    fun v z hz _ => writePass2_tracks h v z hz

theorem bindOuts_tracks (mc : Circuit) (new : Map GateId Nat) (first : GateId) : ∀ (k i : Nat),
    Tracks r (fun s => Bristol.bindOuts mc new first i k s.2 >>= fun wog => .ok (s.1, wog)) (bindOuts mc new first i k)
  | 0, i => Tracks.pure r
  | k + 1, i => by
    intro x hx
    unfold Bristol.bindOuts bindOuts
    cases ho : mc.outputMap i with
    | none => exact Same.error (List.prefix_refl _)
    | some g =>
      simp only
      cases hn : new g with
      | none => exact Same.error (List.prefix_refl _)
      | some n => exact bindOuts_tracks mc new first k (i + 1) { x with wog := x.wog.insert (first + i) n } hx

end

theorem writeGate_tracks (w : World) : ∀ (fuel : Nat) {r : Ref} {c : Circuit}, w.circs[r]? = some c →
    TracksGate r (Bristol.writeGate w fuel r) (writeGate w fuel)
  | 0, r, c, hc => fun g gate x _ => Same.error (List.prefix_refl _)
  | fuel + 1, r, c, hc => by
    intro g gate x hx
    have ih := writeGate_tracks w fuel hc
    have logic : Same r x (unit (Bristol.ensureWires c (Bristol.writeGate w fuel r) gate.operands (ws x) >>= fun s =>
          wiresOf s.2 gate.operands >>= fun l => .ok (Bristol.updateWire g (some l) (gateStr gate) s)))
        ((ensureWires w (writeGate w fuel) gate.operands >>= fun _ => W.get >>= fun y =>
          W.lift (wiresOf y.wog gate.operands) >>= fun l => updateWire g (some l) (gateStr gate)) x) := by
      rw [unit_bind']
      refine Same.bind (ensureWires_tracks hc ih gate.operands x hx) (k := fun _ s => unit (wiresOf s.2 gate.operands >>=
        fun l => .ok (Bristol.updateWire g (some l) (gateStr gate) s))) fun _ y hy _ => ?_
      rw [bind_get]
      show Same r y (unit (wiresOf y.wog gate.operands >>= _)) _
      cases hl : wiresOf y.wog gate.operands with
      | error e => exact Same.error (List.prefix_refl _)
      | ok l => exact updateWire_tracks g (some l) (gateStr gate) y hy
    rw [Bristol.writeGate, bind_of_ok (circuit_of hc)]
    rw [writeGate.eq_def]
    cases gate with
    | input k => exact updateWire_tracks g none _ x hx
    | const v => exact Tracks.pure r x hx
    | not a => exact logic
    | xor a b => exact logic
    | and a b => exact logic
    | or a b => exact logic
    | module nIn nOut ids oi mid =>
      simp only
      rw [unit_bind']
      refine Same.bind (ensureWires_tracks hc ih ids x hx) (k := fun _ s => unit (match w.module? c mid with
        | none => .error (.unknownModule mid)
        | some mr => do
          let mc ← w.circuit mr
          let new ← bindArgs mc s.2 0 ids Map.empty
          let (st, new) ← Bristol.writeAll mc (Bristol.writeGate w fuel mr) (s.1, new)
          if g < oi then .error (.panic .underflow)
          else do
            let wog ← Bristol.bindOuts mc new (g - oi) 0 nOut s.2
            .ok (st, wog))) fun _ y hy _ => ?_
      rw [bind_circuit hy hc]
      cases hm : w.module? c mid with
      | none => exact Same.error (List.prefix_refl _)
      | some mr =>
        simp only
        cases hmc : w.circuit mr with
        | error e => exact Same.error (List.prefix_refl _)
        | ok mc =>
          rw [bind_of_ok rfl, bind_lift_ok rfl, bind_get]
          show Same r y (unit (bindArgs mc y.wog 0 ids Map.empty >>= _)) _
          cases hn : bindArgs mc y.wog 0 ids Map.empty with
          | error e => exact Same.error (List.prefix_refl _)
          | ok new =>
            rw [bind_of_ok rfl, bind_lift_ok rfl]
            have hmc' := circuit_ok hmc
            obtain ⟨h1, h2⟩ := writeAll_tracks hmc' (writeGate_tracks w fuel hmc')
              { y with self := { y.self with cref := mr }, wog := new } rfl
            simp only at h1
            rw [show ws { y with self := { y.self with cref := mr }, wog := new } = ((ws y).1, new) from rfl] at h2
            generalize hF : writeAll w (writeGate w fuel) { y with self := { y.self with cref := mr }, wog := new } = b at h1 h2
            obtain ⟨b, z⟩ := b
            cases hA : Bristol.writeAll mc (Bristol.writeGate w fuel mr) ((ws y).1, new) with
            | error e =>
              rw [hA] at h2
              cases (show b = .error e from h2)
              have : inCallee mr new (writeAll w (writeGate w fuel)) y = (.error e, { z with wog := y.wog }) := by
                unfold inCallee; rw [hF]
              rw [bind_err this]
              exact Same.error h1
            | ok p =>
              obtain ⟨st, new2⟩ := p
              rw [hA] at h2
              obtain ⟨e1, e2, e3⟩ := h2
              cases (show b = .ok () from e1)
              have : inCallee mr new (writeAll w (writeGate w fuel)) y =
                  (.ok z.wog, { z with self := { z.self with cref := y.self.cref }, wog := y.wog }) := by
                unfold inCallee; rw [hF]
              rw [bind_of this, bind_of_ok rfl]
              simp only
              have hz : z.wog = new2 := congrArg Prod.snd e3
              have hst : (ws z).1 = st := congrArg Prod.fst e3
              by_cases hlt : g < oi
              · rw [if_pos hlt, if_pos hlt]; exact Same.error h1
              · rw [if_neg hlt, if_neg hlt, hz]
                obtain ⟨k1, k2⟩ := bindOuts_tracks (r := r) mc new2 (g - oi) nOut 0
                  { z with self := { z.self with cref := y.self.cref }, wog := y.wog } hy
                refine ⟨h1.trans k1, ?_⟩
                rw [← hst]
                exact k2

theorem writeInputs_tracks {w : World} {r : Ref} {c : Circuit} (hc : w.circs[r]? = some c) (fuel : Nat) : ∀ (k i : Nat),
    Tracks r (Bristol.writeInputs w fuel r c i k) (writeInputs w fuel i k)
  | 0, i => Tracks.pure r
  | k + 1, i => by
    intro x hx
    unfold Bristol.writeInputs writeInputs
    rw [bind_circuit hx hc]
    cases hi : c.inputMap i with
    | none => exact Same.error (List.prefix_refl _)
    | some g =>
      simp only
      rw [bind_circuit hx hc]
      cases hg : c.gateMap g with
      | none => exact Same.error (List.prefix_refl _)
      | some gate => exact (writeGate_tracks w fuel hc g gate).bind (writeInputs_tracks hc fuel k (i + 1)) x hx

theorem header_split (c : Circuit) (k : Nat) (out : List Char) :
    out ++ (dec c.numGate ++ [' '] ++ dec (c.numWire + c.numConst) ++ ['\n']) ++
      ("2 ".toList ++ dec k ++ [' '] ++ dec (c.inputLen + c.numConst - k) ++ ['\n']) ++
      ("1 ".toList ++ dec c.outputLen ++ ['\n']) ++ ['\n'] = out ++ header c k := by
  simp [header]

/-- the object does what the function `write` does -/
theorem write_same {w : World} {o : Writer} {c : Circuit} (hc : w.circs[o.cref]? = some c) (fuel numFirst : Nat)
    (wog : Map GateId Nat) {st : WSt} (h1 : st.numWire = o.numWire) (h2 : st.lastConstWire = o.lastConstWire) (h3 : st.out = o.out) :
    o.out <+: (write w fuel numFirst wog o).2.1.out ∧
    match Bristol.write w fuel o.cref numFirst st wog with
    | .ok res => write w fuel numFirst wog o =
        (.ok res.consts, ⟨o.cref, res.st.numWire, res.st.lastConstWire, res.st.out⟩, res.wog)
    | .error e => (write w fuel numFirst wog o).1 = .error e := by
  suffices h : Same o.cref { self := o, wog := wog, constOf := Map.empty }
      (Bristol.write w fuel o.cref numFirst st wog |>.map fun res => (res.consts, (res.st, res.wog)))
      (writeBody w fuel numFirst { self := o, wog := wog, constOf := Map.empty }) by
    obtain ⟨k1, k2⟩ := h
    refine ⟨k1, ?_⟩
    cases hw : Bristol.write w fuel o.cref numFirst st wog with
    | error e => rw [hw] at k2; exact k2
    | ok res =>
      rw [hw] at k2
      obtain ⟨e1, e2, e3⟩ := k2
      unfold write
      generalize writeBody w fuel numFirst { self := o, wog := wog, constOf := Map.empty } = b at e1 e2 e3
      obtain ⟨b, x⟩ := b
      simp only at e1 e2 e3 ⊢
      have e4 := congrArg Prod.fst e3
      have e5 := congrArg Prod.snd e3
      simp only [ws] at e4 e5
      rw [← e4, ← e5, e1, ← e2]
  unfold Bristol.write writeBody
  rw [bind_of_ok (circuit_of hc), bind_circuit rfl hc]
  show Same _ _ _ ((if c.inputLen + c.numConst < numFirst then W.throw (.panic .assertFailed) else _ : W (List Bool))
    { self := { o with out := o.out ++ (dec c.numGate ++ [' '] ++ dec (c.numWire + c.numConst) ++ ['\n']) }, wog := wog, constOf := Map.empty })
  by_cases hk : c.inputLen + c.numConst < numFirst
  · rw [if_pos hk, if_pos hk]; exact Same.error (List.prefix_append _ _)
  · rw [if_neg hk, if_neg hk]
    let x0 : Run := { self := { o with out := o.out ++ header c numFirst }, wog := wog, constOf := Map.empty }
    have hsame : ∀ (a : Except Err (List Bool × WS)) (b : Except Err (List Bool) × Run), Same o.cref x0 a b →
        Same o.cref { self := o, wog := wog, constOf := Map.empty } a b :=
      fun a b h => ⟨(List.prefix_append _ _).trans h.1, h.2⟩
    refine hsame _ _ ?_
    have hst : ({ st with out := st.out ++ header c numFirst, constOf := Map.empty }, wog) = ws x0 := by
      simp only [ws, x0, h1, h2, h3]
    simp only
    rw [hst]
    have key : Same o.cref x0 (unit (Bristol.writeInputs w fuel o.cref c 0 c.inputLen (ws x0)) >>= fun p =>
          (unit (Bristol.writeAll c (Bristol.writeGate w fuel o.cref)
            ({ p.2.1 with lastConstWire := c.inputLen, numWire := p.2.1.numWire + c.numConst }, p.2.2)) >>= fun q =>
            (constVals q.2.1.constOf (rangeFromTo c.inputLen q.2.1.lastConstWire)).map fun cs => (cs, q.2)))
        ((writeInputs w fuel 0 c.inputLen >>= fun _ => W.get >>= fun x =>
          W.set { x with self := { x.self with lastConstWire := c.inputLen, numWire := x.self.numWire + c.numConst } } >>= fun _ =>
          writeAll w (writeGate w fuel) >>= fun _ => W.get >>= fun x =>
          W.lift (constVals x.constOf (rangeFromTo c.inputLen x.self.lastConstWire))) x0) := by
      refine Same.bind (writeInputs_tracks hc fuel c.inputLen 0 x0 rfl) (k := fun _ s => (unit (Bristol.writeAll c
          (Bristol.writeGate w fuel o.cref) ({ s.1 with lastConstWire := c.inputLen, numWire := s.1.numWire + c.numConst }, s.2)) >>=
            fun q => (constVals q.2.1.constOf (rangeFromTo c.inputLen q.2.1.lastConstWire)).map fun cs => (cs, q.2)))
        fun _ y hy _ => ?_
      rw [bind_get, bind_set]
      refine Same.bind (writeAll_tracks hc (writeGate_tracks w fuel hc) { y with self := { y.self with
          lastConstWire := c.inputLen, numWire := y.self.numWire + c.numConst } } hy)
        (k := fun _ s => (constVals s.1.constOf (rangeFromTo c.inputLen s.1.lastConstWire)).map fun cs => (cs, s))
        fun _ z hz _ => ?_
      rw [bind_get]
      show Same _ _ ((constVals z.constOf (rangeFromTo c.inputLen z.self.lastConstWire)).map fun cs => (cs, ws z)) _
      cases constVals z.constOf (rangeFromTo c.inputLen z.self.lastConstWire) with
      | error e => exact Same.error (List.prefix_refl _)
      | ok cs => exact Same.ok (List.prefix_refl _) hz rfl
    have hL : (Bristol.writeInputs w fuel o.cref c 0 c.inputLen (ws x0) >>= fun s =>
        Bristol.writeAll c (Bristol.writeGate w fuel o.cref)
          ({ s.1 with lastConstWire := c.inputLen, numWire := s.1.numWire + c.numConst }, s.2) >>= fun s =>
        constVals s.1.constOf (rangeFromTo c.inputLen s.1.lastConstWire) >>= fun cs =>
        Except.ok ({ consts := cs, st := s.1, wog := s.2 } : Written)).map (fun res => (res.consts, (res.st, res.wog))) =
        (unit (Bristol.writeInputs w fuel o.cref c 0 c.inputLen (ws x0)) >>= fun p =>
          (unit (Bristol.writeAll c (Bristol.writeGate w fuel o.cref)
            ({ p.2.1 with lastConstWire := c.inputLen, numWire := p.2.1.numWire + c.numConst }, p.2.2)) >>= fun q =>
            (constVals q.2.1.constOf (rangeFromTo c.inputLen q.2.1.lastConstWire)).map fun cs => (cs, q.2))) := by
      cases Bristol.writeInputs w fuel o.cref c 0 c.inputLen (ws x0) with
      | error e => rfl
      | ok s =>
        simp only [bind_of_ok rfl, unit, Except.map]
        cases Bristol.writeAll c (Bristol.writeGate w fuel o.cref)
          ({ s.1 with lastConstWire := c.inputLen, numWire := s.1.numWire + c.numConst }, s.2) with
        | error e => rfl
        | ok s =>
          simp only [bind_of_ok rfl]
          cases constVals s.1.constOf (rangeFromTo c.inputLen s.1.lastConstWire) <;> rfl
    rw [← hL] at key
    have hx : ∀ k : W (List Bool), (emit ("2 ".toList ++ dec numFirst ++ [' '] ++ dec (c.inputLen + c.numConst - numFirst) ++ ['\n'])
        >>= fun _ => emit ("1 ".toList ++ dec c.outputLen ++ ['\n']) >>= fun _ => emit ['\n'] >>= fun _ => k)
        { self := { o with out := o.out ++ (dec c.numGate ++ [' '] ++ dec (c.numWire + c.numConst) ++ ['\n']) }, wog := wog,
          constOf := Map.empty } = k x0 := by
      intro k
      show k _ = k _
      congr 1
      simp only [x0, header_split]
    rw [hx]
    exact key

end CC.Bristol.Obj
