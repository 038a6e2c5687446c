import Verif.Model.SinkWriter
import Verif.Proofs.WriterObj
import Verif.Proofs.ByteReader

/-!
# The writer over a failing output: what arrives is a prefix of what the writer over a perfect output writes
-/

namespace CC.Bristol.Sink
open CC.Spec CC.Spec.Bristol
open CC.Bristol.Bytes (BErr)

/-! ### the buffer -/

theorem Dev.write_spec (d : Dev) (buf : List Nat) : match d.write buf with
    | (none, d') => d'.got = d.got
    | (some n, d') => d'.got = d.got ++ buf.take n := by
  unfold Dev.write
  rcases d with ⟨got, _ | ⟨n | _, as⟩⟩
  · simp
  · simp only
    congr 1
    rcases Nat.le_total n buf.length with h | h
    · rw [Nat.min_eq_left h]
    · rw [Nat.min_eq_right h, List.take_length, List.take_of_length_le h]
  · rfl

theorem pushAll_spec : ∀ (fuel : Nat) (buf : List Nat) (d : Dev),
    (pushAll fuel buf d).2.2.got ++ (pushAll fuel buf d).2.1 = d.got ++ buf ∧
    ((pushAll fuel buf d).1 = true → (pushAll fuel buf d).2.1 = []) ∧ (pushAll fuel buf d).2.1.length ≤ buf.length
  | _, [], d => by simp [pushAll]
  | 0, b :: bs, d => by simp [pushAll]
  | fuel + 1, b :: bs, d => by
    have h := d.write_spec (b :: bs)
    unfold pushAll
    split
    · next d' e =>
      rw [e] at h
      simp only at h
      simp [h]
    · next d' e =>
      rw [e] at h
      simp only [List.take_zero, List.append_nil] at h
      simp [h]
    · next n d' e =>
      rw [e] at h
      obtain ⟨h1, h2, h3⟩ := pushAll_spec fuel ((b :: bs).drop (n + 1)) d'
      refine ⟨?_, h2, ?_⟩
      · rw [h1, h, List.append_assoc, List.take_append_drop]
      · rw [List.length_drop] at h3; omega

theorem pushAll_got (fuel : Nat) (buf : List Nat) (d : Dev) : d.got <+: (pushAll fuel buf d).2.2.got := by
  induction fuel generalizing buf d with
  | zero => cases buf <;> exact List.prefix_refl _
  | succ fuel ih =>
    cases buf with
    | nil => exact List.prefix_refl _
    | cons b bs =>
      have h := d.write_spec (b :: bs)
      unfold pushAll
      split
      · next d' e => rw [e] at h; exact ⟨[], by rw [List.append_nil]; exact h.symm⟩
      · next d' e => rw [e] at h; exact ⟨_, h.symm⟩
      · next n d' e => rw [e] at h; exact List.IsPrefix.trans ⟨_, h.symm⟩ (ih _ _)

/-- everything given to the buffer, if nothing was lost -/
def Buf.total (b : Buf) : List Nat := b.dev.got ++ b.buf

/-- the buffer is not larger than its capacity -/
def Buf.Fine (b : Buf) : Prop := b.buf.length ≤ b.cap

theorem flush_spec (b : Buf) : b.flush.2.total = b.total ∧ (b.flush.1 = true → b.flush.2.buf = []) ∧ b.flush.2.cap = b.cap ∧
    b.flush.2.buf.length ≤ b.buf.length := by
  obtain ⟨h1, h2, h3⟩ := pushAll_spec b.buf.length b.buf b.dev
  exact ⟨h1, h2, rfl, h3⟩

theorem writeAll_spec (b : Buf) (hb : b.Fine) (bs : List Nat) : (b.writeAll bs).2.Fine ∧
    ((b.writeAll bs).1 = true → (b.writeAll bs).2.total = b.total ++ bs) ∧
    b.total <+: (b.writeAll bs).2.total ∧ (b.writeAll bs).2.total <+: b.total ++ bs := by
  unfold Buf.Fine at hb
  have direct : ∀ b : Buf, b.buf = [] → 
      ((pushAll bs.length bs b.dev).1 = true →
        ({ b with dev := (pushAll bs.length bs b.dev).2.2 } : Buf).total = b.total ++ bs) ∧
      b.total <+: ({ b with dev := (pushAll bs.length bs b.dev).2.2 } : Buf).total ∧
      ({ b with dev := (pushAll bs.length bs b.dev).2.2 } : Buf).total <+: b.total ++ bs := by
    intro b he
    obtain ⟨h1, h2, _⟩ := pushAll_spec bs.length bs b.dev
    refine ⟨fun h => ?_, ?_, (pushAll bs.length bs b.dev).2.1, ?_⟩
    · rw [h2 h] at h1
      simpa [Buf.total, he] using h1
    · simpa [Buf.total, he] using pushAll_got bs.length bs b.dev
    · simpa [Buf.total, he] using h1
  unfold Buf.writeAll
  split
  · next h =>
    refine ⟨?_, fun _ => ?_, ?_, ?_⟩
    · simp only [Buf.Fine, List.length_append]; omega
    · simp [Buf.total]
    · simp [Buf.total]
    · simp [Buf.total]
  · next h =>
    have hp : ∀ p : Bool × Buf, (if b.cap - b.buf.length < bs.length then b.flush else (true, b)) = p →
        p.2.total = b.total ∧ p.2.Fine ∧
        (p.1 = true → (p.2.cap ≤ bs.length → p.2.buf = []) ∧ (bs.length < p.2.cap → p.2.buf.length + bs.length ≤ p.2.cap)) := by
      rintro p rfl
      split
      · obtain ⟨f1, f2, f3, f4⟩ := flush_spec b
        refine ⟨f1, by unfold Buf.Fine; omega, fun hok => ⟨fun _ => f2 hok, fun hl => ?_⟩⟩
        rw [f2 hok, List.length_nil]
        omega
      · refine ⟨rfl, hb, fun _ => ⟨fun hc => List.length_eq_zero_iff.mp ?_, fun hl => ?_⟩⟩
        · show b.buf.length = 0
          replace hc : b.cap ≤ bs.length := hc
          omega
        · show b.buf.length + bs.length ≤ b.cap
          omega
    generalize (if b.cap - b.buf.length < bs.length then b.flush else (true, b)) = p at hp ⊢
    obtain ⟨p1, p2, p3⟩ := hp p rfl
    obtain ⟨ok, b'⟩ := p
    simp only at p1 p2 p3 ⊢
    have stay : b.total <+: b'.total ∧ b'.total <+: b.total ++ bs := by
      rw [p1]; exact ⟨List.prefix_refl _, List.prefix_append _ _⟩
    cases ok with
    | false => rw [if_neg (by simp)]; exact ⟨p2, fun h => absurd h (by simp), stay⟩
    | true =>
      obtain ⟨q1, q2⟩ := p3 rfl
      rw [if_pos rfl]
      split
      · next h2 =>
        obtain ⟨d1, d2⟩ := direct b' (q1 h2)
        rw [p1] at d1 d2
        exact ⟨by simp [Buf.Fine, q1 h2], d1, d2⟩
      · next h2 =>
        have e : ({ b' with buf := b'.buf ++ bs } : Buf).total = b.total ++ bs := by rw [← p1]; simp [Buf.total]
        refine ⟨?_, fun _ => e, ?_, ?_⟩
        · simp only [Buf.Fine, List.length_append]; exact q2 (by omega)
        · show b.total <+: ({ b' with buf := b'.buf ++ bs } : Buf).total
          rw [e]; exact List.prefix_append _ _
        · show ({ b' with buf := b'.buf ++ bs } : Buf).total <+: _
          rw [e]; exact List.prefix_refl _

/-- the output never fails and always takes something -/
def Dev.Reliable (d : Dev) : Prop := ∀ a ∈ d.answers, ∃ n, a = .take (n + 1)

theorem pushAll_reliable : ∀ (fuel : Nat) (buf : List Nat) (d : Dev), d.Reliable → buf.length ≤ fuel →
    (pushAll fuel buf d).1 = true ∧ (pushAll fuel buf d).2.2.Reliable
  | _, [], d, hd, _ => by simp [pushAll, hd]
  | 0, b :: bs, d, _, h => by simp at h
  | fuel + 1, b :: bs, d, hd, h => by
    obtain ⟨got, as⟩ := d
    have hle : ∀ k, (List.drop (k + 1) (b :: bs)).length ≤ fuel := by
      intro k
      rw [List.length_drop]
      simp only [List.length_cons] at h ⊢
      omega
    cases as with
    | nil =>
      simp only [pushAll, Dev.write, List.length_cons]
      exact pushAll_reliable fuel _ _ (by intro a ha; cases ha) (hle _)
    | cons a as =>
      obtain ⟨n, rfl⟩ := hd a (List.mem_cons_self ..)
      have hm : min (n + 1) (b :: bs).length = min n bs.length + 1 := by rw [List.length_cons]; omega
      simp only [pushAll, Dev.write, hm]
      exact pushAll_reliable fuel _ _ (fun a ha => hd a (List.mem_cons_of_mem _ ha)) (hle _)

theorem flush_reliable (b : Buf) (h : b.dev.Reliable) : b.flush.1 = true ∧ b.flush.2.dev.Reliable :=
  pushAll_reliable _ _ _ h (Nat.le_refl _)

theorem writeAll_step (b : Buf) (bs : List Nat) : b.dev.got <+: (b.writeAll bs).2.dev.got ∧ (b.writeAll bs).2.cap = b.cap ∧
    (b.dev.Reliable → (b.writeAll bs).1 = true ∧ (b.writeAll bs).2.dev.Reliable) := by
  unfold Buf.writeAll
  split
  · exact ⟨List.prefix_refl _, rfl, fun h => ⟨rfl, h⟩⟩
  · have hp : ∀ p : Bool × Buf, (if b.cap - b.buf.length < bs.length then b.flush else (true, b)) = p →
        b.dev.got <+: p.2.dev.got ∧ p.2.cap = b.cap ∧ (b.dev.Reliable → p.1 = true ∧ p.2.dev.Reliable) := by
      rintro p rfl
      split
      · exact ⟨pushAll_got _ _ _, rfl, flush_reliable b⟩
      · exact ⟨List.prefix_refl _, rfl, fun h => ⟨rfl, h⟩⟩
    generalize (if b.cap - b.buf.length < bs.length then b.flush else (true, b)) = p at hp ⊢
    obtain ⟨p1, p2, p3⟩ := hp p rfl
    obtain ⟨ok, b'⟩ := p
    simp only at p1 p2 p3 ⊢
    cases ok with
    | false => rw [if_neg (by simp)]; exact ⟨p1, p2, p3⟩
    | true =>
      rw [if_pos rfl]
      split
      · exact ⟨p1.trans (pushAll_got _ _ _), p2, fun h => pushAll_reliable _ _ _ (p3 h).2 (Nat.le_refl _)⟩
      · exact ⟨p1, p2, p3⟩

theorem asBytes_eq (t : List Char) : asBytes t = textBytes t := rfl

/-! ### the two writers -/

/-- the object over a perfect output and the object over a buffer are in the same state, `pre` aside -/
structure Rel (pre : List Nat) (x : Obj.Run) (y : Run) : Prop where
  cref : y.self.cref = x.self.cref
  numWire : y.self.numWire = x.self.numWire
  last : y.self.lastConstWire = x.self.lastConstWire
  wog : y.wog = x.wog
  constOf : y.constOf = x.constOf
  total : y.self.writer.total = pre ++ textBytes x.self.out
  fine : y.self.writer.Fine

theorem Rel.exists (pre : List Nat) (x : Obj.Run) : ∃ y, Rel pre x y :=
  ⟨⟨⟨x.self.cref, x.self.numWire, x.self.lastConstWire, ⟨0, [], ⟨pre ++ textBytes x.self.out, []⟩⟩⟩, x.wog, x.constOf⟩,
    rfl, rfl, rfl, rfl, rfl, by simp [Buf.total], by simp [Buf.Fine]⟩

/-- the results of the two objects: the same, or an I/O error, and what arrived and waits is what was there before and part of
the text -/
def Res {α : Type} (pre : List Nat) (a : Except Err α × Obj.Run) (b : Except BErr α × Run) : Prop :=
  match b with
  | (.ok v, y) => a.1 = .ok v ∧ Rel pre a.2 y
  | (.error (.other e), y) => a.1 = .error e ∧ Rel pre a.2 y
  | (.error .io, y) => y.self.writer.Fine ∧ pre <+: y.self.writer.total ∧ y.self.writer.total <+: pre ++ textBytes a.2.self.out
  | (.error .invalidUtf8, _) => False

/-- what happens to the output: bytes are only added, the capacity stays; a reliable output stays so and there is no I/O error;
and the output is not used before the buffer is full -/
structure Step {α : Type} (pre : List Nat) (y : Run) (out : List Char) (b : Except BErr α × Run) : Prop where
  got : y.self.writer.dev.got <+: b.2.self.writer.dev.got
  cap : b.2.self.writer.cap = y.self.writer.cap
  reliable : y.self.writer.dev.Reliable → b.1 ≠ .error .io ∧ b.2.self.writer.dev.Reliable
  small : pre.length + (textBytes out).length < y.self.writer.dev.got.length + y.self.writer.cap →
    b.1 ≠ .error .io ∧ b.2.self.writer.dev = y.self.writer.dev

theorem Step.same {α : Type} {pre : List Nat} {y : Run} {out : List Char} {b : Except BErr α × Run} (hb : b.1 ≠ .error .io)
    (h : b.2.self.writer = y.self.writer) : Step pre y out b :=
  ⟨by rw [h]; exact List.prefix_refl _, by rw [h], fun hr => ⟨hb, by rw [h]; exact hr⟩, fun _ => ⟨hb, by rw [h]⟩⟩

structure Sim {α : Type} (pre : List Nat) (F : Obj.W α) (G : W α) : Prop where
  mono : ∀ x, x.self.out <+: (F x).2.self.out
  res : ∀ x y, Rel pre x y → Res pre (F x) (G y)
  step : ∀ x y, Rel pre x y → Step pre y (F x).2.self.out (G y)

theorem bind_apply {α β : Type} (f : W α) (k : α → W β) (x : Run) : (f >>= k) x =
    match f x with
    | (.ok a, x') => k a x'
    | (.error e, x') => (.error e, x') := rfl

variable {pre : List Nat}

theorem textBytes_prefix {a b : List Char} (h : a <+: b) : textBytes a <+: textBytes b := by
  obtain ⟨t, rfl⟩ := h
  exact ⟨textBytes t, (Bytes.textBytes_append a t).symm⟩

theorem Sim.pure {α : Type} (a : α) : Sim pre (Pure.pure a : Obj.W α) (Pure.pure a) :=
  ⟨fun _ => List.prefix_refl _, fun _ _ h => ⟨rfl, h⟩, fun _ _ _ => .same (fun h => by cases h) rfl⟩

theorem Sim.throw {α : Type} (e : Err) : Sim pre (Obj.W.throw e : Obj.W α) (W.throw e) :=
  ⟨fun _ => List.prefix_refl _, fun _ _ h => ⟨rfl, h⟩, fun _ _ _ => .same (fun h => by cases h) rfl⟩

theorem Sim.lift {α : Type} (a : Except Err α) : Sim pre (Obj.W.lift a : Obj.W α) (W.lift a) := by
  refine ⟨fun x => List.prefix_refl _, fun x y h => ?_, fun x y _ => .same ?_ rfl⟩
  · cases a with
    | error e => exact ⟨rfl, h⟩
    | ok v => exact ⟨rfl, h⟩
  · cases a <;> exact fun h => by cases h

theorem Sim.bind {α β : Type} {F : Obj.W α} {G : W α} {K : α → Obj.W β} {L : α → W β} (h : Sim pre F G)
    (hk : ∀ a, Sim pre (K a) (L a)) : Sim pre (F >>= K) (G >>= L) := by
  have hm : ∀ x, (F x).2.self.out <+: ((F >>= K) x).2.self.out := by
    intro x
    rw [Obj.bind_apply]
    rcases F x with ⟨a | a, x'⟩
    · exact List.prefix_refl _
    · exact (hk a).mono x'
  have hok : ∀ x b, (F x).1 = .ok b → (F >>= K) x = K b (F x).2 := by
    intro x b h1
    rw [Obj.bind_apply]
    rcases ef : F x with ⟨a | a, x'⟩
    · rw [ef] at h1; cases h1
    · rw [ef] at h1; cases h1; rfl
  refine ⟨fun x => (h.mono x).trans (hm x), fun x y hr => ?_, fun x y hr => ?_⟩
  · have hres := h.res x y hr
    have hmx := hm x
    rw [bind_apply]
    rcases e : G y with ⟨b | b, y'⟩
    · rw [e] at hres
      simp only
      cases b with
      | io =>
        obtain ⟨h1, h2, h3⟩ := hres
        exact ⟨h1, h2, h3.trans ((List.prefix_append_right_inj pre).mpr (textBytes_prefix hmx))⟩
      | invalidUtf8 => exact hres.elim
      | other er =>
        obtain ⟨h1, h2⟩ := hres
        have : (F >>= K) x = (.error er, (F x).2) := by
          rw [Obj.bind_apply]
          rcases ef : F x with ⟨a | a, x'⟩
          · rw [ef] at h1; cases h1; rfl
          · rw [ef] at h1; cases h1
        rw [this]
        exact ⟨rfl, h2⟩
    · rw [e] at hres
      obtain ⟨h1, h2⟩ := hres
      rw [hok x b h1]
      exact (hk b).res _ _ h2
  · have hres := h.res x y hr
    have hst := h.step x y hr
    have hle : (textBytes (F x).2.self.out).length ≤ (textBytes ((F >>= K) x).2.self.out).length :=
      (textBytes_prefix (hm x)).length_le
    rw [bind_apply]
    rcases e : G y with ⟨b | b, y'⟩
    · rw [e] at hst
      refine ⟨hst.got, hst.cap, fun hrel => ⟨fun h => (hst.reliable hrel).1 ?_, (hst.reliable hrel).2⟩, fun hs => ?_⟩
      · cases h; rfl
      · obtain ⟨s1, s2⟩ := hst.small (by omega)
        exact ⟨fun h => s1 (by cases h; rfl), s2⟩
    · rw [e] at hres hst
      obtain ⟨h1, h2⟩ := hres
      have hst2 := (hk b).step _ _ h2
      rw [← hok x b h1] at hst2
      refine ⟨hst.got.trans hst2.got, hst2.cap.trans hst.cap, fun hrel => hst2.reliable (hst.reliable hrel).2, fun hs => ?_⟩
      obtain ⟨_, s2⟩ := hst.small (by omega)
      have s2 : y'.self.writer.dev = y.self.writer.dev := s2
      have hc : y'.self.writer.cap = y.self.writer.cap := hst.cap
      have := hst2.small (by rw [s2, hc]; exact hs)
      rw [s2] at this
      exact this

theorem Sim.get {β : Type} {K : Obj.Run → Obj.W β} {L : Run → W β} (h : ∀ u v, Rel pre u v → Sim pre (K u) (L v)) :
    Sim pre (Obj.W.get >>= K) (W.get >>= L) := by
  refine ⟨fun x => ?_, fun x y hr => (h x y hr).res x y hr, fun x y hr => (h x y hr).step x y hr⟩
  obtain ⟨y, hy⟩ := Rel.exists pre x
  exact (h x y hy).mono x

theorem Sim.getSet {β : Type} {f : Obj.Run → Obj.Run} {g : Run → Run} {K : Unit → Obj.W β} {L : Unit → W β}
    (h : ∀ u v, Rel pre u v → Rel pre (f u) (g v)) (hf : ∀ u, (f u).self.out = u.self.out)
    (hg : ∀ v, (g v).self.writer = v.self.writer) (hk : Sim pre (K ()) (L ())) :
    Sim pre (Obj.W.get >>= fun x => Obj.W.set (f x) >>= K) (W.get >>= fun y => W.set (g y) >>= L) := by
  refine ⟨fun x => ?_, fun x y hr => hk.res _ _ (h x y hr), fun x y hr => ?_⟩
  · have := hk.mono (f x)
    rw [hf] at this
    exact this
  · obtain ⟨s1, s2, s3, s4⟩ := hk.step _ _ (h x y hr)
    rw [hg] at s1 s2 s3 s4
    exact ⟨s1, s2, s3, s4⟩

theorem Sim.modify {f : Obj.Run → Obj.Run} {g : Run → Run}
    (h : ∀ u v, Rel pre u v → Rel pre (f u) (g v)) (hf : ∀ u, (f u).self.out = u.self.out)
    (hg : ∀ v, (g v).self.writer = v.self.writer) :
    Sim pre (Obj.W.get >>= fun x => Obj.W.set (f x)) (W.get >>= fun y => W.set (g y)) :=
  ⟨fun x => by show x.self.out <+: (f x).self.out; rw [hf]; exact List.prefix_refl _, fun x y hr => ⟨rfl, h x y hr⟩,
    fun x y _ => .same (fun h => by cases h) (hg y)⟩

theorem Sim.setWire (g : GateId) (n : Nat) : Sim pre (Obj.setWire g n) (setWire g n) :=
  ⟨fun x => List.prefix_refl _, fun x y h => ⟨rfl, ⟨h.cref, h.numWire, h.last, by show y.wog.insert g n = _; rw [h.wog]; rfl, h.constOf, h.total, h.fine⟩⟩,
    fun _ _ _ => .same (fun h => by cases h) rfl⟩

theorem Sim.circuit (w : World) : Sim pre (Obj.circuit w) (circuit w) := by
  refine ⟨fun x => List.prefix_refl _, fun x y h => ?_, fun x y h => .same ?_ rfl⟩
  · unfold Sink.circuit Obj.circuit
    rw [h.cref]
    cases w.circuit x.self.cref with
    | error e => exact ⟨rfl, h⟩
    | ok v => exact ⟨rfl, h⟩
  · unfold Sink.circuit
    cases w.circuit y.self.cref <;> exact fun h => by cases h

theorem Sim.emit (t : List Char) : Sim pre (Obj.emit t) (emit t) := by
  have hout : ∀ x : Obj.Run, pre ++ textBytes (Obj.emit t x).2.self.out = pre ++ textBytes x.self.out ++ asBytes t := by
    intro x
    show pre ++ textBytes (x.self.out ++ t) = _
    rw [Bytes.textBytes_append, asBytes_eq, List.append_assoc]
  refine ⟨fun x => List.prefix_append _ _, fun x y h => ?_, fun x y h => ?_⟩
  · obtain ⟨s1, s2, s3⟩ := writeAll_spec y.self.writer h.fine (asBytes t)
    rw [h.total] at s2 s3
    rw [← hout] at s2 s3
    unfold Sink.emit
    generalize y.self.writer.writeAll (asBytes t) = b at s1 s2 s3
    obtain ⟨ok, b⟩ := b
    cases ok with
    | true => exact ⟨rfl, ⟨h.cref, h.numWire, h.last, h.wog, h.constOf, s2 rfl, s1⟩⟩
    | false => exact ⟨s1, (List.prefix_append _ _).trans s3.1, s3.2⟩
  · obtain ⟨s1, s2, s3⟩ := writeAll_step y.self.writer (asBytes t)
    have s4 : pre.length + (textBytes (Obj.emit t x).2.self.out).length < y.self.writer.dev.got.length + y.self.writer.cap →
        (y.self.writer.writeAll (asBytes t)).1 = true ∧ (y.self.writer.writeAll (asBytes t)).2.dev = y.self.writer.dev := by
      intro hs
      have e := congrArg List.length (hout x)
      rw [← h.total] at e
      simp only [Buf.total, List.length_append] at e
      rw [e] at hs
      unfold Buf.writeAll
      rw [if_pos (by omega)]
      exact ⟨rfl, rfl⟩
    unfold Sink.emit
    generalize y.self.writer.writeAll (asBytes t) = b at s1 s2 s3 s4
    obtain ⟨ok, b⟩ := b
    refine ⟨s1, s2, fun hr => ⟨?_, (s3 hr).2⟩, fun hs => ⟨?_, (s4 hs).2⟩⟩
    · obtain rfl : ok = true := (s3 hr).1
      exact fun h => by cases h
    · obtain rfl : ok = true := (s4 hs).1
      exact fun h => by cases h

theorem Sim.updateWire (g : GateId) (ws : Option (List Nat)) (str : List Char) :
    Sim pre (Obj.updateWire g ws str) (updateWire g ws str) := by
  refine Sim.get fun u v h => ?_
  rw [h.numWire]
  refine (Sim.setWire _ _).bind fun _ => ?_
  have fin : Sim pre (Obj.W.get >>= fun x => Obj.W.set { x with self := { x.self with numWire := x.self.numWire + 1 } })
      (W.get >>= fun y => W.set { y with self := { y.self with numWire := y.self.numWire + 1 } }) :=
    Sim.modify (fun u v h => ⟨h.cref, by simp [h.numWire], h.last, h.wog, h.constOf, h.total, h.fine⟩) (fun _ => rfl) (fun _ => rfl)
  cases ws with
  | none => exact fin
  | some ws => exact (Sim.emit _).bind fun _ => fin

section
variable {w : World} {wg : Obj.WriteGate} {wg' : WriteGate} (h : ∀ g gate, Sim pre (wg g gate) (wg' g gate))
include h

theorem Sim.ensureWire (id : GateId) : Sim pre (Obj.ensureWire w wg id) (ensureWire w wg' id) := by
  refine Sim.get fun u v hr => ?_
  rw [hr.wog]
  cases u.wog id with
  | some _ => exact .pure _
  | none =>
    refine (Sim.circuit w).bind fun c => ?_
    cases c.gateMap id with
    | none => exact .throw _
    | some gate => exact h _ _

theorem Sim.ensureWires : ∀ ids : List GateId, Sim pre (Obj.ensureWires w wg ids) (ensureWires w wg' ids)
  | [] => .pure _
  | id :: ids => (Sim.ensureWire h id).bind fun _ => Sim.ensureWires ids

theorem Sim.writePass1 : ∀ k i, Sim pre (Obj.writePass1 w wg i k) (writePass1 w wg' i k)
  | 0, _ => .pure _
  | k + 1, i => by
    refine (Sim.circuit w).bind fun c => ?_
    cases c.outputMap i with
    | none => exact .throw _
    | some g =>
      refine (Sim.circuit w).bind fun c => ?_
      cases c.gateMap g with
      | none => exact .throw _
      | some gate =>
        exact (Sim.ensureWires h _).bind fun _ => (Sim.writePass1 k (i + 1)).bind fun _ => .pure _

theorem Sim.writePass2 : ∀ l : List (GateId × Gate), Sim pre (Obj.writePass2 wg l) (writePass2 wg' l)
  | [] => .pure _
  | (g, gate) :: rest => by
    refine Sim.get fun u v hr => ?_
    rw [hr.wog]
    cases u.wog g with
    | some _ => exact Sim.writePass2 rest
    | none => exact (h _ _).bind fun _ => Sim.writePass2 rest

end

theorem Sim.writeConsts (w : World) : ∀ gs : List GateId, Sim pre (Obj.writeConsts w gs) (writeConsts w gs)
  | [] => .pure _
  | g :: gs => by
    refine (Sim.circuit w).bind fun c => ?_
    have ih := Sim.writeConsts w gs
    cases c.gateMap g with
    | none => exact .throw _
    | some gate =>
      cases gate with
      | const v =>
        refine Sim.get fun u v' hr => ?_
        rw [hr.last]
        refine (Sim.setWire _ _).bind fun _ => ?_
        refine Sim.getSet (fun u v h => ?_) (fun _ => rfl) (fun _ => rfl) ih
        exact ⟨h.cref, h.numWire, by simp [h.last], h.wog, by simp [h.last, h.constOf], h.total, h.fine⟩
      | input => exact ih
      | module => exact ih
      | not => exact ih
      | xor => exact ih
      | and => exact ih
      | or => exact ih

theorem Sim.writeAll {w : World} {wg : Obj.WriteGate} {wg' : WriteGate} (h : ∀ g gate, Sim pre (wg g gate) (wg' g gate)) :
    Sim pre (Obj.writeAll w wg) (writeAll w wg') :=
  (Sim.circuit w).bind fun _ => (Sim.writeConsts w _).bind fun _ => (Sim.circuit w).bind fun _ =>
    (Sim.writePass1 h _ _).bind fun _ => Sim.writePass2 h _

theorem Sim.inCallee {F : Obj.W Unit} {G : W Unit} (h : Sim pre F G) (mr : Ref) (new : Map GateId Nat) :
    Sim pre (Obj.inCallee mr new F) (inCallee mr new G) := by
  refine ⟨fun x => ?_, fun x y hr => ?_, fun x y hr => ?_⟩
  · have := h.mono { x with self := { x.self with cref := mr }, wog := new }
    unfold Obj.inCallee
    rcases e : F { x with self := { x.self with cref := mr }, wog := new } with ⟨a | a, x'⟩
    · rw [e] at this; exact this
    · rw [e] at this; exact this
  · have := h.res { x with self := { x.self with cref := mr }, wog := new }
      { y with self := { y.self with cref := mr }, wog := new }
      ⟨rfl, hr.numWire, hr.last, rfl, hr.constOf, hr.total, hr.fine⟩
    unfold Obj.inCallee Sink.inCallee
    rcases e' : G { y with self := { y.self with cref := mr }, wog := new } with ⟨b | b, y'⟩
    · rw [e'] at this
      cases b with
      | io =>
        obtain ⟨h1, h2, h3⟩ := this
        refine ⟨h1, h2, ?_⟩
        rcases e : F { x with self := { x.self with cref := mr }, wog := new } with ⟨a | a, x'⟩ <;> (rw [e] at h3; exact h3)
      | invalidUtf8 => exact this.elim
      | other er =>
        obtain ⟨h1, h2⟩ := this
        rcases e : F { x with self := { x.self with cref := mr }, wog := new } with ⟨a | a, x'⟩
        · rw [e] at h1 h2
          cases h1
          exact ⟨rfl, h2.cref, h2.numWire, h2.last, hr.wog, h2.constOf, h2.total, h2.fine⟩
        · rw [e] at h1; cases h1
    · rw [e'] at this
      obtain ⟨h1, h2⟩ := this
      rcases e : F { x with self := { x.self with cref := mr }, wog := new } with ⟨a | a, x'⟩
      · rw [e] at h1; cases h1
      · rw [e] at h1 h2
        refine ⟨?_, hr.cref, h2.numWire, h2.last, hr.wog, h2.constOf, h2.total, h2.fine⟩
        simp [h2.wog]
  · obtain ⟨s1, s2, s3, s4⟩ := h.step { x with self := { x.self with cref := mr }, wog := new }
      { y with self := { y.self with cref := mr }, wog := new }
      ⟨rfl, hr.numWire, hr.last, rfl, hr.constOf, hr.total, hr.fine⟩
    have hout : (Obj.inCallee mr new F x).2.self.out =
        (F { x with self := { x.self with cref := mr }, wog := new }).2.self.out := by
      unfold Obj.inCallee
      rcases F { x with self := { x.self with cref := mr }, wog := new } with ⟨a | a, x'⟩ <;> rfl
    rw [hout]
    unfold Sink.inCallee
    rcases e : G { y with self := { y.self with cref := mr }, wog := new } with ⟨b | b, y'⟩ <;> rw [e] at s1 s2 s3 s4
    · exact ⟨s1, s2, fun hr => ⟨fun h => (s3 hr).1 (by cases h; rfl), (s3 hr).2⟩,
        fun hs => ⟨fun h => (s4 hs).1 (by cases h; rfl), (s4 hs).2⟩⟩
    · exact ⟨s1, s2, fun hr => ⟨fun h => (by cases h), (s3 hr).2⟩, fun hs => ⟨fun h => (by cases h), (s4 hs).2⟩⟩

theorem Sim.bindOuts (mc : Circuit) (new : Map GateId Nat) (first : GateId) : ∀ k i,
    Sim pre (Obj.bindOuts mc new first i k) (bindOuts mc new first i k)
  | 0, _ => .pure _
  | k + 1, i => by
    unfold Obj.bindOuts Sink.bindOuts
    cases mc.outputMap i with
    | none => exact .throw _
    | some g =>
      dsimp only
      cases new g with
      | none => exact .throw _
      | some n => exact (Sim.setWire _ _).bind fun _ => Sim.bindOuts mc new first k (i + 1)

theorem Sim.writeGate (w : World) : ∀ fuel g gate, Sim pre (Obj.writeGate w fuel g gate) (writeGate w fuel g gate)
  | 0, _, _ => .throw _
  | fuel + 1, g, gate => by
    have ih := Sim.writeGate w fuel
    have logic : ∀ gate : Gate, Sim pre (Obj.ensureWires w (Obj.writeGate w fuel) gate.operands >>= fun _ => Obj.W.get >>= fun x =>
          Obj.W.lift (wiresOf x.wog gate.operands) >>= fun ws => Obj.updateWire g (some ws) (gateStr gate))
        (Sink.ensureWires w (Sink.writeGate w fuel) gate.operands >>= fun _ => W.get >>= fun x =>
          W.lift (wiresOf x.wog gate.operands) >>= fun ws => Sink.updateWire g (some ws) (gateStr gate)) := by
      intro gate
      refine (Sim.ensureWires ih _).bind fun _ => Sim.get fun u v hr => ?_
      rw [hr.wog]
      exact (Sim.lift _).bind fun _ => Sim.updateWire _ _ _
    unfold Obj.writeGate Sink.writeGate
    cases gate with
    | input => exact Sim.updateWire _ _ _
    | const => exact .pure _
    | not => exact logic _
    | xor => exact logic _
    | and => exact logic _
    | or => exact logic _
    | module nIn nOut ids oi mid =>
      refine (Sim.ensureWires ih _).bind fun _ => (Sim.circuit w).bind fun c => ?_
      cases w.module? c mid with
      | none => exact .throw _
      | some mr =>
        refine (Sim.lift _).bind fun mc => Sim.get fun u v hr => ?_
        rw [hr.wog]
        refine (Sim.lift _).bind fun new => ((Sim.writeAll ih).inCallee mr new).bind fun new => ?_
        split
        · exact .throw _
        · exact Sim.bindOuts _ _ _ _ _

theorem Sim.writeInputs (w : World) (fuel : Nat) : ∀ k i, Sim pre (Obj.writeInputs w fuel i k) (writeInputs w fuel i k)
  | 0, _ => .pure _
  | k + 1, i => by
    refine (Sim.circuit w).bind fun c => ?_
    cases c.inputMap i with
    | none => exact .throw _
    | some g =>
      refine (Sim.circuit w).bind fun c => ?_
      cases c.gateMap g with
      | none => exact .throw _
      | some gate => exact (Sim.writeGate w fuel g gate).bind fun _ => Sim.writeInputs w fuel k (i + 1)

theorem Sim.writeBody (w : World) (fuel numFirst : Nat) : Sim pre (Obj.writeBody w fuel numFirst) (writeBody w fuel numFirst) := by
  refine (Sim.circuit w).bind fun c => (Sim.emit _).bind fun _ => ?_
  dsimp only
  split
  · exact .throw _
  · refine (Sim.emit _).bind fun _ => (Sim.emit _).bind fun _ => (Sim.emit _).bind fun _ =>
      (Sim.writeInputs w fuel _ _).bind fun _ => ?_
    refine Sim.getSet (fun u v h => ?_) (fun _ => rfl) (fun _ => rfl) ?_
    · exact ⟨h.cref, by simp [h.numWire], rfl, h.wog, h.constOf, h.total, h.fine⟩
    · refine (Sim.writeAll (Sim.writeGate w fuel)).bind fun _ => Sim.get fun u v h => ?_
      rw [h.constOf, h.last]
      exact .lift _

end CC.Bristol.Sink
