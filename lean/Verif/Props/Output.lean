import Verif.Proofs.SinkWriter
import Verif.Props.WriterReuse
import Verif.Props.Bytes

/-!
# C60: writing to an output that may fail

The writer writes through a `BufWriter` around any `W: Write`. C19–C22 and C56 speak about an output that takes everything;
here the output may take part of what it is given, and it may fail. `Sink.write w fuel numFirst wog o` is a call of `write` on
object `o`. The object over a perfect output (`Obj.write`, C56) is what it is compared with.
-/

namespace CC.Props
open CC CC.Spec CC.Bristol CC.Spec.Bristol
open CC.Bristol.Bytes (BErr)

/-- the bytes that have arrived -/
def arrived (o : Sink.Writer) : List Nat := o.writer.dev.got

/-- the bytes that wait in the buffer -/
def waiting (o : Sink.Writer) : List Nat := o.writer.buf

/-- the same object over a perfect output to which nothing has been written -/
def perfect (o : Sink.Writer) : Obj.Writer := ⟨o.cref, o.numWire, o.lastConstWire, []⟩

/-- after the object is dropped -/
def dropped (o : Sink.Writer) : List Nat := o.writer.drop.dev.got

theorem sink_rel (wog : Map GateId Nat) {o : Sink.Writer} (hb : o.writer.Fine) :
    Sink.Rel (arrived o ++ waiting o) ⟨perfect o, wog, Map.empty⟩ ⟨o, wog, Map.empty⟩ :=
  ⟨rfl, rfl, rfl, rfl, rfl, by simp [Sink.Buf.total, arrived, waiting, perfect, textBytes], hb⟩

/-- C60: every call, whatever the output does (`Fine`: the buffer is not over its capacity, which stays so): either the result is
that over a perfect output, and so are the fields of the object and the caller's map, and no byte is lost or changed:
what has arrived and what waits in the buffer is what was there before, followed by the text; or the result is an I/O error, and only
an end of the text is lost: what has arrived and waits is what was there before, followed by a prefix of the text. Bytes that have
arrived stay. -/
theorem C60_every (w : World) (fuel numFirst : Nat) (wog : Map GateId Nat) {o : Sink.Writer} (hb : o.writer.Fine) :
    ∃ a o' wog' b p wog'', Sink.write w fuel numFirst wog o = (a, o', wog') ∧
      Obj.write w fuel numFirst wog (perfect o) = (b, p, wog'') ∧ arrived o <+: arrived o' ∧ o'.writer.Fine ∧
      ((a = b.mapError .other ∧ o'.cref = p.cref ∧ o'.numWire = p.numWire ∧ o'.lastConstWire = p.lastConstWire ∧
          wog' = wog'' ∧ arrived o' ++ waiting o' = arrived o ++ waiting o ++ textBytes p.out) ∨
        (a = .error .io ∧ ∃ t, t <+: textBytes p.out ∧ arrived o' ++ waiting o' = arrived o ++ waiting o ++ t)) := by
  have hr := sink_rel wog hb
  have hs := Sink.Sim.writeBody (pre := arrived o ++ waiting o) w fuel numFirst
  have h1 := hs.res _ _ hr
  have h2 := (hs.step _ _ hr).got
  rcases e1 : Sink.writeBody w fuel numFirst ⟨o, wog, Map.empty⟩ with ⟨b, y⟩
  rcases e2 : Obj.writeBody w fuel numFirst ⟨perfect o, wog, Map.empty⟩ with ⟨a, x⟩
  rw [e1] at h2
  rw [e1, e2] at h1
  refine ⟨b, y.self, y.wog, a, x.self, x.wog, by simp only [Sink.write, e1], by simp only [Obj.write, e2], h2, ?_⟩
  clear e1 e2
  match b, h1 with
  | .ok v, ⟨e, r⟩ =>
    simp only at e
    subst e
    exact ⟨r.fine, .inl ⟨rfl, r.cref, r.numWire, r.last, r.wog, r.total⟩⟩
  | .error (.other er), ⟨e, r⟩ =>
    simp only at e
    subst e
    exact ⟨r.fine, .inl ⟨rfl, r.cref, r.numWire, r.last, r.wog, r.total⟩⟩
  | .error .io, ⟨hf, ⟨t, ht⟩, hp⟩ =>
    replace ht : arrived o ++ waiting o ++ t = y.self.writer.total := ht
    rw [← ht] at hp
    exact ⟨hf, .inr ⟨rfl, t, (List.prefix_append_right_inj _).mp hp, ht.symm⟩⟩

/-- C60: so whatever the output does, and whether or not the call succeeds, what has arrived when the object is dropped is what was
there before, followed by a prefix of the text, or is itself a prefix of that. No byte is out of place. -/
theorem C60_truncated (w : World) (fuel numFirst : Nat) (wog : Map GateId Nat) {o : Sink.Writer} (hb : o.writer.Fine) :
    ∃ a o' wog' b p wog'', Sink.write w fuel numFirst wog o = (a, o', wog') ∧
      Obj.write w fuel numFirst wog (perfect o) = (b, p, wog'') ∧ arrived o <+: dropped o' ∧
      dropped o' <+: arrived o ++ waiting o ++ textBytes p.out := by
  obtain ⟨a, o', wog', b, p, wog'', h1, h2, h3, _, h4⟩ := C60_every w fuel numFirst wog hb
  have hle : arrived o' ++ waiting o' <+: arrived o ++ waiting o ++ textBytes p.out := by
    rcases h4 with ⟨_, _, _, _, _, h⟩ | ⟨_, t, ht, h⟩
    · rw [h]; exact List.prefix_refl _
    · rw [h]; exact (List.prefix_append_right_inj _).mpr ht
  refine ⟨a, o', wog', b, p, wog'', h1, h2, h3.trans (Sink.pushAll_got _ _ _), ?_⟩
  obtain ⟨f1, _⟩ := Sink.flush_spec o'.writer
  have f1 : dropped o' ++ o'.writer.flush.2.buf = arrived o' ++ waiting o' := f1
  exact (List.prefix_append _ _).trans (f1 ▸ hle)

/-- C60: over an output that never fails and always takes at least one byte there is no I/O error, whatever the capacity of the
buffer and however the output cuts what it is given; and when the object is dropped, all bytes have arrived. -/
theorem C60_reliable (w : World) (fuel numFirst : Nat) (wog : Map GateId Nat) {o : Sink.Writer} (hb : o.writer.Fine)
    (hrel : ∀ a ∈ o.writer.dev.answers, ∃ n, a = .take (n + 1)) :
    ∃ a o' wog' p, Sink.write w fuel numFirst wog o = (a.mapError .other, o', wog') ∧
      Obj.write w fuel numFirst wog (perfect o) = (a, p, wog') ∧
      dropped o' = arrived o ++ waiting o ++ textBytes p.out := by
  obtain ⟨a, o', wog', b, p, wog'', h1, h2, _, _, h3⟩ := C60_every w fuel numFirst wog hb
  have hs := (Sink.Sim.writeBody (pre := arrived o ++ waiting o) w fuel numFirst).step _ _ (sink_rel wog hb)
  obtain ⟨r1, r2⟩ := hs.reliable hrel
  have e1 : (Sink.writeBody w fuel numFirst ⟨o, wog, Map.empty⟩).1 = a := congrArg Prod.fst h1
  have e2 : (Sink.writeBody w fuel numFirst ⟨o, wog, Map.empty⟩).2.self = o' := congrArg (·.2.1) h1
  rw [e1] at r1
  rw [e2] at r2
  rcases h3 with ⟨h3, _, _, _, h4, h5⟩ | ⟨h3, _⟩
  · subst h3 h4
    refine ⟨b, o', wog', p, h1, h2, ?_⟩
    obtain ⟨f1, f2, _⟩ := Sink.flush_spec o'.writer
    have f2 := f2 (Sink.flush_reliable _ r2).1
    unfold Sink.Buf.total at f1
    rw [f2, List.append_nil] at f1
    exact f1.trans h5
  · exact absurd h3 r1

/-- C60: a text that is shorter than the room in the buffer is written without using the output: the result does not depend on
the output, and the output is as before. -/
theorem C60_small (w : World) (fuel numFirst : Nat) (wog : Map GateId Nat) {o : Sink.Writer} (hb : o.writer.Fine)
    {a : Except Err (List Bool)} {p : Obj.Writer} {wog' : Map GateId Nat}
    (h : Obj.write w fuel numFirst wog (perfect o) = (a, p, wog'))
    (hs : (waiting o).length + (textBytes p.out).length < o.writer.cap) :
    ∃ o', Sink.write w fuel numFirst wog o = (a.mapError .other, o', wog') ∧ o'.writer.dev = o.writer.dev ∧
      waiting o' = waiting o ++ textBytes p.out := by
  obtain ⟨a', o', wog1, b, p', wog2, h1, h2, _, _, h3⟩ := C60_every w fuel numFirst wog hb
  rw [h] at h2
  cases h2
  have hst := (Sink.Sim.writeBody (pre := arrived o ++ waiting o) w fuel numFirst).step _ _ (sink_rel wog hb)
  have e3 : (Obj.writeBody w fuel numFirst ⟨perfect o, wog, Map.empty⟩).2.self = p := congrArg (·.2.1) h
  obtain ⟨r1, r2⟩ := hst.small (by
    rw [e3, List.length_append]
    show _ < (arrived o).length + o.writer.cap
    omega)
  have e1 : (Sink.writeBody w fuel numFirst ⟨o, wog, Map.empty⟩).1 = a' := congrArg Prod.fst h1
  have e2 : (Sink.writeBody w fuel numFirst ⟨o, wog, Map.empty⟩).2.self = o' := congrArg (·.2.1) h1
  rw [e1] at r1
  rw [e2] at r2
  rcases h3 with ⟨rfl, _, _, _, rfl, h5⟩ | ⟨h3, _⟩
  · refine ⟨o', h1, r2, ?_⟩
    have : arrived o' = arrived o := congrArg Sink.Dev.got r2
    rw [this, List.append_assoc] at h5
    exact List.append_cancel_left h5
  · exact absurd h3 r1

/-- C60: a circuit of a valid program, written by a new writer to a reliable output and dropped: the bytes that arrive are read
as the text of C19 (`fileOf`) is, by every reader on every heap. -/
theorem C60_file {w : World} (h : ValidRun w) {r : Ref} {c : Circuit} (hc : w.circs[r]? = some c) {numFirst : Nat}
    (hn : numFirst ≤ c.inputLen + c.numConst) (b : Sink.Buf) (h0 : b.buf = []) (h1 : b.dev.got = [])
    (hrel : ∀ a ∈ b.dev.answers, ∃ n, a = .take (n + 1)) :
    ∃ res ls, Wrote w r c numFirst res ls ∧ ∃ F, ∀ fuel ≥ F, ∃ o' wog,
      Sink.write w fuel numFirst Map.empty (Sink.Writer.new r b) = (.ok res.consts, o', wog) ∧
      dropped o' = textBytes (fileOf c numFirst ls).text ∧
      ∀ r' gow v, Bytes.read r' gow ((dropped o').map some) v =
        ((Bristol.read r' gow (fileOf c numFirst ls).text v).1.mapError .other,
          (Bristol.read r' gow (fileOf c numFirst ls).text v).2) := by
  obtain ⟨res, ls, hw, _⟩ := wrote_file h.wf (h.allBuilt r c hc) hc hn
  obtain ⟨F, hF⟩ := hw.1
  refine ⟨res, ls, hw, F, fun fuel hfu => ?_⟩
  have hb : (Sink.Writer.new r b).writer.Fine := by simp [Sink.Writer.new, Sink.Buf.Fine, h0]
  obtain ⟨a, o', wog', p, e1, e2, e3⟩ := C60_reliable w fuel numFirst Map.empty hb hrel
  have e := (C56_object (o := perfect (Sink.Writer.new r b)) hc fuel numFirst Map.empty).2.1 res (hF fuel hfu)
  rw [e2] at e
  cases e
  have e4 : dropped o' = textBytes (fileOf c numFirst ls).text := by
    rw [e3, ← hw.2]
    simp [arrived, waiting, Sink.Writer.new, h0, h1]
  refine ⟨o', _, e1, e4, fun r' gow v => ?_⟩
  rw [e4]
  exact C59_text r' gow _ v

/-- C60, the part that holds: if `write` succeeds and the flush when the object is dropped does too, everything has arrived. -/
theorem C60_success_partial {w : World} {fuel numFirst : Nat} {wog wog' : Map GateId Nat} {o o' : Sink.Writer} (hb : o.writer.Fine)
    {vs : List Bool} (h : Sink.write w fuel numFirst wog o = (.ok vs, o', wog')) (hf : o'.writer.flush.1 = true) :
    ∃ p, Obj.write w fuel numFirst wog (perfect o) = (.ok vs, p, wog') ∧
      dropped o' = arrived o ++ waiting o ++ textBytes p.out := by
  obtain ⟨a, o1, wog1, b, p, wog2, h1, h2, _, _, h3⟩ := C60_every w fuel numFirst wog hb
  rw [h] at h1
  cases h1
  rcases h3 with ⟨h3, _, _, _, h4, h5⟩ | ⟨h3, _⟩
  · cases b with
    | error e => cases h3
    | ok v =>
      cases h3
      subst h4
      refine ⟨p, h2, ?_⟩
      obtain ⟨f1, f2, _⟩ := Sink.flush_spec o'.writer
      unfold Sink.Buf.total at f1
      rw [f2 hf, List.append_nil] at f1
      exact f1.trans h5
  · cases h3

/-- a new `BufWriter` (capacity 8192) around an output that answers as given -/
def output (answers : List Sink.Ans) : Sink.Buf := ⟨8192, [], ⟨[], answers⟩⟩

/-- C60, generally: every text that fits in the buffer is written with the result `Ok` to an output that fails, and lost. -/
theorem C60_lost {w : World} {r : Ref} {fuel numFirst : Nat} {vs : List Bool} {p : Obj.Writer} {wog : Map GateId Nat}
    (h : Obj.write w fuel numFirst Map.empty (Obj.Writer.new r) = (.ok vs, p, wog)) (hs : (textBytes p.out).length < 8192)
    (answers : List Sink.Ans) : ∃ o', Sink.write w fuel numFirst Map.empty (Sink.Writer.new r (output (.fail :: answers))) = (.ok vs, o', wog) ∧
      dropped o' = [] := by
  obtain ⟨o', h1, h2, h3⟩ := C60_small w fuel numFirst Map.empty (o := Sink.Writer.new r (output (.fail :: answers)))
    (by simp [Sink.Writer.new, output, Sink.Buf.Fine]) h (by simpa [Sink.Writer.new, output, waiting] using hs)
  refine ⟨o', h1, ?_⟩
  have e := congrArg Sink.Dev.answers h2
  have eg := congrArg Sink.Dev.got h2
  unfold dropped Sink.Buf.drop Sink.Buf.flush
  generalize o'.writer.buf = q
  cases q with
  | nil => exact eg
  | cons x xs =>
    replace e : o'.writer.dev.answers = .fail :: answers := e
    simp only [List.length_cons, Sink.pushAll, Sink.Dev.write, e]
    exact eg

local instance : DecidableEq (Except Err (List Bool))
  | .ok a, .ok b => decidable_of_iff (a = b) ⟨congrArg _, Except.ok.inj⟩
  | .error a, .error b => decidable_of_iff (a = b) ⟨congrArg _, Except.error.inj⟩
  | .ok _, .error _ => isFalse nofun
  | .error _, .ok _ => isFalse nofun

/-- C60 is false of the code: `write` succeeds and nothing arrives, ever. The text is in the buffer when `write` returns; nothing
flushes it but the drop, which ignores errors. -/
theorem C60_full_false : ∃ o' wog, Sink.write (run nested) 9 1 Map.empty (Sink.Writer.new 0 (output [.fail])) = (.ok [true], o', wog) ∧
    dropped o' = [] := by
  obtain ⟨o', h1, h2⟩ := C60_lost (vs := [true])
    (split_run (p := Obj.write (run nested) 9 1 Map.empty (.new 0)) (by decide +kernel)) (by decide +kernel) []
  exact ⟨o', _, h1, h2⟩

/-! ### examples -/

/-- taken in pieces of one byte from a buffer of five: everything arrives -/
example : dropped (Sink.write (run nested) 9 1 Map.empty
    (Sink.Writer.new 0 ⟨5, [], ⟨[], List.replicate 30 (.take 1)⟩⟩)).2.1 = textBytes nestedText := by decide +kernel

/-- an output that fails after two bytes: an I/O error, and two bytes have arrived -/
example : ∃ o' wog, Sink.write (run nested) 9 1 Map.empty (Sink.Writer.new 0 ⟨5, [], ⟨[], [.take 2, .fail]⟩⟩) = (.error .io, o', wog) ∧
    arrived o' = (textBytes nestedText).take 2 := ⟨_, _, rfl, by decide +kernel⟩

/-- an output that fails once, after two bytes, with a buffer of eight: the rest of the first line is not lost, and arrives when
the object is dropped -/
example : ∃ o' wog, Sink.write (run nested) 9 1 Map.empty (Sink.Writer.new 0 ⟨8, [], ⟨[], [.take 2, .fail]⟩⟩) = (.error .io, o', wog) ∧
    (arrived o').length = 2 ∧ dropped o' = textBytes (nestedText.takeWhile (· ≠ '\n') ++ ['\n']) :=
  ⟨_, _, rfl, by decide +kernel, by decide +kernel⟩

end CC.Props
