import Verif.Model.WriterObj
import Verif.Model.ByteReader

/-!
# The writer over an output that may fail

`Model/WriterObj.lean` has the writer over an output that takes everything. Here the output is a `BufWriter` around any
`W: Write`: it may take only part of what it is given and it may fail. `BufWriter` and `Write::write_all` belong to the
standard library; they are modelled from the source of std.
-/

namespace CC.Bristol.Sink
open CC.Bristol.Bytes (BErr)

/-- how the underlying `W: Write` answers a call of `write`: it takes up to `n` bytes, or fails
(`ErrorKind::Interrupted`, after which std tries again, is not an event here) -/
inductive Ans where
  | take (n : Nat)
  | fail
deriving DecidableEq, Repr

/-- the underlying `W: Write`: the bytes it has taken, and how it will answer; when the list is used up it takes everything.
In a run there are finitely many calls, so every behaviour is such a list. -/
structure Dev where
  got : List Nat
  answers : List Ans

/-- `Write::write`; `none` is an error -/
def Dev.write (d : Dev) (buf : List Nat) : Option Nat × Dev :=
  match d.answers with
  | [] => (some buf.length, { d with got := d.got ++ buf })
  | .take n :: as => (some (min n buf.length), { got := d.got ++ buf.take n, answers := as })
  | .fail :: as => (none, { d with answers := as })

/-- The loop of `Write::write_all` and of `BufWriter::flush_buf` (std): write until nothing is left; taking nothing is an
error (`WriteZero`). Returns whether it succeeded, and what was not taken. Every round takes at least one byte, so
`fuel = buf.length` rounds are enough. -/
def pushAll : (fuel : Nat) → List Nat → Dev → Bool × List Nat × Dev
  | _, [], d => (true, [], d)
  | 0, buf, d => (false, buf, d)
  | fuel + 1, buf, d =>
    match d.write buf with
    | (none, d) => (false, buf, d)
    | (some 0, d) => (false, buf, d)
    | (some (n + 1), d) => pushAll fuel (buf.drop (n + 1)) d

/-- `BufWriter<W>` (std) -/
structure Buf where
  cap : Nat
  buf : List Nat
  dev : Dev

/-- `BufWriter::flush_buf` (std): bytes that were taken leave the buffer also when it fails -/
def Buf.flush (b : Buf) : Bool × Buf :=
  let (ok, rest, d) := pushAll b.buf.length b.buf b.dev
  (ok, { b with buf := rest, dev := d })

/-- `BufWriter::write_all` and `write_all_cold` (std) -/
def Buf.writeAll (b : Buf) (bs : List Nat) : Bool × Buf :=
  if bs.length < b.cap - b.buf.length then (true, { b with buf := b.buf ++ bs })
  else
    let (ok, b) := if b.cap - b.buf.length < bs.length then b.flush else (true, b)
    if ok then
      if b.cap ≤ bs.length then
        let (ok, _, d) := pushAll bs.length bs b.dev
        (ok, { b with dev := d })
      else (true, { b with buf := b.buf ++ bs })
    else (false, b)

/-- dropping the `BufWriter` (std): the buffer is flushed, errors are ignored -/
def Buf.drop (b : Buf) : Buf := b.flush.2

/-- `BristolNXAOWriter` — src/bristol_converter.rs:176-181 -/
structure Writer where
  cref : Ref
  numWire : Nat
  lastConstWire : Nat
  writer : Buf

/-- `BristolNXAOWriter::new` — src/bristol_converter.rs:184-191 -/
def Writer.new (r : Ref) (writer : Buf) : Writer := { cref := r, numWire := 0, lastConstWire := 0, writer := writer }

/-- the object, `wire_of_gate` and `const_of_wire` during a call -/
structure Run where
  self : Writer
  wog : Map GateId Nat
  constOf : Map Nat Bool

/-- computations on them; errors (`?` and panics) keep the state -/
def W (α : Type) := Run → Except BErr α × Run

instance : Monad W where
  pure a := fun x => (.ok a, x)
  bind f k := fun x =>
    match f x with
    | (.ok a, x') => k a x'
    | (.error e, x') => (.error e, x')

def W.throw {α : Type} (e : Err) : W α := fun x => (.error (.other e), x)

def W.lift {α : Type} (a : Except Err α) : W α := fun x => (a.mapError .other, x)

def W.get : W Run := fun x => (.ok x, x)

def W.set (x : Run) : W Unit := fun _ => (.ok (), x)

/-- `str::as_bytes` (std): UTF-8 -/
def asBytes (text : List Char) : List Nat := text.flatMap fun c => (String.utf8EncodeChar c).map UInt8.toNat

/-- `self.writer.write_all(text.as_bytes())?` -/
def emit (text : List Char) : W Unit := fun x =>
  let (ok, b) := x.self.writer.writeAll (asBytes text)
  (if ok then .ok () else .error .io, { x with self := { x.self with writer := b } })

/-- `self.c_ref` -/
def circuit (w : World) : W Circuit := fun x => ((w.circuit x.self.cref).mapError .other, x)

/-- `wire_of_gate.insert(g, n)` -/
def setWire (g : GateId) (n : Nat) : W Unit := fun x => (.ok (), { x with wog := x.wog.insert g n })

/-- `update_wire` — src/bristol_converter.rs:531-553 -/
def updateWire (g : GateId) (wires : Option (List Nat)) (str : List Char) : W Unit := do
  let n := (← W.get).self.numWire
  setWire g n
  match wires with
  | some ws => emit (gateLine ws n str)
  | none => pure ()
  let x ← W.get
  W.set { x with self := { x.self with numWire := x.self.numWire + 1 } }

abbrev WriteGate := GateId → Gate → W Unit

/-- src/bristol_converter.rs:273-276 and repeats -/
def ensureWire (w : World) (wg : WriteGate) (id : GateId) : W Unit := do
  match (← W.get).wog id with
  | some _ => pure ()
  | none =>
    match (← circuit w).gateMap id with
    | none => W.throw (.unknownGate id)
    | some gate => wg id gate

def ensureWires (w : World) (wg : WriteGate) : List GateId → W Unit
  | [] => pure ()
  | id :: ids => do
    ensureWire w wg id
    ensureWires w wg ids

/-- the constant loop — src/bristol_converter.rs:253-261; `get_const_gates` is called once -/
def writeConsts (w : World) : List GateId → W Unit
  | [] => pure ()
  | g :: gs => do
    match (← circuit w).gateMap g with
    | none => W.throw (.unknownGate g)
    | some (.const v) => do
      let x ← W.get
      setWire g x.self.lastConstWire
      let x ← W.get
      W.set { x with
        constOf := x.constOf.insert x.self.lastConstWire v
        self := { x.self with lastConstWire := x.self.lastConstWire + 1 } }
      writeConsts w gs
    | some _ => writeConsts w gs

/-- the first output loop — src/bristol_converter.rs:267-347 -/
def writePass1 (w : World) (wg : WriteGate) : (i k : Nat) → W (List (GateId × Gate))
  | _, 0 => pure []
  | i, k + 1 => do
    match (← circuit w).outputMap i with
    | none => W.throw (.unknownOutput i)
    | some g =>
      match (← circuit w).gateMap g with
      | none => W.throw (.unknownGate g)
      | some gate => do
        ensureWires w wg gate.operands
        let rest ← writePass1 w wg (i + 1) k
        pure ((g, gate) :: rest)

/-- the second output loop — src/bristol_converter.rs:349-355 -/
def writePass2 (wg : WriteGate) : List (GateId × Gate) → W Unit
  | [] => pure ()
  | (g, gate) :: rest => do
    match (← W.get).wog g with
    | some _ => writePass2 wg rest
    | none => do
      wg g gate
      writePass2 wg rest

/-- `write_all_gates` — src/bristol_converter.rs:247-357 -/
def writeAll (w : World) (wg : WriteGate) : W Unit := do
  writeConsts w (← circuit w).constGates
  let outs ← writePass1 w wg 0 (← circuit w).outputLen
  writePass2 wg outs

/-- src/bristol_converter.rs:509-512: the object refers to the called circuit while its gates are written, with a map of its
own. If that fails, `?` returns before `self.c_ref = cur_c_ref`. The result is the map of the called circuit. -/
def inCallee (mr : Ref) (new : Map GateId Nat) (body : W Unit) : W (Map GateId Nat) := fun x =>
  match body { x with self := { x.self with cref := mr }, wog := new } with
  | (.ok (), y) => (.ok y.wog, { y with self := { y.self with cref := x.self.cref }, wog := x.wog })
  | (.error e, y) => (.error e, { y with wog := x.wog })

/-- src/bristol_converter.rs:514-519 -/
def bindOuts (mc : Circuit) (new : Map GateId Nat) (first : GateId) : (i k : Nat) → W Unit
  | _, 0 => pure ()
  | i, k + 1 =>
    match mc.outputMap i with
    | none => W.throw (.unknownOutput i)
    | some g =>
      match new g with
      | none => W.throw (.panic .missingKey)
      | some n => do
        setWire (first + i) n
        bindOuts mc new first (i + 1) k

/-- `write_single_gate` — src/bristol_converter.rs:359-529 -/
def writeGate (w : World) : (fuel : Nat) → WriteGate
  | 0, _, _ => W.throw .outOfFuel
  | fuel + 1, g, gate =>
    match gate with
    | .input _ => updateWire g none (gateStr gate)
    | .const _ => pure ()
    | .module _ outLen ids outIndex mid => do
      ensureWires w (writeGate w fuel) ids
      match w.module? (← circuit w) mid with
      | none => W.throw (.unknownModule mid)
      | some mr => do
        let mc ← W.lift (w.circuit mr)
        let new ← W.lift (bindArgs mc (← W.get).wog 0 ids Map.empty)
        let new ← inCallee mr new (writeAll w (writeGate w fuel))
        if g < outIndex then W.throw (.panic .underflow)
        else bindOuts mc new (g - outIndex) 0 outLen
    | _ => do
      ensureWires w (writeGate w fuel) gate.operands
      let ws ← W.lift (wiresOf (← W.get).wog gate.operands)
      updateWire g (some ws) (gateStr gate)

/-- the input loop — src/bristol_converter.rs:224-237 -/
def writeInputs (w : World) (fuel : Nat) : (i k : Nat) → W Unit
  | _, 0 => pure ()
  | i, k + 1 => do
    match (← circuit w).inputMap i with
    | none => W.throw (.unknownInput i)
    | some g =>
      match (← circuit w).gateMap g with
      | none => W.throw (.unknownGate g)
      | some gate => do
        writeGate w fuel g gate
        writeInputs w fuel (i + 1) k

/-- the body of `write` — src/bristol_converter.rs:198-245 -/
def writeBody (w : World) (fuel numFirst : Nat) : W (List Bool) := do
  let c ← circuit w
  emit (dec c.numGate ++ [' '] ++ dec (c.numWire + c.numConst) ++ ['\n'])
  if c.inputLen + c.numConst < numFirst then W.throw (.panic .assertFailed)
  else do
    emit ("2 ".toList ++ dec numFirst ++ [' '] ++ dec (c.inputLen + c.numConst - numFirst) ++ ['\n'])
    emit ("1 ".toList ++ dec c.outputLen ++ ['\n'])
    emit ['\n']
    writeInputs w fuel 0 c.inputLen
    let x ← W.get
    W.set { x with self := { x.self with lastConstWire := c.inputLen, numWire := x.self.numWire + c.numConst } }
    writeAll w (writeGate w fuel)
    let x ← W.get
    W.lift (constVals x.constOf (rangeFromTo c.inputLen x.self.lastConstWire))

/-- `BristolNXAOWriter::write` — src/bristol_converter.rs:193-246: result, the object afterwards, and the caller's map
afterwards (`None` is a new map, which is dropped). -/
def write (w : World) (fuel numFirst : Nat) (wog : Map GateId Nat) (o : Writer) :
    Except BErr (List Bool) × Writer × Map GateId Nat :=
  let (a, x) := writeBody w fuel numFirst { self := o, wog := wog, constOf := Map.empty }
  (a, x.self, x.wog)

end CC.Bristol.Sink
