import Verif.Model.Circuit

/-!
# Spec: histories of API calls

`Op` is one call of the circuit API with arbitrary arguments. `Run w evs` says that `w` is the heap after the
calls recorded in `evs`, each with the heap before the call and the result the caller saw.
-/

namespace CC.Spec

/-- one API call; gate ids, module ids and refs are arbitrary numbers -/
inductive Op where
  | newStorage
  | newCircuit (s : StoreRef)
  | input (r : Ref)
  | output (r : Ref) (g : GateId)
  | constant (r : Ref) (v : Bool)
  | not (r : Ref) (x : GateId)
  | xor (r : Ref) (a b : GateId)
  | and (r : Ref) (a b : GateId)
  | or (r : Ref) (a b : GateId)
  | equivalent (r : Ref) (a b : GateId)
  | identity (r : Ref) (x : GateId)
  | registerModule (r m : Ref)
  | storeModule (s : StoreRef) (m : Ref)
  | subCircuit (r : Ref)
  | clone (r : Ref)
  | module (r : Ref) (mid : ModuleId) (ids : List GateId)

/-- what a call returns -/
inductive Ret where
  | storage (s : StoreRef)
  | circuit (r : Ref)
  | gate (g : GateId)
  | wire (i : WireId)
  | mid (m : ModuleId)
  | sub (m : ModuleId) (r : Ref)
  | gates (gs : List GateId)

/-- making the call -/
def Op.call : Op → M Ret
  | .newStorage => do return .storage (← CC.newStorage)
  | .newCircuit s => do return .circuit (← CC.newCircuit s)
  | .input r => do return .gate (← CC.input r)
  | .output r g => do return .wire (← CC.output r g)
  | .constant r v => do return .gate (← CC.constant r v)
  | .not r x => do return .gate (← CC.not r x)
  | .xor r a b => do return .gate (← CC.xor r a b)
  | .and r a b => do return .gate (← CC.and r a b)
  | .or r a b => do return .gate (← CC.or r a b)
  | .equivalent r a b => do return .gate (← CC.equivalent r a b)
  | .identity r x => do return .gate (← CC.identity r x)
  | .registerModule r m => do return .mid (← CC.registerModule r m)
  | .storeModule s m => do return .mid (← CC.storeModule s m)
  | .subCircuit r => do let (m, s) ← CC.subCircuit r; return .sub m s
  | .clone r => do return .circuit (← CC.cloneCircuit r)
  | .module r mid ids => do return .gates (← CC.module r mid ids)

/-- the circuit a call is made on, if it is a call that may change an existing circuit -/
def Op.target : Op → Option Ref
  | .newStorage => none
  | .newCircuit _ => none
  | .storeModule _ _ => none
  | .clone _ => none
  | .input r | .output r _ | .constant r _ | .not r _ | .xor r _ _ | .and r _ _ | .or r _ _
  | .equivalent r _ _ | .identity r _ | .registerModule r _ | .subCircuit r | .module r _ _ => some r

/-- a call with the heap it was made in and its result -/
structure Ev where
  op : Op
  pre : World
  res : Except Err Ret

/-- all histories of calls from the empty heap -/
inductive Run : World → List Ev → Prop where
  | nil : Run World.empty []
  | step {w evs} (op : Op) : Run w evs → Run (op.call w).2 (evs ++ [⟨op, w, (op.call w).1⟩])

/-- a heap some history leads to -/
def Reachable (w : World) : Prop := ∃ evs, Run w evs

/-- zero or more further calls -/
inductive Later : World → World → Prop where
  | refl (w) : Later w w
  | step {w w'} (op : Op) : Later w w' → Later w (op.call w').2

/-- run a list of calls and record the history -/
def play : List Op → World × List Ev → World × List Ev
  | [], x => x
  | op :: ops, (w, evs) => play ops ((op.call w).2, evs ++ [⟨op, w, (op.call w).1⟩])

theorem play_run (ops : List Op) : ∀ {w evs}, Run w evs → Run (play ops (w, evs)).1 (play ops (w, evs)).2 := by
  induction ops with
  | nil => intro w evs h; exact h
  | cons op ops ih => intro w evs h; exact ih (Run.step op h)

/-! ### What a history says about one circuit

All of these look only at calls and their results (and, for module calls, at the counters of the called circuit
at the time of the call). -/

/-- the successful and failed calls circuit `r` went through; a clone starts with those of its original. The history is given
with the last call first. -/
def traceRev : List Ev → Ref → List Ev
  | [], _ => []
  | e :: past, r =>
    match e.op, e.res with
    | .clone r', .ok (.circuit n) => if n = r then traceRev past r' else traceRev past r
    | _, _ => if e.op.target = some r then traceRev past r ++ [e] else traceRev past r

/-- the calls circuit `r` went through -/
def trace (r : Ref) (evs : List Ev) : List Ev := traceRev evs.reverse r

/-- gate ids a call returned -/
def Ev.returned (e : Ev) : List GateId :=
  match e.op, e.res with
  | .input _, .ok (.gate g) => [g]
  | .constant _ _, .ok (.gate g) => [g]
  | .not _ _, .ok (.gate g) => [g]
  | .xor _ _ _, .ok (.gate g) => [g]
  | .and _ _ _, .ok (.gate g) => [g]
  | .or _ _ _, .ok (.gate g) => [g]
  | .equivalent _ _ _, .ok (.gate g) => [g]
  | .identity _ _, .ok (.gate g) => [g]
  | .module _ _ _, .ok (.gates gs) => gs
  | _, _ => []

/-- inner gates: `equivalent` and `identity` first create the gate whose id precedes the returned one -/
def Ev.inner (e : Ev) : List GateId :=
  match e.op, e.res with
  | .equivalent _ _ _, .ok (.gate g) => [g - 1]
  | .identity _ _, .ok (.gate g) => [g - 1]
  | _, _ => []

/-- all ids a call created -/
def Ev.created (e : Ev) : List GateId := e.inner ++ e.returned

/-- the gate of a successful `input` call -/
def Ev.inputs (e : Ev) : List GateId :=
  match e.op, e.res with
  | .input _, .ok (.gate g) => [g]
  | _, _ => []

/-- the gate of a successful `output` call -/
def Ev.outputs (e : Ev) : List GateId :=
  match e.op, e.res with
  | .output _ g, .ok _ => [g]
  | _, _ => []

/-- the id and value of a `constant` call -/
def Ev.consts (e : Ev) : List (GateId × Bool) :=
  match e.op, e.res with
  | .constant _ v, .ok (.gate g) => [(g, v)]
  | _, _ => []

/-- the circuit a module id means for circuit `r` in heap `w` -/
def callee (w : World) (r : Ref) (mid : ModuleId) : Option Circuit :=
  match w.circs[r]? with
  | none => none
  | some c =>
    match w.module? c mid with
    | none => none
    | some m => w.circs[m]?

/-- a number read off the called circuit at the time of a successful module call -/
def Ev.ofCallee (f : Circuit → Nat) (e : Ev) : Nat :=
  match e.op, e.res with
  | .module r mid _, .ok _ =>
    match callee e.pre r mid with
    | none => 0
    | some m => f m
  | _, _ => 0

/-- NOT/XOR/AND/OR gates directly created -/
def Ev.logicGates (e : Ev) : Nat :=
  match e.op, e.res with
  | .not _ _, .ok _ | .xor _ _ _, .ok _ | .and _ _ _, .ok _ | .or _ _ _, .ok _ => 1
  | .equivalent _ _ _, .ok _ | .identity _ _, .ok _ => 2
  | _, _ => 0

/-- the circuit registered in storage `s` by a call -/
def Ev.registered (s : StoreRef) (e : Ev) : List Ref :=
  match e.op, e.res with
  | .registerModule r m, .ok _ => if (e.pre.circs[r]?).map Circuit.storage = some s then [m] else []
  | .storeModule s' m, .ok _ => if s' = s then [m] else []
  | .subCircuit r, .ok (.sub _ n) => if (e.pre.circs[r]?).map Circuit.storage = some s then [n] else []
  | _, _ => []

/-- sum over a history -/
def total (f : Ev → Nat) (evs : List Ev) : Nat := (evs.map f).sum

end CC.Spec
