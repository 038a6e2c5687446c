import Verif.Model.Basic

/-!
# `src/bool_circuit.rs`: circuits, module storages and the circuit API
-/

namespace CC

/-- `struct NXAOBoolCircuit` — src/bool_circuit.rs:404-420.
Simplification: `input_map: HashMap<WireId, Option<GateId>>` is a map to `GateId`: the only code that writes
it, `input` (bool_circuit.rs:494), stores `Some(..)`; the code that stored `None` is commented out. -/
structure Circuit where
  inputMap : Map WireId GateId
  outputMap : Map WireId GateId
  gateMap : Map GateId Gate
  storage : StoreRef
  depMap : Map GateId (List GateId)
  constGates : List GateId
  inputLen : Nat
  outputLen : Nat
  numWire : Nat
  numGate : Nat
  numConst : Nat
  gateIndex : Nat

namespace Circuit

/-- `NXAOBoolCircuit::new` — src/bool_circuit.rs:665-680. -/
def new (s : StoreRef) : Circuit where
  inputMap := Map.empty
  outputMap := Map.empty
  gateMap := Map.empty
  storage := s
  depMap := Map.empty
  constGates := []
  inputLen := 0
  outputLen := 0
  numWire := 0
  numGate := 0
  numConst := 0
  gateIndex := 0

/-- `add_gate` — src/bool_circuit.rs:682-688. Returns the new id and the new circuit. -/
def addGate (c : Circuit) (g : Gate) : GateId × Circuit :=
  (c.gateIndex,
    { c with
      gateMap := c.gateMap.insert c.gateIndex g
      gateIndex := c.gateIndex + 1
      numWire := c.numWire + 1 })

/-- `add_dependence` — src/bool_circuit.rs:690-706. The `ok_or(UnknownDependence)` inside the `else`
branch cannot fail because the key was just found. -/
def addDependence (c : Circuit) (inputId selfId : GateId) : Circuit :=
  match c.depMap inputId with
  | none => { c with depMap := c.depMap.insert inputId [selfId] }
  | some ids => { c with depMap := c.depMap.insert inputId (ids ++ [selfId]) }

/-- `get_depended_gates` — src/bool_circuit.rs:475-481. -/
def dependedGates (c : Circuit) (g : GateId) : List GateId :=
  match c.depMap g with
  | none => []
  | some ids => ids

/-- `input` — src/bool_circuit.rs:487-496. -/
def input (c : Circuit) : GateId × Circuit :=
  let newWire := c.inputLen
  let c1 := { c with inputLen := c.inputLen + 1 }
  let (g, c2) := c1.addGate (.input newWire)
  (g, { c2 with inputMap := c2.inputMap.insert newWire g })

/-- `output` — src/bool_circuit.rs:498-506. -/
def output (c : Circuit) (g : GateId) : Except Err WireId × Circuit :=
  match c.gateMap g with
  | none => (.error (.unknownGate g), c)
  | some _ =>
    (.ok c.outputLen,
      { c with outputMap := c.outputMap.insert c.outputLen g, outputLen := c.outputLen + 1 })

/-- `constant` — src/bool_circuit.rs:508-514. -/
def constant (c : Circuit) (v : Bool) : GateId × Circuit :=
  let (g, c1) := c.addGate (.const v)
  (g, { c1 with constGates := c1.constGates ++ [g], numConst := c1.numConst + 1 })

/-- `not` — src/bool_circuit.rs:516-522. The operand id is not checked. -/
def not (c : Circuit) (x : GateId) : GateId × Circuit :=
  let (g, c1) := c.addGate (.not x)
  let c2 := c1.addDependence x g
  (g, { c2 with numGate := c2.numGate + 1 })

/-- `xor` — src/bool_circuit.rs:524-534. -/
def xor (c : Circuit) (l r : GateId) : GateId × Circuit :=
  let (g, c1) := c.addGate (.xor l r)
  let c2 := c1.addDependence l g
  let c3 := c2.addDependence r g
  (g, { c3 with numGate := c3.numGate + 1 })

/-- `and` — src/bool_circuit.rs:536-546. -/
def and (c : Circuit) (l r : GateId) : GateId × Circuit :=
  let (g, c1) := c.addGate (.and l r)
  let c2 := c1.addDependence l g
  let c3 := c2.addDependence r g
  (g, { c3 with numGate := c3.numGate + 1 })

/-- `or` — src/bool_circuit.rs:548-558. -/
def or (c : Circuit) (l r : GateId) : GateId × Circuit :=
  let (g, c1) := c.addGate (.or l r)
  let c2 := c1.addDependence l g
  let c3 := c2.addDependence r g
  (g, { c3 with numGate := c3.numGate + 1 })

/-- The `map` over `0..output_len` inside `module` — src/bool_circuit.rs:599-611: adds the module gates
with `out_index = i, i+1, …`; `k` of them. -/
def addModuleGates (c : Circuit) (inLen outLen : Nat) (ids : List GateId) (mid : ModuleId) :
    (i k : Nat) → List GateId × Circuit
  | _, 0 => ([], c)
  | i, k + 1 =>
    let (g, c1) := c.addGate (.module inLen outLen ids i mid)
    let (gs, c2) := addModuleGates c1 inLen outLen ids mid (i + 1) k
    (g :: gs, c2)

/-- The two nested loops at the end of `module` — src/bool_circuit.rs:612-616. -/
def addModuleDeps (c : Circuit) (ids outs : List GateId) : Circuit :=
  ids.foldl (fun c x => outs.foldl (fun c o => c.addDependence x o) c) c

/-- The part of `module` after the callee `m` has been looked up — src/bool_circuit.rs:591-617.
`num_wire - input_len - output_len` (line 596) is a panic on underflow. -/
def module (c : Circuit) (m : Circuit) (mid : ModuleId) (ids : List GateId) :
    Except Err (List GateId) × Circuit :=
  if m.numWire < m.inputLen then (.error (.panic .underflow), c)
  else if m.numWire - m.inputLen < m.outputLen then (.error (.panic .underflow), c)
  else
    let c1 := { c with
      numWire := c.numWire + (m.numWire - m.inputLen - m.outputLen)
      numGate := c.numGate + m.numGate
      numConst := c.numConst + m.numConst }
    let (outs, c2) := c1.addModuleGates m.inputLen m.outputLen ids mid 0 m.outputLen
    (.ok outs, c2.addModuleDeps ids outs)

end Circuit

/-- `struct ModuleStorage` — src/bool_circuit.rs:361-367. The field `fix_input_map` is never written or
read by live code and is omitted. -/
structure Storage where
  moduleMap : Map ModuleId Ref
  numModule : Nat

namespace Storage

/-- `ModuleStorage::new` — src/bool_circuit.rs:370-380. -/
def new : Storage := { moduleMap := Map.empty, numModule := 0 }

/-- `ModuleStorage::register_module` — src/bool_circuit.rs:392-397. -/
def register (s : Storage) (m : Ref) : ModuleId × Storage :=
  (s.numModule, { moduleMap := s.moduleMap.insert s.numModule m, numModule := s.numModule + 1 })

end Storage

/-- The heap: every `Rc<RefCell<NXAOBoolCircuit>>` and every `Rc<RefCell<ModuleStorage>>` allocated so far. -/
structure World where
  circs : List Circuit
  stores : List Storage

namespace World

/-- the heap before any call -/
def empty : World := { circs := [], stores := [] }

/-- `RefCell` write access to one circuit -/
def setC (w : World) (r : Ref) (c : Circuit) : World := { w with circs := w.circs.set r c }

/-- `get_module` on a circuit (src/bool_circuit.rs:468-473, 341-346, 382-390), as a partial function. -/
def module? (w : World) (c : Circuit) (mid : ModuleId) : Option Ref :=
  match w.stores[c.storage]? with
  | none => none
  | some s => s.moduleMap mid

end World

/-- An API call: it may fail, and it may change the heap also when it fails. -/
def M (α : Type) := World → Except Err α × World

namespace M

instance : Monad M where
  pure a := fun w => (.ok a, w)
  bind x f := fun w =>
    match x w with
    | (.ok a, w') => f a w'
    | (.error e, w') => (.error e, w')

theorem pure_apply {α} (a : α) (w : World) : (pure a : M α) w = (.ok a, w) := rfl

theorem bind_apply {α β} (x : M α) (f : α → M β) (w : World) :
    (x >>= f) w = match x w with
      | (.ok a, w') => f a w'
      | (.error e, w') => (.error e, w') := rfl

/-- return `Err(e)` / panic -/
def throw {α} (e : Err) : M α := fun w => (.error e, w)

/-- `.expect(msg)`: an `Err` becomes a panic -/
def expect {α} (x : M α) : M α := fun w =>
  match x w with
  | (.ok a, w') => (.ok a, w')
  | (.error (.panic p), w') => (.error (.panic p), w')
  | (.error .dangling, w') => (.error .dangling, w')
  | (.error _, w') => (.error (.panic .expectFailed), w')

/-- read access to the heap (`RefCell::borrow`) -/
def read {α} (f : World → Except Err α) : M α := fun w => (f w, w)

/-- run a method of `NXAOBoolCircuit` on the circuit behind `r` (`self.borrow_mut().…`,
src/bool_circuit.rs:138-204) -/
def onCircuit {α} (r : Ref) (f : Circuit → Except Err α × Circuit) : M α := fun w =>
  match w.circs[r]? with
  | none => (.error .dangling, w)
  | some c => ((f c).1, w.setC r (f c).2)

/-- `for _ in 0..n { v.push(x?) }` -/
def replicate {α} (x : M α) : Nat → M (List α)
  | 0 => pure []
  | n + 1 => do
    let a ← x
    let as ← replicate x n
    pure (a :: as)

/-- `for x in l { v.push(f(x)?) }` -/
def mapList {α β} (f : α → M β) : List α → M (List β)
  | [] => pure []
  | x :: xs => do
    let y ← f x
    let ys ← mapList f xs
    pure (y :: ys)

/-- `for x in l { s = f(s, x)? }` -/
def foldList {σ α} (f : σ → α → M σ) : σ → List α → M σ
  | s, [] => pure s
  | s, x :: xs => do
    let s' ← f s x
    foldList f s' xs

/-- `v[i]` -/
def idx {α} (l : List α) (i : Nat) : M α :=
  match l[i]? with
  | some a => pure a
  | none => throw (.panic .indexOutOfBounds)

end M

/-- `start..stop` -/
def rangeFromTo (start stop : Nat) : List Nat := (List.range (stop - start)).map (start + ·)

/-! ### The circuit API through `BoolCircuitRef` — src/bool_circuit.rs:76-204 -/

/-- `ModuleStorageRef::new()` — src/bool_circuit.rs:325-327. -/
def newStorage : M StoreRef := fun w =>
  (.ok w.stores.length, { w with stores := w.stores ++ [Storage.new] })

/-- `NXAOBoolCircuit::new(storage).to_ref()` — src/bool_circuit.rs:665-680, 423-425, 77-80. -/
def newCircuit (s : StoreRef) : M Ref := fun w =>
  match w.stores[s]? with
  | none => (.error .dangling, w)
  | some _ => (.ok w.circs.length, { w with circs := w.circs ++ [Circuit.new s] })

/-- `input` — src/bool_circuit.rs:138-140, 487-496. -/
def input (r : Ref) : M GateId := M.onCircuit r fun c => (.ok c.input.1, c.input.2)

/-- `output` — src/bool_circuit.rs:142-144, 498-506. -/
def output (r : Ref) (g : GateId) : M WireId := M.onCircuit r fun c => c.output g

/-- `constant` — src/bool_circuit.rs:146-148, 508-514. -/
def constant (r : Ref) (v : Bool) : M GateId :=
  M.onCircuit r fun c => (.ok (c.constant v).1, (c.constant v).2)

/-- `not` — src/bool_circuit.rs:150-152, 516-522. -/
def not (r : Ref) (x : GateId) : M GateId :=
  M.onCircuit r fun c => (.ok (c.not x).1, (c.not x).2)

/-- `xor` — src/bool_circuit.rs:154-160, 524-534. -/
def xor (r : Ref) (a b : GateId) : M GateId :=
  M.onCircuit r fun c => (.ok (c.xor a b).1, (c.xor a b).2)

/-- `and` — src/bool_circuit.rs:162-168, 536-546. -/
def and (r : Ref) (a b : GateId) : M GateId :=
  M.onCircuit r fun c => (.ok (c.and a b).1, (c.and a b).2)

/-- `or` — src/bool_circuit.rs:170-176, 548-558. -/
def or (r : Ref) (a b : GateId) : M GateId :=
  M.onCircuit r fun c => (.ok (c.or a b).1, (c.or a b).2)

/-- `equivalent` — src/bool_circuit.rs:178-184, 560-567. -/
def equivalent (r : Ref) (a b : GateId) : M GateId := do
  let x ← xor r a b
  not r x

/-- `identity` — src/bool_circuit.rs:186-188, 569-572. -/
def identity (r : Ref) (x : GateId) : M GateId := do
  let n1 ← not r x
  not r n1

/-- `register_module` — src/bool_circuit.rs:190-192, 574-576, 348-350, 392-397.
`module_circuit` is an existing `BoolCircuitRef`; only its reference is stored. -/
def registerModule (r : Ref) (m : Ref) : M ModuleId := fun w =>
  match w.circs[r]? with
  | none => (.error .dangling, w)
  | some c =>
    match w.circs[m]? with
    | none => (.error .dangling, w)
    | some _ =>
      match w.stores[c.storage]? with
      | none => (.error .dangling, w)
      | some s => (.ok (s.register m).1, { w with stores := w.stores.set c.storage (s.register m).2 })

/-- `ModuleStorageRef::register_module`, called on the storage itself — src/bool_circuit.rs:348-350, 392-397. -/
def storeModule (s : StoreRef) (m : Ref) : M ModuleId := fun w =>
  match w.circs[m]? with
  | none => (.error .dangling, w)
  | some _ =>
    match w.stores[s]? with
    | none => (.error .dangling, w)
    | some st => (.ok (st.register m).1, { w with stores := w.stores.set s (st.register m).2 })

/-- `r.borrow().clone().to_ref()`: derived `Clone` (src/bool_circuit.rs:403) copies all maps and counters and shares the
module storage (`Rc::clone`, bool_circuit.rs:321-331). -/
def cloneCircuit (r : Ref) : M Ref := fun w =>
  match w.circs[r]? with
  | none => (.error .dangling, w)
  | some c => (.ok w.circs.length, { w with circs := w.circs ++ [c] })

/-- `sub_circuit` — src/bool_circuit.rs:194-196, 578-583. -/
def subCircuit (r : Ref) : M (ModuleId × Ref) := fun w =>
  match w.circs[r]? with
  | none => (.error .dangling, w)
  | some c =>
    (do
      let n ← newCircuit c.storage
      let mid ← registerModule r n
      pure (mid, n)) w

/-- `module` — src/bool_circuit.rs:198-204, 585-618. `self` is mutably borrowed while the callee is
borrowed (line 591), so a circuit that calls itself panics. -/
def module (r : Ref) (mid : ModuleId) (ids : List GateId) : M (List GateId) := fun w =>
  match w.circs[r]? with
  | none => (.error .dangling, w)
  | some c =>
    match w.module? c mid with
    | none => (.error (.unknownModule mid), w)
    | some mr =>
      if mr = r then (.error (.panic .alreadyBorrowed), w)
      else
        match w.circs[mr]? with
        | none => (.error .dangling, w)
        | some m => ((c.module m mid ids).1, w.setC r (c.module m mid ids).2)

/-! ### Read-only API — src/bool_circuit.rs:94-136, 427-485 -/

namespace World

/-- the circuit behind a ref; a dangling ref does not exist in Rust -/
def circuit (w : World) (r : Ref) : Except Err Circuit :=
  match w.circs[r]? with
  | none => .error .dangling
  | some c => .ok c

/-- `input_to_gate_id` — src/bool_circuit.rs:447-452. -/
def inputToGateId (w : World) (r : Ref) (i : WireId) : Except Err GateId := do
  let c ← w.circuit r
  match c.inputMap i with
  | none => .error (.unknownInput i)
  | some g => .ok g

/-- `output_to_gate_id` — src/bool_circuit.rs:454-459. -/
def outputToGateId (w : World) (r : Ref) (i : WireId) : Except Err GateId := do
  let c ← w.circuit r
  match c.outputMap i with
  | none => .error (.unknownOutput i)
  | some g => .ok g

/-- `get_gate` — src/bool_circuit.rs:461-466. -/
def getGate (w : World) (r : Ref) (g : GateId) : Except Err Gate := do
  let c ← w.circuit r
  match c.gateMap g with
  | none => .error (.unknownGate g)
  | some gate => .ok gate

/-- `get_module` — src/bool_circuit.rs:468-473. -/
def getModule (w : World) (r : Ref) (mid : ModuleId) : Except Err Ref := do
  let c ← w.circuit r
  match w.module? c mid with
  | none => .error (.unknownModule mid)
  | some m => .ok m

/-- `get_depended_gates` — src/bool_circuit.rs:475-481. -/
def getDependedGates (w : World) (r : Ref) (g : GateId) : Except Err (List GateId) := do
  let c ← w.circuit r
  .ok (c.dependedGates g)

/-- `get_const_gates` — src/bool_circuit.rs:483-485. -/
def getConstGates (w : World) (r : Ref) : Except Err (List GateId) := do
  let c ← w.circuit r
  .ok c.constGates

end World

end CC
