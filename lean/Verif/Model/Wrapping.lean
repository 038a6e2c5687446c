import Verif.Model.Circuit

/-!
# `src/bool_circuit.rs` in a release build

In a release build `+=` and `-` on `usize` wrap around modulo 2^64. The profile section of /repo/Cargo.toml changes only
`opt-level` of the test profile, so debug and test builds check (`Model/Checked`) and release builds wrap (here).
No method can panic on arithmetic any more, so only `output` and `module` can fail.
-/

namespace CC.Wrapping

/-- `a + b` on `usize` in a release build -/
def add (a b : Nat) : Nat := (a + b) % 2 ^ 64

/-- `a - b` on `usize` in a release build, for `b < 2^64` -/
def sub (a b : Nat) : Nat := (a + (2 ^ 64 - b)) % 2 ^ 64

/-- `add_gate` — src/bool_circuit.rs:682-688. -/
def addGate (c : Circuit) (gate : Gate) : GateId × Circuit :=
  (c.gateIndex,
    { c with
      gateMap := c.gateMap.insert c.gateIndex gate
      gateIndex := add c.gateIndex 1
      numWire := add c.numWire 1 })

/-- `input` — src/bool_circuit.rs:487-496. -/
def input (c : Circuit) : GateId × Circuit :=
  let newWire := c.inputLen
  let c1 := { c with inputLen := add c.inputLen 1 }
  let (g, c2) := addGate c1 (.input newWire)
  (g, { c2 with inputMap := c2.inputMap.insert newWire g })

/-- `output` — src/bool_circuit.rs:498-506. -/
def output (c : Circuit) (g : GateId) : Except Err WireId × Circuit :=
  match c.gateMap g with
  | none => (.error (.unknownGate g), c)
  | some _ =>
    (.ok c.outputLen,
      { c with outputMap := c.outputMap.insert c.outputLen g, outputLen := add c.outputLen 1 })

/-- `constant` — src/bool_circuit.rs:508-514. -/
def constant (c : Circuit) (v : Bool) : GateId × Circuit :=
  let (g, c1) := addGate c (.const v)
  (g, { c1 with constGates := c1.constGates ++ [g], numConst := add c1.numConst 1 })

/-- `not` — src/bool_circuit.rs:516-522. -/
def not (c : Circuit) (x : GateId) : GateId × Circuit :=
  let (g, c1) := addGate c (.not x)
  let c2 := c1.addDependence x g
  (g, { c2 with numGate := add c2.numGate 1 })

/-- `xor`, `and`, `or` — src/bool_circuit.rs:524-534, 536-546, 548-558. -/
def binary (gate : Gate) (l r : GateId) (c : Circuit) : GateId × Circuit :=
  let (g, c1) := addGate c gate
  let c2 := c1.addDependence l g
  let c3 := c2.addDependence r g
  (g, { c3 with numGate := add c3.numGate 1 })

/-- the `map` over `0..output_len` inside `module` — src/bool_circuit.rs:599-611 -/
def addModuleGates (c : Circuit) (inLen outLen : Nat) (ids : List GateId) (mid : ModuleId) :
    (i k : Nat) → List GateId × Circuit
  | _, 0 => ([], c)
  | i, k + 1 =>
    let (g, c1) := addGate c (.module inLen outLen ids i mid)
    let (gs, c2) := addModuleGates c1 inLen outLen ids mid (i + 1) k
    (g :: gs, c2)

/-- `module` after the callee has been looked up — src/bool_circuit.rs:591-617. -/
def module (c : Circuit) (m : Circuit) (mid : ModuleId) (ids : List GateId) : List GateId × Circuit :=
  let c1 := { c with
    numWire := add c.numWire (sub (sub m.numWire m.inputLen) m.outputLen)
    numGate := add c.numGate m.numGate
    numConst := add c.numConst m.numConst }
  let (outs, c2) := addModuleGates c1 m.inputLen m.outputLen ids mid 0 m.outputLen
  (outs, c2.addModuleDeps ids outs)

/-- `ModuleStorage::register_module` — src/bool_circuit.rs:392-397. -/
def register (s : Storage) (m : Ref) : ModuleId × Storage :=
  (s.numModule, { moduleMap := s.moduleMap.insert s.numModule m, numModule := add s.numModule 1 })

end CC.Wrapping

namespace CC.WrappingApi
open CC

/-! ### through `BoolCircuitRef` -/

def input (r : Ref) : M GateId := M.onCircuit r fun c => (.ok (Wrapping.input c).1, (Wrapping.input c).2)
def output (r : Ref) (g : GateId) : M WireId := M.onCircuit r fun c => Wrapping.output c g
def constant (r : Ref) (v : Bool) : M GateId :=
  M.onCircuit r fun c => (.ok (Wrapping.constant c v).1, (Wrapping.constant c v).2)
def not (r : Ref) (x : GateId) : M GateId := M.onCircuit r fun c => (.ok (Wrapping.not c x).1, (Wrapping.not c x).2)

/-- `xor`, `and`, `or` -/
def binary (r : Ref) (gate : Gate) (a b : GateId) : M GateId :=
  M.onCircuit r fun c => (.ok (Wrapping.binary gate a b c).1, (Wrapping.binary gate a b c).2)

def xor (r : Ref) (a b : GateId) : M GateId := binary r (.xor a b) a b
def and (r : Ref) (a b : GateId) : M GateId := binary r (.and a b) a b
def or (r : Ref) (a b : GateId) : M GateId := binary r (.or a b) a b

def equivalent (r : Ref) (a b : GateId) : M GateId := do
  let x ← xor r a b
  not r x

def identity (r : Ref) (x : GateId) : M GateId := do
  let n1 ← not r x
  not r n1

def registerModule (r : Ref) (m : Ref) : M ModuleId := fun w =>
  match w.circs[r]? with
  | none => (.error .dangling, w)
  | some c =>
    match w.circs[m]? with
    | none => (.error .dangling, w)
    | some _ =>
      match w.stores[c.storage]? with
      | none => (.error .dangling, w)
      | some s =>
        (.ok (Wrapping.register s m).1, { w with stores := w.stores.set c.storage (Wrapping.register s m).2 })

def storeModule (s : StoreRef) (m : Ref) : M ModuleId := fun w =>
  match w.circs[m]? with
  | none => (.error .dangling, w)
  | some _ =>
    match w.stores[s]? with
    | none => (.error .dangling, w)
    | some st =>
      (.ok (Wrapping.register st m).1, { w with stores := w.stores.set s (Wrapping.register st m).2 })

def subCircuit (r : Ref) : M (ModuleId × Ref) := fun w =>
  match w.circs[r]? with
  | none => (.error .dangling, w)
  | some c =>
    (do
      let n ← newCircuit c.storage
      let mid ← registerModule r n
      pure (mid, n)) w

def module (r : Ref) (mid : ModuleId) (ids : List GateId) : M (List GateId) := fun w =>
  match w.circs[r]? with
  | none => (.error .dangling, w)
  | some c =>
    match w.module? c mid with
    | none => (.error (.unknownModule mid), w)
    | some mr =>
      if mr = r then (.error (.panic .alreadyBorrowed), w)
      else
        match w.circs[mr]? with
        | none => (.error .dangling, w)
        | some m => (.ok (Wrapping.module c m mid ids).1, w.setC r (Wrapping.module c m mid ids).2)

end CC.WrappingApi
