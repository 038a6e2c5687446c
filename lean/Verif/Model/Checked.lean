import Verif.Model.Circuit

/-!
# `src/bool_circuit.rs` with 64-bit counters

`Model/Circuit` counts with unbounded numbers. Here every `+=` on a counter is checked as in debug and test builds: a sum of
2^64 or more is a panic. What has been changed before the panic stays changed. `Props/Overflow` compares the two.
-/

namespace CC.Checked

/-- a method of `NXAOBoolCircuit`: it may fail, and it may change the circuit also when it fails -/
def CM (α : Type) := Circuit → Except Err α × Circuit

instance : Monad CM where
  pure a := fun c => (.ok a, c)
  bind x f := fun c =>
    match x c with
    | (.ok a, c') => f a c'
    | (.error e, c') => (.error e, c')

def get : CM Circuit := fun c => (.ok c, c)

def modify (f : Circuit → Circuit) : CM Unit := fun c => (.ok (), f c)

def throw {α : Type} (e : Err) : CM α := fun c => (.error e, c)

/-- `self.<field> += n` on a `usize` field -/
def bump (field : Circuit → Nat) (set : Nat → Circuit → Circuit) (n : Nat) : CM Unit := fun c =>
  if field c + n < 2 ^ 64 then (.ok (), set (field c + n) c) else (.error (.panic .overflow), c)

def bumpInputLen := bump (·.inputLen) fun n c => { c with inputLen := n }
def bumpOutputLen := bump (·.outputLen) fun n c => { c with outputLen := n }
def bumpNumWire := bump (·.numWire) fun n c => { c with numWire := n }
def bumpNumGate := bump (·.numGate) fun n c => { c with numGate := n }
def bumpNumConst := bump (·.numConst) fun n c => { c with numConst := n }
def bumpGateIndex := bump (·.gateIndex) fun n c => { c with gateIndex := n }

/-- `add_gate` — src/bool_circuit.rs:682-688. -/
def addGate (gate : Gate) : CM GateId := do
  let c ← get
  modify fun c' => { c' with gateMap := c'.gateMap.insert c.gateIndex gate }
  bumpGateIndex 1
  bumpNumWire 1
  pure c.gateIndex

/-- `add_dependence` — src/bool_circuit.rs:690-706. -/
def addDependence (x g : GateId) : CM Unit := modify fun c => c.addDependence x g

/-- `input` — src/bool_circuit.rs:487-496. -/
def input : CM GateId := do
  let c ← get
  bumpInputLen 1
  let g ← addGate (.input c.inputLen)
  modify fun c' => { c' with inputMap := c'.inputMap.insert c.inputLen g }
  pure g

/-- `output` — src/bool_circuit.rs:498-506. -/
def output (g : GateId) : CM WireId := do
  let c ← get
  match c.gateMap g with
  | none => throw (.unknownGate g)
  | some _ =>
    modify fun c' => { c' with outputMap := c'.outputMap.insert c.outputLen g }
    bumpOutputLen 1
    pure c.outputLen

/-- `constant` — src/bool_circuit.rs:508-514. -/
def constant (v : Bool) : CM GateId := do
  let g ← addGate (.const v)
  modify fun c => { c with constGates := c.constGates ++ [g] }
  bumpNumConst 1
  pure g

/-- `not` — src/bool_circuit.rs:516-522. -/
def not (x : GateId) : CM GateId := do
  let g ← addGate (.not x)
  addDependence x g
  bumpNumGate 1
  pure g

/-- `xor`, `and`, `or` — src/bool_circuit.rs:524-534, 536-546, 548-558. -/
def binary (gate : Gate) (l r : GateId) : CM GateId := do
  let g ← addGate gate
  addDependence l g
  addDependence r g
  bumpNumGate 1
  pure g

/-- the `map` over `0..output_len` inside `module` — src/bool_circuit.rs:599-611 -/
def addModuleGates (inLen outLen : Nat) (ids : List GateId) (mid : ModuleId) : (i k : Nat) → CM (List GateId)
  | _, 0 => pure []
  | i, k + 1 => do
    let g ← addGate (.module inLen outLen ids i mid)
    let gs ← addModuleGates inLen outLen ids mid (i + 1) k
    pure (g :: gs)

/-- `module` after the callee has been looked up — src/bool_circuit.rs:591-617. -/
def module (m : Circuit) (mid : ModuleId) (ids : List GateId) : CM (List GateId) := do
  if m.numWire < m.inputLen then throw (.panic .underflow)
  else if m.numWire - m.inputLen < m.outputLen then throw (.panic .underflow)
  else
    bumpNumWire (m.numWire - m.inputLen - m.outputLen)
    bumpNumGate m.numGate
    bumpNumConst m.numConst
    let outs ← addModuleGates m.inputLen m.outputLen ids mid 0 m.outputLen
    modify fun c => c.addModuleDeps ids outs
    pure outs

end CC.Checked

namespace CC.CheckedApi
open CC

/-! ### through `BoolCircuitRef` -/

def input (r : Ref) : M GateId := M.onCircuit r Checked.input
def output (r : Ref) (g : GateId) : M WireId := M.onCircuit r (Checked.output g)
def constant (r : Ref) (v : Bool) : M GateId := M.onCircuit r (Checked.constant v)
def not (r : Ref) (x : GateId) : M GateId := M.onCircuit r (Checked.not x)
def xor (r : Ref) (a b : GateId) : M GateId := M.onCircuit r (Checked.binary (.xor a b) a b)
def and (r : Ref) (a b : GateId) : M GateId := M.onCircuit r (Checked.binary (.and a b) a b)
def or (r : Ref) (a b : GateId) : M GateId := M.onCircuit r (Checked.binary (.or a b) a b)

def equivalent (r : Ref) (a b : GateId) : M GateId := do
  let x ← xor r a b
  not r x

def identity (r : Ref) (x : GateId) : M GateId := do
  let n1 ← not r x
  not r n1

/-- `register_module` — src/bool_circuit.rs:392-397: the map is written before the counter. -/
def registerModule (r : Ref) (m : Ref) : M ModuleId := fun w =>
  match w.circs[r]? with
  | none => (.error .dangling, w)
  | some c =>
    match w.circs[m]? with
    | none => (.error .dangling, w)
    | some _ =>
      match w.stores[c.storage]? with
      | none => (.error .dangling, w)
      | some s =>
        if s.numModule + 1 < 2 ^ 64 then
          (.ok s.numModule, { w with stores := w.stores.set c.storage (s.register m).2 })
        else
          let s' : Storage := { s with moduleMap := s.moduleMap.insert s.numModule m }
          (.error (.panic .overflow), { w with stores := w.stores.set c.storage s' })

/-- the same on the storage itself -/
def storeModule (s : StoreRef) (m : Ref) : M ModuleId := fun w =>
  match w.circs[m]? with
  | none => (.error .dangling, w)
  | some _ =>
    match w.stores[s]? with
    | none => (.error .dangling, w)
    | some st =>
      if st.numModule + 1 < 2 ^ 64 then
        (.ok st.numModule, { w with stores := w.stores.set s (st.register m).2 })
      else
        let st' : Storage := { st with moduleMap := st.moduleMap.insert st.numModule m }
        (.error (.panic .overflow), { w with stores := w.stores.set s st' })

def subCircuit (r : Ref) : M (ModuleId × Ref) := fun w =>
  match w.circs[r]? with
  | none => (.error .dangling, w)
  | some c =>
    (do
      let n ← newCircuit c.storage
      let mid ← registerModule r n
      pure (mid, n)) w

def module (r : Ref) (mid : ModuleId) (ids : List GateId) : M (List GateId) := fun w =>
  match w.circs[r]? with
  | none => (.error .dangling, w)
  | some c =>
    match w.module? c mid with
    | none => (.error (.unknownModule mid), w)
    | some mr =>
      if mr = r then (.error (.panic .alreadyBorrowed), w)
      else
        match w.circs[mr]? with
        | none => (.error .dangling, w)
        | some m => ((Checked.module m mid ids c).1, w.setC r (Checked.module m mid ids c).2)

end CC.CheckedApi
