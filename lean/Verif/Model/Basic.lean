/-!
# Basic vocabulary of the model: ids, gates, errors, maps

Models `src/gates.rs` and the error enums of `src/bool_circuit.rs`, `src/evaluator.rs`,
`src/bristol_converter.rs`.
-/

namespace CC

/-- `pub struct WireId(pub u64)` — src/gates.rs:5-35. `u64` is `Nat` (no overflow of `+`). -/
scoped macro "WireId" : term => `(Nat)

/-- `pub struct GateId(pub u64)` — src/gates.rs:37-67. `u64` is `Nat` (no overflow of `+`). -/
scoped macro "GateId" : term => `(Nat)

/-- `pub struct ModuleId(pub u64)` — src/gates.rs:69-76. -/
scoped macro "ModuleId" : term => `(Nat)

/-- A `BoolCircuitRef` (`Rc<RefCell<NXAOBoolCircuit>>`, src/bool_circuit.rs:73-92): an index into the
heap of circuits. Cloning a ref (bool_circuit.rs:82-84) copies the index. -/
scoped macro "Ref" : term => `(Nat)

/-- A `ModuleStorageRef` (`Rc<RefCell<ModuleStorage>>`, src/bool_circuit.rs:321-331): an index into the
heap of module storages. -/
scoped macro "StoreRef" : term => `(Nat)

/-- `enum NXAOBoolGate` with its seven gate structs — src/gates.rs:89-98, 136-260.
Argument order: `and/xor/or left_id right_id`;
`module input_len output_len input_ids out_index module_id` (gates.rs:254-260). -/
inductive Gate where
  | input (wire : WireId)
  | const (value : Bool)
  | not (id : GateId)
  | and (left right : GateId)
  | xor (left right : GateId)
  | or (left right : GateId)
  | module (inputLen outputLen : Nat) (inputIds : List GateId) (outIndex : Nat) (mid : ModuleId)
deriving DecidableEq, Repr

/-- The gate ids a gate reads, in the order the code visits them
(`id`; `left_id, right_id`; `input_ids`) — fields of src/gates.rs:174-260. -/
def Gate.operands : Gate → List GateId
  | .input _ => []
  | .const _ => []
  | .not x => [x]
  | .and l r => [l, r]
  | .xor l r => [l, r]
  | .or l r => [l, r]
  | .module _ _ ids _ _ => ids

/-- Kinds of Rust panics that the modelled code can raise. -/
inductive Panic where
  /-- `assert!` / `assert_eq!` -/
  | assertFailed
  /-- `v[i]` with `i ≥ v.len()` -/
  | indexOutOfBounds
  /-- `map[&k]` with `k` absent -/
  | missingKey
  /-- `a - b` with `a < b` on `usize`/`u64` (debug and test builds) or on `BigUint` -/
  | underflow
  /-- `RefCell::borrow` while mutably borrowed -/
  | alreadyBorrowed
  /-- `.expect(..)` on `Err` -/
  | expectFailed
  /-- `a + b ≥ 2^64` on `usize`/`u64` (debug and test builds); only in `Model/Checked` -/
  | overflow
deriving DecidableEq, Repr

/-- All failure values: `BoolCircuitError` (src/bool_circuit.rs:8-30), `EvaluatorError`
(src/evaluator.rs:6-16), `BristolError` (src/bristol_converter.rs:11-35), panics, and exhaustion of the
recursion depth. The wrappers `CircuitError`/`BoolCircuitError`/`BristolError` inserted by `?`
(`#[from]`, `#[error(transparent)]`) are flattened. `ParseIntError` keeps no detail.
Enum variants that no code constructs are omitted. -/
inductive Err where
  -- BoolCircuitError
  | unknownGate (g : GateId)
  | unknownModule (m : ModuleId)
  | unknownInput (w : WireId)
  | unknownOutput (w : WireId)
  -- EvaluatorError
  | unknownEvaledBit (g : GateId)
  | invalidInputLen (given expected : Nat)
  -- BristolError
  | notFoundLine (n : Nat)
  | lineSplit
  | unknownWire (n : Nat)
  | notSupportedGate (s : List Char)
  | parseInt
  -- utils: hex::FromHexError
  | hexOddLength
  | hexInvalidChar (c : Char) (index : Nat)
  -- not Rust values
  | panic (p : Panic)
  /-- the fuel (recursion depth) is exhausted: stack overflow / no termination -/
  | outOfFuel
  /-- a `Ref`/`StoreRef` that does not exist in the heap; impossible in Rust -/
  | dangling
deriving DecidableEq, Repr

/-- `HashMap<K, V>` as a partial function. -/
abbrev Map (K V : Type) := K → Option V

namespace Map
variable {K V : Type} [DecidableEq K]

/-- `HashMap::new()` -/
def empty : Map K V := fun _ => none

/-- `HashMap::insert` -/
def insert (m : Map K V) (k : K) (v : V) : Map K V := fun k' => if k' = k then some v else m k'

/-- `HashMap::remove` -/
def remove (m : Map K V) (k : K) : Map K V := fun k' => if k' = k then none else m k'

theorem insert_apply (m : Map K V) (k : K) (v : V) (k' : K) :
    m.insert k v k' = if k' = k then some v else m k' := rfl

theorem remove_apply (m : Map K V) (k : K) (k' : K) :
    m.remove k k' = if k' = k then none else m k' := rfl

@[simp] theorem insert_self (m : Map K V) (k : K) (v : V) : m.insert k v k = some v := by
  simp [insert]

theorem insert_ne (m : Map K V) {k k' : K} (v : V) (h : k' ≠ k) : m.insert k v k' = m k' := by
  simp [insert, h]

@[simp] theorem remove_self (m : Map K V) (k : K) : m.remove k k = none := by
  simp [remove]

theorem remove_ne (m : Map K V) {k k' : K} (h : k' ≠ k) : m.remove k k' = m k' := by
  simp [remove, h]

omit [DecidableEq K] in
@[simp] theorem empty_apply (k : K) : (Map.empty : Map K V) k = none := rfl

end Map

end CC
