import Verif.Model.Circuit

/-!
# `src/evaluator.rs`: `NXAOBoolEvaluator`

The evaluator does not change the heap. `fuel` bounds the recursion depth of `eval_single_gate`.
-/

namespace CC

/-- `evaled_map` and `num_depend_map` — src/evaluator.rs:37-38. -/
structure EvSt where
  evaled : Map GateId Bool
  numDep : Map GateId Nat

namespace EvSt

/-- both maps empty — src/evaluator.rs:37-38 -/
def empty : EvSt := { evaled := Map.empty, numDep := Map.empty }

/-- `evaled_map.get(&id).ok_or(UnknownEvaledBit(id))?` — src/evaluator.rs:129-131 and repeats. -/
def bit (st : EvSt) (id : GateId) : Except Err Bool :=
  match st.evaled id with
  | none => .error (.unknownEvaledBit id)
  | some b => .ok b

/-- `num_depend_map.insert(id, num_depend_map[&id]-1); if num_depend_map[&id]==0 { remove from both }`
— src/evaluator.rs:133-137 and its repetitions at 158-167, 188-197, 218-227, 251-255. -/
def release (st : EvSt) (id : GateId) : Except Err EvSt :=
  match st.numDep id with
  | none => .error (.panic .missingKey)
  | some 0 => .error (.panic .underflow)
  | some (n + 1) =>
    let st1 := { st with numDep := st.numDep.insert id n }
    if n = 0 then .ok { evaled := st1.evaled.remove id, numDep := st1.numDep.remove id }
    else .ok st1

/-- `evaled_map.insert(g, b); num_depend_map.insert(g, get_depended_gates(g).len())`
— src/evaluator.rs:46-47, 120-122, 139-141, 261-263. -/
def record (st : EvSt) (c : Circuit) (g : GateId) (b : Bool) : EvSt :=
  { evaled := st.evaled.insert g b
    numDep := st.numDep.insert g (c.dependedGates g).length }

end EvSt

/-- `if evaled_map.get(&id).is_none() { self.eval_single_gate(&id, ..)?; }` — src/evaluator.rs:126-128. -/
def ensure (eg : GateId → EvSt → Except Err EvSt) (id : GateId) (st : EvSt) : Except Err EvSt :=
  match st.evaled id with
  | none => eg id st
  | some _ => .ok st

/-- `for id in input_ids { num_depend_map.insert(..); if .. { remove } }` — src/evaluator.rs:250-256. -/
def releaseAll : List GateId → EvSt → Except Err EvSt
  | [], st => .ok st
  | id :: ids, st => do
    let st ← st.release id
    releaseAll ids st

/-- The loop collecting the argument bits of a module call — src/evaluator.rs:236-245. -/
def collectBits (eg : GateId → EvSt → Except Err EvSt) : List GateId → EvSt →
    Except Err (List Bool × EvSt)
  | [], st => .ok ([], st)
  | id :: ids, st => do
    let st ← ensure eg id st
    let b ← st.bit id
    let (bs, st) ← collectBits eg ids st
    .ok (b :: bs, st)

/-- The loop storing the outputs of a module call — src/evaluator.rs:259-264: outputs `i, i+1, …`,
`k` of them. -/
def recordOutputs (c : Circuit) (first : GateId) (outs : List Bool) :
    (i k : Nat) → EvSt → Except Err EvSt
  | _, 0, st => .ok st
  | i, k + 1, st =>
    match outs[i]? with
    | none => .error (.panic .indexOutOfBounds)
    | some b => recordOutputs c first outs (i + 1) k (st.record c (first + i) b)

/-- The two-operand arms of `eval_single_gate` — src/evaluator.rs:144-173 (`^`), 174-203 (`&`),
204-233 (`|`), which are identical up to the operator. -/
def evalBinary (c : Circuit) (eg : GateId → EvSt → Except Err EvSt) (op : Bool → Bool → Bool)
    (g l r : GateId) (st : EvSt) : Except Err EvSt := do
  let st ← ensure eg l st
  let st ← ensure eg r st
  let bl ← st.bit l
  let br ← st.bit r
  let out := op bl br
  let st ← st.release l
  let st ← st.release r
  .ok (st.record c g out)

/-- The `while` loop of `eval_output` — src/evaluator.rs:42-53: input wire `i` gets the next input bit.
(The `None` arm is unreachable, see `Circuit.inputMap`.) -/
def seedInputs (c : Circuit) : WireId → List Bool → EvSt → Except Err EvSt
  | _, [], st => .ok st
  | i, b :: bs, st =>
    match c.inputMap i with
    | none => .error (.unknownInput i)
    | some g => seedInputs c (i + 1) bs (st.record c g b)

/-- `eval_single_output` — src/evaluator.rs:69-108 (called with both maps given, evaluator.rs:57). -/
def evalSingleOutput (c : Circuit) (eg : GateId → EvSt → Except Err EvSt) (inputs : List Bool)
    (i : WireId) (st : EvSt) : Except Err (Bool × EvSt) :=
  if inputs.length ≠ c.inputLen then .error (.invalidInputLen inputs.length c.inputLen)
  else if i ≥ c.outputLen then .error (.unknownOutput i)
  else
    match c.outputMap i with
    | none => .error (.unknownOutput i)
    | some g =>
      match st.evaled g with
      | some b => .ok (b, st)
      | none => do
        let st ← eg g st
        let b ← st.bit g
        .ok (b, st)

/-- The `for` loop of `eval_output` — src/evaluator.rs:55-59: outputs `i, i+1, …`, `k` of them. -/
def evalOutputs (c : Circuit) (eg : GateId → EvSt → Except Err EvSt) (inputs : List Bool) :
    (i k : Nat) → EvSt → Except Err (List Bool)
  | _, 0, _ => .ok []
  | i, k + 1, st => do
    let (b, st) ← evalSingleOutput c eg inputs i st
    let bs ← evalOutputs c eg inputs (i + 1) k st
    .ok (b :: bs)

/-- `eval_output` — src/evaluator.rs:33-61, with `eg` standing for `self.eval_single_gate`. -/
def evalOutputWith (c : Circuit) (eg : GateId → EvSt → Except Err EvSt) (inputs : List Bool) :
    Except Err (List Bool) :=
  if inputs.length ≠ c.inputLen then .error (.panic .assertFailed)
  else do
    let st ← seedInputs c 0 inputs EvSt.empty
    evalOutputs c eg inputs 0 c.outputLen st

/-- `eval_single_gate` — src/evaluator.rs:110-268. -/
def evalGate (w : World) : (fuel : Nat) → Ref → GateId → EvSt → Except Err EvSt
  | 0, _, _, _ => .error .outOfFuel
  | fuel + 1, r, g, st => do
    let c ← w.circuit r
    match c.gateMap g with
    | none => .error (.unknownGate g)
    | some (.input _) => .ok st
    | some (.const v) => .ok (st.record c g v)
    | some (.not x) => do
      let st ← ensure (evalGate w fuel r) x st
      let b ← st.bit x
      let st ← st.release x
      .ok (st.record c g (!b))
    | some (.xor l r') => evalBinary c (evalGate w fuel r) Bool.xor g l r' st
    | some (.and l r') => evalBinary c (evalGate w fuel r) Bool.and g l r' st
    | some (.or l r') => evalBinary c (evalGate w fuel r) Bool.or g l r' st
    | some (.module _ outLen ids outIndex mid) => do
      let (bits, st) ← collectBits (evalGate w fuel r) ids st
      match w.module? c mid with
      | none => .error (.unknownModule mid)
      | some mr => do
        let mc ← w.circuit mr
        let outs ← evalOutputWith mc (evalGate w fuel mr) bits
        let st ← releaseAll ids st
        if g < outIndex then .error (.panic .underflow)
        else recordOutputs c (g - outIndex) outs 0 outLen st

/-- `NXAOBoolEvaluator::new(r).eval_output(inputs)` — src/evaluator.rs:33-61, 65-67. -/
def evalOutput (w : World) (fuel : Nat) (r : Ref) (inputs : List Bool) : Except Err (List Bool) := do
  let c ← w.circuit r
  evalOutputWith c (evalGate w fuel r) inputs

end CC
