import Verif.Model.Evaluator

/-!
# `src/evaluator.rs` with a log

The functions of `Model/Evaluator.lean` once more, now writing down every access to the two hash maps, the beginning of the
computation of a gate, and the beginning and end of an evaluation (with new maps), in the order in which they happen. This is
what can be observed of a run without seeing the bits. The log also exists for evaluations that fail.
`Proofs/Log.lean` shows that the results are those of `Model/Evaluator.lean`.
-/

namespace CC.Log

/-- what happens during an evaluation; `r` is the circuit being evaluated -/
inductive Event where
  /-- `eval_output` of circuit `r` begins; the maps are new — src/evaluator.rs:33-38 -/
  | enter (r : Ref)
  /-- it returns, and its maps are freed — src/evaluator.rs:60 -/
  | leave (r : Ref)
  /-- the computation of gate `g` begins; a module call is named by its first gate -/
  | compute (r : Ref) (g : GateId)
  /-- `evaled_map.get(&g).is_none()` or `.is_some()`, and whether there is a bit — src/evaluator.rs:97, 126 and repeats -/
  | look (r : Ref) (g : GateId) (found : Bool)
  /-- the bit of `g` is taken from `evaled_map` — src/evaluator.rs:98, 101-103, 129-131 and repeats -/
  | read (r : Ref) (g : GateId)
  /-- `num_depend_map` of `g` is lowered; if it is 0 now (`last`), `g` is removed from both maps — src/evaluator.rs:133-137
  and repeats -/
  | count (r : Ref) (g : GateId) (last : Bool)
  /-- `g` is put into both maps — src/evaluator.rs:46-47, 120-122 and repeats -/
  | store (r : Ref) (g : GateId)
  deriving DecidableEq

/-- a computation with a log -/
def L (α : Type) := List Event → Except Err α × List Event

instance : Monad L where
  pure a := fun l => (.ok a, l)
  bind x f := fun l =>
    match x l with
    | (.ok a, m) => f a m
    | (.error e, m) => (.error e, m)

/-- writes nothing -/
def lift {α : Type} (a : Except Err α) : L α := fun l => (a, l)

def throw {α : Type} (e : Err) : L α := fun l => (.error e, l)

def emit (e : Event) : L Unit := fun l => (.ok (), l ++ [e])

/-- src/evaluator.rs:129-131 and repeats -/
def bit (r : Ref) (st : EvSt) (id : GateId) : L Bool := do
  emit (.read r id)
  lift (st.bit id)

/-- src/evaluator.rs:133-137 and repeats -/
def release (r : Ref) (st : EvSt) (id : GateId) : L EvSt :=
  match st.numDep id with
  | none => throw (.panic .missingKey)
  | some 0 => throw (.panic .underflow)
  | some (n + 1) => do
    let st1 := { st with numDep := st.numDep.insert id n }
    emit (.count r id (n == 0))
    if n = 0 then pure { evaled := st1.evaled.remove id, numDep := st1.numDep.remove id }
    else pure st1

/-- src/evaluator.rs:46-47, 120-122, 139-141, 261-263 -/
def record (r : Ref) (st : EvSt) (c : Circuit) (g : GateId) (b : Bool) : L EvSt := do
  emit (.store r g)
  pure (st.record c g b)

/-- src/evaluator.rs:126-128 and repeats -/
def ensure (r : Ref) (eg : GateId → EvSt → L EvSt) (id : GateId) (st : EvSt) : L EvSt := do
  emit (.look r id (st.evaled id).isSome)
  match st.evaled id with
  | none => eg id st
  | some _ => pure st

/-- src/evaluator.rs:250-256 -/
def releaseAll (r : Ref) : List GateId → EvSt → L EvSt
  | [], st => pure st
  | id :: ids, st => do
    let st ← release r st id
    releaseAll r ids st

/-- src/evaluator.rs:236-245 -/
def collectBits (r : Ref) (eg : GateId → EvSt → L EvSt) : List GateId → EvSt → L (List Bool × EvSt)
  | [], st => pure ([], st)
  | id :: ids, st => do
    let st ← ensure r eg id st
    let b ← bit r st id
    let (bs, st) ← collectBits r eg ids st
    pure (b :: bs, st)

/-- src/evaluator.rs:259-264 -/
def recordOutputs (r : Ref) (c : Circuit) (first : GateId) (outs : List Bool) : (i k : Nat) → EvSt → L EvSt
  | _, 0, st => pure st
  | i, k + 1, st =>
    match outs[i]? with
    | none => throw (.panic .indexOutOfBounds)
    | some b => do
      let st ← record r st c (first + i) b
      recordOutputs r c first outs (i + 1) k st

/-- src/evaluator.rs:144-173, 174-203, 204-233 -/
def evalBinary (r : Ref) (c : Circuit) (eg : GateId → EvSt → L EvSt) (op : Bool → Bool → Bool) (g x y : GateId)
    (st : EvSt) : L EvSt := do
  let st ← ensure r eg x st
  let st ← ensure r eg y st
  let bx ← bit r st x
  let by' ← bit r st y
  let st ← release r st x
  let st ← release r st y
  record r st c g (op bx by')

/-- src/evaluator.rs:42-53 -/
def seedInputs (r : Ref) (c : Circuit) : WireId → List Bool → EvSt → L EvSt
  | _, [], st => pure st
  | i, b :: bs, st =>
    match c.inputMap i with
    | none => throw (.unknownInput i)
    | some g => do
      let st ← record r st c g b
      seedInputs r c (i + 1) bs st

/-- `eval_single_output` — src/evaluator.rs:69-108 -/
def evalSingleOutput (r : Ref) (c : Circuit) (eg : GateId → EvSt → L EvSt) (inputs : List Bool) (i : WireId)
    (st : EvSt) : L (Bool × EvSt) :=
  if inputs.length ≠ c.inputLen then throw (.invalidInputLen inputs.length c.inputLen)
  else if i ≥ c.outputLen then throw (.unknownOutput i)
  else
    match c.outputMap i with
    | none => throw (.unknownOutput i)
    | some g => do
      emit (.look r g (st.evaled g).isSome)
      match st.evaled g with
      | some b => do
        emit (.read r g)
        pure (b, st)
      | none => do
        let st ← eg g st
        let b ← bit r st g
        pure (b, st)

/-- src/evaluator.rs:55-59 -/
def evalOutputs (r : Ref) (c : Circuit) (eg : GateId → EvSt → L EvSt) (inputs : List Bool) :
    (i k : Nat) → EvSt → L (List Bool)
  | _, 0, _ => pure []
  | i, k + 1, st => do
    let (b, st) ← evalSingleOutput r c eg inputs i st
    let bs ← evalOutputs r c eg inputs (i + 1) k st
    pure (b :: bs)

/-- `eval_output` — src/evaluator.rs:33-61 -/
def evalOutputWith (r : Ref) (c : Circuit) (eg : GateId → EvSt → L EvSt) (inputs : List Bool) : L (List Bool) := do
  emit (.enter r)
  if inputs.length ≠ c.inputLen then throw (.panic .assertFailed)
  else do
    let st ← seedInputs r c 0 inputs EvSt.empty
    let outs ← evalOutputs r c eg inputs 0 c.outputLen st
    emit (.leave r)
    pure outs

/-- `eval_single_gate` — src/evaluator.rs:110-268 -/
def evalGate (w : World) : (fuel : Nat) → Ref → GateId → EvSt → L EvSt
  | 0, _, _, _ => throw .outOfFuel
  | fuel + 1, r, g, st => do
    let c ← lift (w.circuit r)
    match c.gateMap g with
    | none => throw (.unknownGate g)
    | some (.input _) => pure st
    | some (.const v) => do
      emit (.compute r g)
      record r st c g v
    | some (.not x) => do
      emit (.compute r g)
      let st ← ensure r (evalGate w fuel r) x st
      let b ← bit r st x
      let st ← release r st x
      record r st c g (!b)
    | some (.xor x y) => do
      emit (.compute r g)
      evalBinary r c (evalGate w fuel r) Bool.xor g x y st
    | some (.and x y) => do
      emit (.compute r g)
      evalBinary r c (evalGate w fuel r) Bool.and g x y st
    | some (.or x y) => do
      emit (.compute r g)
      evalBinary r c (evalGate w fuel r) Bool.or g x y st
    | some (.module _ outLen ids outIndex mid) => do
      emit (.compute r (g - outIndex))
      let (bits, st) ← collectBits r (evalGate w fuel r) ids st
      match w.module? c mid with
      | none => throw (.unknownModule mid)
      | some mr => do
        let mc ← lift (w.circuit mr)
        let outs ← evalOutputWith mr mc (evalGate w fuel mr) bits
        let st ← releaseAll r ids st
        if g < outIndex then throw (.panic .underflow)
        else recordOutputs r c (g - outIndex) outs 0 outLen st

/-- `NXAOBoolEvaluator::new(r).eval_output(inputs)` — src/evaluator.rs:33-61, 65-67 -/
def evalOutput (w : World) (fuel : Nat) (r : Ref) (inputs : List Bool) : L (List Bool) := do
  let c ← lift (w.circuit r)
  evalOutputWith r c (evalGate w fuel r) inputs

/-- the log of an evaluation -/
def log (w : World) (fuel : Nat) (r : Ref) (inputs : List Bool) : List Event := (evalOutput w fuel r inputs []).2

end CC.Log
