import Verif.Model.Evaluator

/-!
# `src/evaluator.rs` with a clock

The functions of `Model/Evaluator.lean` once more, now with a clock that advances by `κ r g` whenever the computation of
gate `g` of circuit `r` begins. A module call is one computation, named by the first gate of the call, and includes what
the called circuit computes. Input gates are not computed. Time also passes in evaluations that fail.
`Proofs/Ticks.lean` shows that the results are those of `Model/Evaluator.lean`.
-/

namespace CC.Ticks

/-- a computation with a clock -/
def T (α : Type) := Nat → Except Err α × Nat

instance : Monad T where
  pure a := fun n => (.ok a, n)
  bind x f := fun n =>
    match x n with
    | (.ok a, m) => f a m
    | (.error e, m) => (.error e, m)

/-- takes no time -/
def lift {α : Type} (a : Except Err α) : T α := fun n => (a, n)

def throw {α : Type} (e : Err) : T α := fun n => (.error e, n)

def tick (k : Nat) : T Unit := fun n => (.ok (), n + k)

/-- src/evaluator.rs:126-128 and repeats -/
def ensure (eg : GateId → EvSt → T EvSt) (id : GateId) (st : EvSt) : T EvSt :=
  match st.evaled id with
  | none => eg id st
  | some _ => pure st

/-- src/evaluator.rs:236-245 -/
def collectBits (eg : GateId → EvSt → T EvSt) : List GateId → EvSt → T (List Bool × EvSt)
  | [], st => pure ([], st)
  | id :: ids, st => do
    let st ← ensure eg id st
    let b ← lift (st.bit id)
    let (bs, st) ← collectBits eg ids st
    pure (b :: bs, st)

/-- src/evaluator.rs:144-173, 174-203, 204-233 -/
def evalBinary (c : Circuit) (eg : GateId → EvSt → T EvSt) (op : Bool → Bool → Bool) (g l r : GateId) (st : EvSt) :
    T EvSt := do
  let st ← ensure eg l st
  let st ← ensure eg r st
  let bl ← lift (st.bit l)
  let br ← lift (st.bit r)
  let st ← lift (st.release l)
  let st ← lift (st.release r)
  pure (st.record c g (op bl br))

/-- `eval_single_output` — src/evaluator.rs:69-108 -/
def evalSingleOutput (c : Circuit) (eg : GateId → EvSt → T EvSt) (inputs : List Bool) (i : WireId) (st : EvSt) :
    T (Bool × EvSt) :=
  if inputs.length ≠ c.inputLen then throw (.invalidInputLen inputs.length c.inputLen)
  else if i ≥ c.outputLen then throw (.unknownOutput i)
  else
    match c.outputMap i with
    | none => throw (.unknownOutput i)
    | some g =>
      match st.evaled g with
      | some b => pure (b, st)
      | none => do
        let st ← eg g st
        let b ← lift (st.bit g)
        pure (b, st)

/-- src/evaluator.rs:55-59 -/
def evalOutputs (c : Circuit) (eg : GateId → EvSt → T EvSt) (inputs : List Bool) : (i k : Nat) → EvSt → T (List Bool)
  | _, 0, _ => pure []
  | i, k + 1, st => do
    let (b, st) ← evalSingleOutput c eg inputs i st
    let bs ← evalOutputs c eg inputs (i + 1) k st
    pure (b :: bs)

/-- `eval_output` — src/evaluator.rs:33-61 -/
def evalOutputWith (c : Circuit) (eg : GateId → EvSt → T EvSt) (inputs : List Bool) : T (List Bool) :=
  if inputs.length ≠ c.inputLen then throw (.panic .assertFailed)
  else do
    let st ← lift (seedInputs c 0 inputs EvSt.empty)
    evalOutputs c eg inputs 0 c.outputLen st

/-- `eval_single_gate` — src/evaluator.rs:110-268 -/
def evalGate (κ : Ref → GateId → Nat) (w : World) : (fuel : Nat) → Ref → GateId → EvSt → T EvSt
  | 0, _, _, _ => throw .outOfFuel
  | fuel + 1, r, g, st => do
    let c ← lift (w.circuit r)
    match c.gateMap g with
    | none => throw (.unknownGate g)
    | some (.input _) => pure st
    | some (.const v) => do
      tick (κ r g)
      pure (st.record c g v)
    | some (.not x) => do
      tick (κ r g)
      let st ← ensure (evalGate κ w fuel r) x st
      let b ← lift (st.bit x)
      let st ← lift (st.release x)
      pure (st.record c g (!b))
    | some (.xor l r') => do
      tick (κ r g)
      evalBinary c (evalGate κ w fuel r) Bool.xor g l r' st
    | some (.and l r') => do
      tick (κ r g)
      evalBinary c (evalGate κ w fuel r) Bool.and g l r' st
    | some (.or l r') => do
      tick (κ r g)
      evalBinary c (evalGate κ w fuel r) Bool.or g l r' st
    | some (.module _ outLen ids outIndex mid) => do
      tick (κ r (g - outIndex))
      let (bits, st) ← collectBits (evalGate κ w fuel r) ids st
      match w.module? c mid with
      | none => throw (.unknownModule mid)
      | some mr => do
        let mc ← lift (w.circuit mr)
        let outs ← evalOutputWith mc (evalGate κ w fuel mr) bits
        let st ← lift (releaseAll ids st)
        if g < outIndex then throw (.panic .underflow)
        else lift (recordOutputs c (g - outIndex) outs 0 outLen st)

/-- `NXAOBoolEvaluator::new(r).eval_output(inputs)` — src/evaluator.rs:33-61, 65-67 -/
def evalOutput (κ : Ref → GateId → Nat) (w : World) (fuel : Nat) (r : Ref) (inputs : List Bool) : T (List Bool) := do
  let c ← lift (w.circuit r)
  evalOutputWith c (evalGate κ w fuel r) inputs

/-- how long an evaluation takes -/
def time (κ : Ref → GateId → Nat) (w : World) (fuel : Nat) (r : Ref) (inputs : List Bool) : Nat :=
  (evalOutput κ w fuel r inputs 0).2

end CC.Ticks
