import Verif.Model.TestsBundled

/-!
# The repository's tests with fixed inputs

Those of `src/bool_circuit.rs` and `src/evaluator.rs`; the tests of `src/bristol_converter.rs` are in `Props/RoundTrip.lean`.
As in `Model/TestsBundled.lean`, `unwrap` on an error and a failed assertion are errors of the program.
-/

namespace CC.Tests.Fixed
open M

/-- The circuit of the tests `input1_output1` — src/bool_circuit.rs:886-888, src/evaluator.rs:277-279. -/
def wire : M Ref := do
  let st ← newStorage
  let r ← newCircuit st
  let x ← input r
  let _ ← output r x
  pure r

/-- `input1_not_ouput1` — src/bool_circuit.rs:895-898, src/evaluator.rs:293-296. -/
def not : M Ref := do
  let st ← newStorage
  let r ← newCircuit st
  let x ← input r
  let g ← CC.not r x
  let _ ← output r g
  pure r

/-- `input_xor_output1`, `input2_and_output1` and `input2_or_output1` differ in the gate only —
src/bool_circuit.rs:905-931, src/evaluator.rs:310-366. -/
def binary (op : Ref → GateId → GateId → M GateId) : M Ref := do
  let st ← newStorage
  let r ← newCircuit st
  let x ← input r
  let y ← input r
  let g ← op r x y
  let _ ← output r g
  pure r

/-- `input3_and_or_output1` — src/bool_circuit.rs:938-944, src/evaluator.rs:388-394. -/
def andOr : M Ref := do
  let st ← newStorage
  let r ← newCircuit st
  let x ← input r
  let y ← input r
  let z ← input r
  let a ← CC.and r x y
  let o ← CC.or r a z
  let _ ← output r o
  pure r

/-- `module_1` — src/evaluator.rs:432-446. The called circuit has a storage of its own. `eq_call[0]` panics if there is no
output. -/
def module1 : M Ref := do
  let st ← newStorage
  let r ← newCircuit st
  let x ← input r
  let y ← input r
  let st' ← newStorage
  let e ← newCircuit st'
  let x' ← input e
  let y' ← input e
  let g ← CC.xor e x' y'
  let h ← CC.not e g
  let _ ← output e h
  let mid ← registerModule r e
  let call ← CC.module r mid [x, y]
  let o ← idx call 0
  let _ ← output r o
  pure r

/-- `let output = evaluator.eval_output(&ins).unwrap(); assert_eq!(output[0], b)` -/
def check (fuel : Nat) (r : Ref) (ins : List Bool) (b : Bool) : M Unit := do
  let outs ← eval fuel r ins
  let x ← idx outs 0
  if x = b then pure () else fun w => (.error (.panic .assertFailed), w)

/-- the checks of one test of `evaluator.rs` -/
def evaluated (build : M Ref) (fuel : Nat) (cases : List (List Bool × Bool)) : M Unit := do
  let r ← build
  foldList (fun _ (p : List Bool × Bool) => check fuel r p.1 p.2) () cases

/-- `assert_eq!(circuit.input_len(), i); assert_eq!(circuit.output_len(), o)` -/
def assertLens (r : Ref) (i o : Nat) : M Unit := fun w =>
  match w.circs[r]? with
  | none => (.error .dangling, w)
  | some c => if c.inputLen = i ∧ c.outputLen = o then (.ok (), w) else (.error (.panic .assertFailed), w)

/-- one test of `bool_circuit.rs` -/
def counted (build : M Ref) (i o : Nat) : M Unit := do
  let r ← build
  assertLens r i o

/-- The tests of src/evaluator.rs:276-466 up to those of the bundled circuits, with the inputs and the expected output bits in the
order of the code. -/
def evaluatorTests : List (M Ref × List (List Bool × Bool)) :=
  [(wire, [([true], true), ([false], false)]),
   (not, [([true], false), ([false], true)]),
   (binary CC.xor, [([true, true], false), ([true, false], true), ([false, true], true), ([false, false], false)]),
   (binary CC.and, [([true, true], true), ([true, false], false), ([false, true], false), ([false, false], false)]),
   (binary CC.or, [([true, true], true), ([true, false], true), ([false, true], true), ([false, false], false)]),
   (andOr, [([true, true, true], true), ([true, true, false], true), ([true, false, true], true), ([true, false, false], false),
     ([false, true, true], true), ([false, true, false], false), ([false, false, true], true), ([false, false, false], false)]),
   (module1, [([true, true], true), ([true, false], false), ([false, true], false), ([false, false], true)])]

/-- The tests of src/bool_circuit.rs:885-947, with the expected numbers of inputs and outputs. -/
def builderTests : List (M Ref × Nat × Nat) :=
  [(wire, 1, 1), (not, 1, 1), (binary CC.xor, 2, 1), (binary CC.and, 2, 1), (binary CC.or, 2, 1), (andOr, 3, 1)]

end CC.Tests.Fixed
