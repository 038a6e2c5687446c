import Verif.Model.Evaluator
import Verif.Model.Mult64
import Verif.Model.Aes128
import Verif.Model.Utils

/-!
# The repository's tests of the bundled circuits and of `utils.rs`, with what they draw as an argument

`unwrap` on an error and a failed assertion are errors of the program. The tests draw `[rng.gen(); 64]`, that is one random
bit for each operand; here the operands are arbitrary. The width of the comparisons is 64 as in the tests.
-/

namespace CC.Tests
open M Bundled Utils

/-- `evaluator.eval_output(&ins).unwrap()`, which leaves the heap as it is -/
def eval (fuel : Nat) (r : Ref) (ins : List Bool) : M (List Bool) := fun w => (evalOutput w fuel r ins, w)

/-- `for i in i..i + k { assert_eq!(a[i], b[i]) }` -/
def assertSame (a b : List Bool) : (i k : Nat) → M Unit
  | _, 0 => pure ()
  | i, k + 1 =>
    match a[i]?, b[i]? with
    | some x, some y => if x = y then assertSame a b (i + 1) k else fun w => (.error (.panic .assertFailed), w)
    | _, _ => fun w => (.error (.panic .indexOutOfBounds), w)

/-- The first two lines of each test: a circuit on a new storage, and one of the build functions. -/
def opened (build : Ref → M Unit) : M Ref := do
  let st ← newStorage
  let r ← newCircuit st
  build r
  pure r

/-- The tests `bristol_adder64` and `bristol_mult2_64` differ in the build function only: the first 64 output bits do not
change when the operands are exchanged. -/
def exchange (build : Ref → M Unit) (fuel : Nat) (inputL inputR : List Bool) : M Unit := do
  let r ← opened build
  let output1 ← eval fuel r (inputL ++ inputR)
  let output2 ← eval fuel r (inputR ++ inputL)
  assertSame output1 output2 0 64

/-- `bristol_adder64` — src/evaluator.rs:470-487. -/
def adder64 : Nat → List Bool → List Bool → M Unit := exchange buildAdder64

/-- `bristol_mult2_64` — src/evaluator.rs:503-520. -/
def mult64 : Nat → List Bool → List Bool → M Unit := exchange buildMult64

/-- `bristol_neg64` — src/evaluator.rs:489-501: negating twice gives the input. -/
def neg64 (fuel : Nat) (input : List Bool) : M Unit := do
  let r ← opened buildNeg64
  let output1 ← eval fuel r input
  let output2 ← eval fuel r output1
  assertSame input output2 0 64

/-- `aes128` — src/evaluator.rs:618-628: the key comes first, and only success is checked. Returns what the test ignores. -/
def aes128 (fuel : Nat) (key msg : List Bool) : M (List Bool) := do
  let r ← opened buildAes128
  eval fuel r (key ++ msg)

/-- `le_convert_test` — src/utils.rs:77-84. -/
def leConvert (random : List Nat) : Except Err Bool := do
  let bits := bytes2bitsLe random
  let bytes ← bits2bytesLe bits
  pure (bits.length == 32 && random == bytes)

/-- `be_convert_test` — src/utils.rs:87-94. -/
def beConvert (random : List Nat) : Except Err Bool := do
  let bits := bytes2bitsBe random
  let bytes ← bits2bytesBe bits
  pure (bits.length == 32 && random == bytes)

/-- `hex_test` — src/utils.rs:97-103. -/
def hex (random : List Nat) : Except Err Bool := do
  let bytes ← hex2bytes (bytes2hex random)
  pure (random == bytes)

end CC.Tests
