import Verif.Model.Bristol

/-!
# The sums of a Bristol header on 64-bit machine numbers

`Model/Bristol.lean` adds the declared widths without bound. Here the same reader is given with the additions and the
subtraction as a parameter: `Arith.debug` panics (debug and test builds), `Arith.release` wraps (release builds).
Everything else is as in `Model/Bristol.lean`; the counters of the circuit itself are the subject of `Model/Checked` and
`Model/Wrapping`.
-/

namespace CC.Bristol
open CC

/-- addition and subtraction of `usize` -/
structure Arith where
  add : Nat → Nat → Except Err Nat
  sub : Nat → Nat → Except Err Nat

/-- no bound on sums; the arithmetic of `Model/Bristol.lean` -/
def Arith.ideal : Arith where
  add a b := .ok (a + b)
  sub a b := if a < b then .error (.panic .underflow) else .ok (a - b)

/-- with overflow checks -/
def Arith.debug : Arith where
  add a b := if a + b < 2 ^ 64 then .ok (a + b) else .error (.panic .overflow)
  sub a b := if a < b then .error (.panic .underflow) else .ok (a - b)

/-- without overflow checks -/
def Arith.release : Arith where
  add a b := .ok ((a + b) % 2 ^ 64)
  sub a b := .ok ((a + 2 ^ 64 - b) % 2 ^ 64)

/-- The loop `for j in 0..input_bit` — src/bristol_converter.rs:81-83; the key `input_len_sum + j` is computed before
the input is made. `j` is the next value, `k` iterations remain. -/
def readInputBitsA (A : Arith) (r : Ref) (gow : GOW) (sum : Nat) : (j k : Nat) → M GOW
  | _, 0 => pure gow
  | j, k + 1 => do
    let key ← lift (A.add sum j)
    let g ← input r
    readInputBitsA A r (gow.insert key g) sum (j + 1) k

/-- The loop over the declared inputs — src/bristol_converter.rs:76-85. -/
def readInputsA (A : Arith) (r : Ref) (gow : GOW) (sum : Nat) : Nat → List (List Char) → M GOW
  | 0, _ => pure gow
  | k + 1, ts => do
    let (bits, ts) ← lift (nextUsize ts)
    let gow ← readInputBitsA A r gow sum 0 bits
    let sum ← lift (A.add sum bits)
    readInputsA A r gow sum k ts

/-- The loop over the declared outputs — src/bristol_converter.rs:92-99. -/
def readOutputLensA (A : Arith) (sum : Nat) : Nat → List (List Char) → Except Err Nat
  | 0, _ => .ok sum
  | k + 1, ts => do
    let (bits, ts) ← nextUsize ts
    let sum ← A.add sum bits
    readOutputLensA A sum k ts

/-- `BristolReader::read` — src/bristol_converter.rs:53-170. A range whose start is beyond its end is empty
(`rangeFromTo`). -/
def readA (A : Arith) (r : Ref) (gow : GOW) (text : List Char) : M GOW := do
  let (l1, ls) ← lift (nextLine 1 (linesOf text))
  let (_, ts) ← lift (nextUsize (tokensOf l1))
  let (numWire, _) ← lift (nextUsize ts)
  let (l2, ls) ← lift (nextLine 2 ls)
  let (numInput, ts) ← lift (nextUsize (tokensOf l2))
  let gow ← readInputsA A r gow 0 numInput ts
  let (l3, ls) ← lift (nextLine 3 ls)
  let (numOutput, ts) ← lift (nextUsize (tokensOf l3))
  let outSum ← lift (readOutputLensA A 0 numOutput ts)
  let (_, ls) ← lift (nextLine 4 ls)
  let gow ← readGates r gow ls
  let start ← lift (A.sub numWire outSum)
  readFinal r gow (rangeFromTo start numWire)
  pure gow

end CC.Bristol
