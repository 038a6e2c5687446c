import Verif.Model.Basic

/-!
# `src/utils.rs`

Bytes (`u8`) are natural numbers below 256 (`UInt8` is not used so that the arithmetic stays visible).
-/

namespace CC.Utils

/-- `for i in 0..8 { byte += (bits[i] as u8) << i }` — src/utils.rs:9-13. Indexing a chunk shorter than
eight bits panics. -/
def byteOfChunkLe (bits : List Bool) : Except Err Nat :=
  match bits with
  | [b0, b1, b2, b3, b4, b5, b6, b7] =>
    .ok (b0.toNat <<< 0 + b1.toNat <<< 1 + b2.toNat <<< 2 + b3.toNat <<< 3
      + b4.toNat <<< 4 + b5.toNat <<< 5 + b6.toNat <<< 6 + b7.toNat <<< 7)
  | _ => .error (.panic .indexOutOfBounds)

/-- `for i in 0..8 { byte += (bits[i] as u8) << (7 - i) }` — src/utils.rs:29-33. -/
def byteOfChunkBe (bits : List Bool) : Except Err Nat :=
  match bits with
  | [b0, b1, b2, b3, b4, b5, b6, b7] =>
    .ok (b0.toNat <<< 7 + b1.toNat <<< 6 + b2.toNat <<< 5 + b3.toNat <<< 4
      + b4.toNat <<< 3 + b5.toNat <<< 2 + b6.toNat <<< 1 + b7.toNat <<< 0)
  | _ => .error (.panic .indexOutOfBounds)

/-- `bits.chunks(8).map(f).collect()` — src/utils.rs:7, 27. The last chunk may be shorter. -/
def mapChunks (f : List Bool → Except Err Nat) : List Bool → Except Err (List Nat)
  | b0 :: b1 :: b2 :: b3 :: b4 :: b5 :: b6 :: b7 :: rest => do
    let x ← f [b0, b1, b2, b3, b4, b5, b6, b7]
    let xs ← mapChunks f rest
    .ok (x :: xs)
  | [] => .ok []
  | rest => do
    let x ← f rest
    .ok [x]

/-- `bits2bytes_le` — src/utils.rs:6-16. -/
def bits2bytesLe (bits : List Bool) : Except Err (List Nat) := mapChunks byteOfChunkLe bits

/-- `bits2bytes_be` — src/utils.rs:26-36. -/
def bits2bytesBe (bits : List Bool) : Except Err (List Nat) := mapChunks byteOfChunkBe bits

/-- `bytes2bits_le` — src/utils.rs:18-24: `(byte >> i) & 1 == 1` for `i` in `0..8`. -/
def bytes2bitsLe (bytes : List Nat) : List Bool :=
  bytes.flatMap fun byte => (List.range 8).map fun i => (byte >>> i) &&& 1 == 1

/-- `bytes2bits_be` — src/utils.rs:38-48: `(byte >> (7 - i)) & 1 == 1` for `i` in `0..8`. -/
def bytes2bitsBe (bytes : List Nat) : List Bool :=
  bytes.flatMap fun byte => (List.range 8).map fun i => (byte >>> (7 - i)) &&& 1 == 1

/-- lower-case hex digit of a nibble (`hex::encode`, external crate `hex` 0.4.3) -/
def hexDigit (n : Nat) : Char :=
  if n < 10 then Char.ofNat (48 + n) else Char.ofNat (87 + n)

/-- `bytes2hex` = `hex::encode` — src/utils.rs:50-52: two lower-case digits per byte, high nibble first.
The behaviour of the external crate is assumed. -/
def bytes2hex (bytes : List Nat) : List Char :=
  bytes.flatMap fun b => [hexDigit (b / 16), hexDigit (b % 16)]

/-- value of a hex digit, either case (`hex::decode`, external crate) -/
def hexVal (c : Char) : Option Nat :=
  let n := c.toNat
  if 48 ≤ n ∧ n ≤ 57 then some (n - 48)
  else if 97 ≤ n ∧ n ≤ 102 then some (n - 87)
  else if 65 ≤ n ∧ n ≤ 70 then some (n - 55)
  else none

/-- the digit-pair loop of `hex::decode`; `i` is the index of the next character. -/
def hexPairs : Nat → List Char → Except Err (List Nat)
  | i, h :: l :: rest =>
    match hexVal h with
    | none => .error (.hexInvalidChar h i)
    | some hv =>
      match hexVal l with
      | none => .error (.hexInvalidChar l (i + 1))
      | some lv => do
        let bs ← hexPairs (i + 2) rest
        .ok ((hv * 16 + lv) :: bs)
  | _, _ => .ok []

/-- `hex2bytes` = `hex::decode` — src/utils.rs:54-56 (external crate `hex` 0.4.3, behaviour assumed:
odd length is an error, then every character must be a hex digit). Characters stand for ASCII bytes. -/
def hex2bytes (s : List Char) : Except Err (List Nat) :=
  if s.length % 2 ≠ 0 then .error .hexOddLength else hexPairs 0 s

/-- `ext_gcd` — src/utils.rs:58-69. `BigInt` division and remainder truncate towards zero. -/
def extGcd (a b : Int) : Int × Int × Int :=
  if _h : b = 0 then (1, 0, a)
  else
    let q := a.tdiv b
    let r := a.tmod b
    let (s, t, d) := extGcd b r
    (t, s - q * t, d)
termination_by b.natAbs
decreasing_by
  rw [Int.natAbs_tmod]
  exact Nat.mod_lt _ (Int.natAbs_pos.mpr _h)

end CC.Utils
