import Verif.Model.Bristol

/-!
# `BristolReader::read` over a source of bytes

`Model/Bristol.lean` has the reader over a text. Here the source is a sequence of bytes in which reading may fail at any
place, as `R: BufRead` allows, and lines need not be valid UTF-8. `BufRead::lines` and `str::from_utf8` belong to the
standard library; their behaviour is modelled from the documentation and source of std.

Simplification: a source that reports its end does not continue after it.
-/

namespace CC.Bristol.Bytes

/-- errors of the reader: `std::io::Error` (of the source; or `InvalidData` from `BufRead::lines`), or one of the errors of
`Model/Basic.lean` — src/bristol_converter.rs:11-35 -/
inductive BErr where
  | io
  | invalidUtf8
  | other (e : Err)
deriving DecidableEq, Repr

/-- a continuation byte -/
def isCont (b : Nat) : Bool := 0x80 ≤ b && b < 0xC0

/-- first two bytes of a three-byte sequence: no overlong form, no surrogate (std, `str::from_utf8`) -/
def three (b0 b1 : Nat) : Bool :=
  (b0 == 0xE0 && 0xA0 ≤ b1 && b1 < 0xC0) || (0xE1 ≤ b0 && b0 < 0xED && isCont b1) ||
  (b0 == 0xED && 0x80 ≤ b1 && b1 < 0xA0) || (0xEE ≤ b0 && b0 < 0xF0 && isCont b1)

/-- first two bytes of a four-byte sequence: no overlong form, nothing above 0x10FFFF (std, `str::from_utf8`) -/
def four (b0 b1 : Nat) : Bool :=
  (b0 == 0xF0 && 0x90 ≤ b1 && b1 < 0xC0) || (0xF1 ≤ b0 && b0 < 0xF4 && isCont b1) ||
  (b0 == 0xF4 && 0x80 ≤ b1 && b1 < 0x90)

/-- `str::from_utf8` (std): `none` is an error -/
def decode : List Nat → Option (List Char)
  | [] => some []
  | b0 :: bs =>
    if b0 < 0x80 then (decode bs).map (Char.ofNat b0 :: ·)
    else
      match bs with
      | [] => none
      | b1 :: bs =>
        if 0xC2 ≤ b0 ∧ b0 < 0xE0 ∧ isCont b1 then
          (decode bs).map (Char.ofNat ((b0 - 0xC0) * 64 + (b1 - 0x80)) :: ·)
        else
          match bs with
          | [] => none
          | b2 :: bs =>
            if three b0 b1 ∧ isCont b2 then
              (decode bs).map (Char.ofNat ((b0 - 0xE0) * 4096 + (b1 - 0x80) * 64 + (b2 - 0x80)) :: ·)
            else
              match bs with
              | [] => none
              | b3 :: bs =>
                if four b0 b1 ∧ isCont b2 ∧ isCont b3 then
                  (decode bs).map (Char.ofNat ((b0 - 0xF0) * 262144 + (b1 - 0x80) * 4096 + (b2 - 0x80) * 64
                    + (b3 - 0x80)) :: ·)
                else none

/-- what reading a line gives -/
abbrev Item := Except BErr (List Char)

/-- the bytes of a line as a string (std, `BufRead::read_line`) -/
def lineItem (bs : List Nat) : Item :=
  match decode bs with
  | none => .error .invalidUtf8
  | some cs => .ok cs

/-- the same for a line that ended with `\n`: one `\r` before it is dropped (std, `Lines::next`) -/
def lineItemNl (bs : List Nat) : Item :=
  match decode bs with
  | none => .error .invalidUtf8
  | some cs => .ok (stripCR cs.reverse).reverse

/-- `BufRead::lines` (std) called at src/bristol_converter.rs:58. `none` in the source is a failing read
(`ErrorKind::Interrupted` is retried inside std and not an event here): what was read of the line is lost, and the next
call continues behind it. `cur` is the current line, reversed. -/
def itemsAux (cur : List Nat) : List (Option Nat) → List Item
  | [] => if cur.isEmpty then [] else [lineItem cur.reverse]
  | none :: src => .error .io :: itemsAux [] src
  | some b :: src => if b = 10 then lineItemNl cur.reverse :: itemsAux [] src else itemsAux (b :: cur) src

/-- `BufRead::lines` -/
def itemsOf (src : List (Option Nat)) : List Item := itemsAux [] src

/-- computations of the reader -/
def B (α : Type) := World → Except BErr α × World

instance : Monad B where
  pure a := fun w => (.ok a, w)
  bind x f := fun w =>
    match x w with
    | (.ok a, w') => f a w'
    | (.error e, w') => (.error e, w')

/-- `?` on a `Result` of `Model/Bristol.lean` -/
def B.of {α : Type} (x : M α) : B α := fun w =>
  match x w with
  | (.ok a, w') => (.ok a, w')
  | (.error e, w') => (.error (.other e), w')

def B.throw {α : Type} (e : BErr) : B α := fun w => (.error e, w)

/-- `.next().ok_or(NotFoundLine(n))??` — src/bristol_converter.rs:59, 69, 86 -/
def nextLine (n : Nat) : List Item → B (List Char × List Item)
  | [] => B.throw (.other (.notFoundLine n))
  | .error e :: _ => B.throw e
  | .ok l :: ls => pure (l, ls)

/-- `let _ = .next().ok_or(NotFoundLine(n))?` — src/bristol_converter.rs:102: only one `?`, so the line may be an error -/
def skipLine (n : Nat) : List Item → B (List Item)
  | [] => B.throw (.other (.notFoundLine n))
  | _ :: ls => pure ls

/-- The gate-line loop — src/bristol_converter.rs:104-163, with `result?` (line 105). -/
def readGates (r : Ref) (gow : GOW) : List Item → B GOW
  | [] => pure gow
  | .error e :: _ => B.throw e
  | .ok l :: ls =>
    if l.isEmpty then pure gow
    else do
      let (gs, ws, op) ← B.of (lift (readGateTokens gow (tokensOf l)))
      let gow ← B.of (readGateOp r gow gs ws op)
      readGates r gow ls

/-- `BristolReader::read` — src/bristol_converter.rs:53-170 -/
def readItems (r : Ref) (gow : GOW) (ls : List Item) : B GOW := do
  let (l1, ls) ← nextLine 1 ls
  let (_, ts) ← B.of (lift (nextUsize (tokensOf l1)))
  let (numWire, _) ← B.of (lift (nextUsize ts))
  let (l2, ls) ← nextLine 2 ls
  let (numInput, ts) ← B.of (lift (nextUsize (tokensOf l2)))
  let gow ← B.of (readInputs r gow 0 numInput ts)
  let (l3, ls) ← nextLine 3 ls
  let (numOutput, ts) ← B.of (lift (nextUsize (tokensOf l3)))
  let outSum ← B.of (lift (readOutputLens 0 numOutput ts))
  let ls ← skipLine 4 ls
  let gow ← readGates r gow ls
  if numWire < outSum then B.throw (.other (.panic .underflow))
  else do
    B.of (readFinal r gow (rangeFromTo (numWire - outSum) numWire))
    pure gow

/-- `BristolReader::read` on a source of bytes -/
def read (r : Ref) (gow : GOW) (src : List (Option Nat)) : B GOW := readItems r gow (itemsOf src)

end CC.Bristol.Bytes
