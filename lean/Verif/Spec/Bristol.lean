import Verif.Model.Bristol
import Verif.Spec.All2

/-!
# Spec: Bristol texts and their meaning

What a text says (`Lines`, `Layout`, `Numeral`, `Text`) is given by relations between the text and its parts, not by a
parser. The meaning of a gate list (`exec`) is execution line by line. `White` space is what the Rust standard library
says it is (`CC.Bristol.isWhite`).
-/

namespace CC.Spec.Bristol
open CC.Bristol (isWhite)

abbrev Str := List Char

/-! ### characters, numbers, tokens, lines -/

/-- value of decimal digits, most significant first -/
def digitsVal (ds : Str) : Nat := ds.foldl (fun a c => 10 * a + (c.toNat - '0'.toNat)) 0

/-- `t` denotes the 64-bit number `n`: an optional plus sign followed by decimal digits -/
def Numeral (t : Str) (n : Nat) : Prop :=
  ∃ ds : Str, (t = ds ∨ t = '+' :: ds) ∧ ds ≠ [] ∧ (∀ c ∈ ds, '0' ≤ c ∧ c ≤ '9') ∧ digitsVal ds = n ∧ n < 2 ^ 64

/-- `t` denotes no number -/
def NotNumeral (t : Str) : Prop := ∀ n, ¬ Numeral t n

/-- `line` consists of the tokens `ts`, surrounded and separated by white space -/
inductive Layout : List Str → Str → Prop where
  | nil {s : Str} : (∀ c ∈ s, isWhite c = true) → Layout [] s
  | cons {s t rest : Str} {ts : List Str} : (∀ c ∈ s, isWhite c = true) → t ≠ [] → (∀ c ∈ t, isWhite c = false) →
      (∀ c, rest.head? = some c → isWhite c = true) → Layout ts rest → Layout (t :: ts) (s ++ t ++ rest)

/-- `text` consists of the lines `ls`; a line ends with `\n` or `\r\n`, the last line may end with the text -/
inductive Lines : List Str → Str → Prop where
  | nil : Lines [] []
  | last {l : Str} : l ≠ [] → '\n' ∉ l → Lines [l] l
  | lf {l text : Str} {ls : List Str} : '\n' ∉ l → l.getLast? ≠ some '\r' → Lines ls text →
      Lines (l :: ls) (l ++ ['\n'] ++ text)
  | crlf {l text : Str} {ls : List Str} : '\n' ∉ l → Lines ls text → Lines (l :: ls) (l ++ ['\r', '\n'] ++ text)

/-! ### gate lists -/

/-- operations -/
inductive GOp where
  | inv | eq | eqw | xor | and | or
deriving DecidableEq, Repr

def GOp.name : GOp → Str
  | .inv => "INV".toList
  | .eq => "EQ".toList
  | .eqw => "EQW".toList
  | .xor => "XOR".toList
  | .and => "AND".toList
  | .or => "OR".toList

def GOp.arity : GOp → Nat
  | .inv | .eq | .eqw => 1
  | .xor | .and | .or => 2

def GOp.fn : GOp → List Bool → Option Bool
  | .inv, [a] => some (!a)
  | .eq, [a] => some a
  | .eqw, [a] => some a
  | .xor, [a, b] => some (a != b)
  | .and, [a, b] => some (a && b)
  | .or, [a, b] => some (a || b)
  | _, _ => none

/-- a gate line: wire `out` gets the value of `op` on the wires `args` -/
structure GLine where
  op : GOp
  args : List Nat
  out : Nat
deriving DecidableEq, Repr

/-- the wires that have a value, with their values -/
abbrev Wires := Nat → Option Bool

/-- the values of some wires, if all have one -/
def vals (e : Wires) : List Nat → Option (List Bool)
  | [] => some []
  | x :: xs =>
    match e x, vals e xs with
    | some b, some bs => some (b :: bs)
    | _, _ => none

/-- execute one line -/
def GLine.exec (l : GLine) (e : Wires) : Wires := fun x => if x = l.out then (vals e l.args).bind l.op.fn else e x

/-- execute the lines in order -/
def exec (ls : List GLine) (e : Wires) : Wires := ls.foldl (fun e l => l.exec e) e

/-- wires `0, 1, …` carry the bits -/
def inputWires (bits : List Bool) : Wires := fun x => bits[x]?

/-! ### files -/

/-- contents of a Bristol file; `ins` and `outs` are the widths of the inputs and outputs -/
structure File where
  numGate : Nat
  numWire : Nat
  ins : List Nat
  outs : List Nat
  gates : List GLine
deriving DecidableEq

def File.numIn (f : File) : Nat := f.ins.sum

def File.numOut (f : File) : Nat := f.outs.sum

/-- the `i`-th output bit is the value of wire `numWire - numOut + i` -/
def File.output (f : File) (bits : List Bool) (i : Nat) : Option Bool :=
  exec f.gates (inputWires bits) (f.numWire - f.numOut + i)

/-- starting from defined wires `P`, every line has the right number of operands and they are defined -/
def Uses (P : Nat → Prop) : List GLine → Prop
  | [] => True
  | l :: ls => l.args.length = l.op.arity ∧ (∀ x ∈ l.args, P x) ∧ Uses (fun x => P x ∨ x = l.out) ls

/-- wires defined by inputs `P` and lines `ls` -/
def Defined (P : Nat → Prop) (ls : List GLine) (x : Nat) : Prop := P x ∨ ∃ l ∈ ls, l.out = x

/-- gates use wires defined earlier, and the output wires are defined -/
structure File.Valid (f : File) : Prop where
  uses : Uses (· < f.numIn) f.gates
  room : f.numOut ≤ f.numWire
  outs : ∀ x, f.numWire - f.numOut ≤ x → x < f.numWire → Defined (· < f.numIn) f.gates x

/-! ### texts of files -/

/-- a line of two numbers (further tokens are ignored) -/
def TwoNumbers (l : Str) (a b : Nat) : Prop :=
  ∃ s t rest, Layout (s :: t :: rest) l ∧ Numeral s a ∧ Numeral t b

/-- a line with the length of `ns` and the numbers `ns` (further tokens are ignored) -/
def CountedNumbers (l : Str) (ns : List Nat) : Prop :=
  ∃ s ts rest, Layout (s :: ts ++ rest) l ∧ Numeral s ns.length ∧ All2 Numeral ts ns

/-- a gate line: number of operands, `1`, operands, output, name (further tokens are ignored) -/
def GateText (l : Str) (g : GLine) : Prop :=
  ∃ a b as o rest, Layout (a :: b :: as ++ o :: g.op.name :: rest) l ∧ Numeral a g.args.length ∧ Numeral b 1 ∧
    All2 Numeral as g.args ∧ Numeral o g.out

/-- `text` is a text of file `f`: three header lines, one skipped line, and gate lines up to an empty line or the end -/
def Text (f : File) (text : Str) : Prop :=
  ∃ l1 l2 l3 l4 ls tail, Lines (l1 :: l2 :: l3 :: l4 :: (ls ++ tail)) text ∧ TwoNumbers l1 f.numGate f.numWire ∧
    CountedNumbers l2 f.ins ∧ CountedNumbers l3 f.outs ∧ All2 GateText ls f.gates ∧ (∀ l, tail.head? = some l → l = [])

/-! ### malformed texts: the first defect and the error that reports it -/

/-- reading `k` numbers from the tokens fails -/
inductive BadNums : Nat → List Str → Err → Prop where
  | missing {k} : BadNums (k + 1) [] .lineSplit
  | notNum {k t ts} : NotNumeral t → BadNums (k + 1) (t :: ts) .parseInt
  | next {k t n ts e} : Numeral t n → BadNums k ts e → BadNums (k + 1) (t :: ts) e

/-- reading a count and that many numbers fails -/
inductive BadCounted : List Str → Err → Prop where
  | count {ts e} : BadNums 1 ts e → BadCounted ts e
  | items {t k ts e} : Numeral t k → BadNums k ts e → BadCounted (t :: ts) e

/-- reading `k` operand wires fails; `P` are the defined wires -/
inductive BadOperands (P : Nat → Prop) : Nat → List Str → Err → Prop where
  | missing {k} : BadOperands P (k + 1) [] .lineSplit
  | notNum {k t ts} : NotNumeral t → BadOperands P (k + 1) (t :: ts) .parseInt
  | unknown {k t n ts} : Numeral t n → ¬ P n → BadOperands P (k + 1) (t :: ts) (.unknownWire n)
  | next {k t n ts e} : Numeral t n → P n → BadOperands P k ts e → BadOperands P (k + 1) (t :: ts) e

/-- reading a gate line fails -/
inductive BadGate (P : Nat → Prop) : List Str → Err → Prop where
  | counts {ts e} : BadNums 2 ts e → BadGate P ts e
  | operands {a b n m ts e} : Numeral a n → Numeral b m → BadOperands P n ts e → BadGate P (a :: b :: ts) e
  | outs {a b m as ns ts e} : Numeral a ns.length → Numeral b m → All2 Numeral as ns → (∀ x ∈ ns, P x) →
      BadNums m ts e → BadGate P (a :: b :: as ++ ts) e
  | noName {a b as ns bs ms} : Numeral a ns.length → Numeral b ms.length → All2 Numeral as ns → (∀ x ∈ ns, P x) →
      All2 Numeral bs ms → BadGate P (a :: b :: as ++ bs) .lineSplit
  | name {a b as ns bs ms t ts} : Numeral a ns.length → Numeral b ms.length → All2 Numeral as ns → (∀ x ∈ ns, P x) →
      All2 Numeral bs ms → (∀ op : GOp, t ≠ op.name) → BadGate P (a :: b :: as ++ bs ++ t :: ts) (.notSupportedGate t)

/-- the first defect of `text` is reported by error `e` -/
inductive Malformed (text : Str) : Err → Prop where
  | line1 : Lines [] text → Malformed text (.notFoundLine 1)
  | head {l1 ls ts e} : Lines (l1 :: ls) text → Layout ts l1 → BadNums 2 ts e → Malformed text e
  | line2 {l1 a b} : Lines [l1] text → TwoNumbers l1 a b → Malformed text (.notFoundLine 2)
  | ins {l1 l2 ls a b ts e} : Lines (l1 :: l2 :: ls) text → TwoNumbers l1 a b → Layout ts l2 → BadCounted ts e →
      Malformed text e
  | line3 {l1 l2 a b is} : Lines [l1, l2] text → TwoNumbers l1 a b → CountedNumbers l2 is →
      Malformed text (.notFoundLine 3)
  | outs {l1 l2 l3 ls a b is ts e} : Lines (l1 :: l2 :: l3 :: ls) text → TwoNumbers l1 a b → CountedNumbers l2 is →
      Layout ts l3 → BadCounted ts e → Malformed text e
  | line4 {l1 l2 l3 a b is os} : Lines [l1, l2, l3] text → TwoNumbers l1 a b → CountedNumbers l2 is →
      CountedNumbers l3 os → Malformed text (.notFoundLine 4)
  | gate {l1 l2 l3 l4 ls l rest a b is os gs ts e} : Lines (l1 :: l2 :: l3 :: l4 :: (ls ++ l :: rest)) text →
      TwoNumbers l1 a b → CountedNumbers l2 is → CountedNumbers l3 os → All2 GateText ls gs →
      Uses (· < is.sum) gs → l ≠ [] → Layout ts l → BadGate (Defined (· < is.sum) gs) ts e → Malformed text e

end CC.Spec.Bristol
