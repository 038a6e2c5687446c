import Verif.Spec.Bristol

/-!
# Spec: what the reader makes of any text

`Spec/Bristol.lean` describes texts with exact gate lines. The reader is more lenient: a gate line may list more operands or
output wires than its operation has, and only the first ones are used. `Accepts`, `Rejects` and `Panics` describe the
three things that can happen to any text at all. As in `Spec/Bristol.lean` they are relations between the text and its parts.
-/

namespace CC.Spec.Bristol

/-- a gate line with all its operands and output wires -/
structure Row where
  op : GOp
  args : List Nat
  outs : List Nat
deriving DecidableEq, Repr

/-- the tokens of a row: number of operands, number of output wires, operands, output wires, name; the rest is ignored -/
def RowTokens (ts : List Str) (row : Row) : Prop :=
  ∃ a b as bs rest, ts = a :: b :: as ++ bs ++ row.op.name :: rest ∧ Numeral a row.args.length ∧
    Numeral b row.outs.length ∧ All2 Numeral as row.args ∧ All2 Numeral bs row.outs

/-- the text of a row -/
def RowText (l : Str) (row : Row) : Prop := ∃ ts, Layout ts l ∧ RowTokens ts row

/-- there are enough operands and an output wire -/
def Row.Enough (row : Row) : Prop := row.op.arity ≤ row.args.length ∧ row.outs ≠ []

/-- what a row means: surplus operands and output wires are ignored -/
def Row.line (row : Row) : GLine := ⟨row.op, row.args.take row.op.arity, row.outs.headD 0⟩

/-- starting from defined wires `P`, every row has enough operands and outputs, and all its operands (also the
surplus ones) are defined -/
def RowsUse (P : Nat → Prop) : List Row → Prop
  | [] => True
  | row :: rows => row.Enough ∧ (∀ x ∈ row.args, P x) ∧ RowsUse (fun x => P x ∨ x = row.line.out) rows

/-- the header, and the lines after the skipped one -/
def Header (text : Str) (numGate numWire : Nat) (ins outs : List Nat) (ls : List Str) : Prop :=
  ∃ l1 l2 l3 l4, Lines (l1 :: l2 :: l3 :: l4 :: ls) text ∧ TwoNumbers l1 numGate numWire ∧
    CountedNumbers l2 ins ∧ CountedNumbers l3 outs

/-- header and all gate lines are fine: `f` is what they say -/
def Parses (f : File) (text : Str) : Prop :=
  ∃ ls tail rows, Header text f.numGate f.numWire f.ins f.outs (ls ++ tail) ∧ All2 RowText ls rows ∧
    RowsUse (· < f.numIn) rows ∧ f.gates = rows.map Row.line ∧ (∀ l, tail.head? = some l → l = [])

/-- the text is accepted as file `f` -/
structure Accepts (f : File) (text : Str) : Prop where
  parses : Parses f text
  room : f.numOut ≤ f.numWire
  outs : ∀ x, f.numWire - f.numOut ≤ x → x < f.numWire → Defined (· < f.numIn) f.gates x

/-- the first defect of `text` is reported by error `e` -/
inductive Rejects (text : Str) : Err → Prop where
  | line1 : Lines [] text → Rejects text (.notFoundLine 1)
  | head {l1 ls ts e} : Lines (l1 :: ls) text → Layout ts l1 → BadNums 2 ts e → Rejects text e
  | line2 {l1 a b} : Lines [l1] text → TwoNumbers l1 a b → Rejects text (.notFoundLine 2)
  | ins {l1 l2 ls a b ts e} : Lines (l1 :: l2 :: ls) text → TwoNumbers l1 a b → Layout ts l2 → BadCounted ts e →
      Rejects text e
  | line3 {l1 l2 a b is} : Lines [l1, l2] text → TwoNumbers l1 a b → CountedNumbers l2 is →
      Rejects text (.notFoundLine 3)
  | outs {l1 l2 l3 ls a b is ts e} : Lines (l1 :: l2 :: l3 :: ls) text → TwoNumbers l1 a b → CountedNumbers l2 is →
      Layout ts l3 → BadCounted ts e → Rejects text e
  | line4 {l1 l2 l3 a b is os} : Lines [l1, l2, l3] text → TwoNumbers l1 a b → CountedNumbers l2 is →
      CountedNumbers l3 os → Rejects text (.notFoundLine 4)
  | gate {ls l rest a b is os rows ts e} : Header text a b is os (ls ++ l :: rest) → All2 RowText ls rows →
      RowsUse (· < is.sum) rows → l ≠ [] → Layout ts l → BadGate (Defined (· < is.sum) (rows.map Row.line)) ts e →
      Rejects text e

/-- the reader panics -/
inductive Panics (text : Str) : Panic → Prop where
  /-- a gate line has too few operands or no output wire -/
  | row {ls l rest a b is os rows row} : Header text a b is os (ls ++ l :: rest) → All2 RowText ls rows →
      RowsUse (· < is.sum) rows → RowText l row → (∀ x ∈ row.args, Defined (· < is.sum) (rows.map Row.line) x) →
      ¬ row.Enough → Panics text .indexOutOfBounds
  /-- more outputs than wires -/
  | room {f} : Parses f text → f.numWire < f.numOut → Panics text .underflow
  /-- an output wire has no value -/
  | output {f x} : Parses f text → f.numOut ≤ f.numWire → f.numWire - f.numOut ≤ x → x < f.numWire →
      ¬ Defined (· < f.numIn) f.gates x → Panics text .missingKey

/-! ### sums that do not fit in 64 bits -/

/-- the first `k` tokens begin with numbers that, added to `s`, reach `2^64` -/
inductive Exceeds : Nat → Nat → List Str → Prop where
  | now {s k t n ts} : Numeral t n → 2 ^ 64 ≤ s + n → Exceeds s (k + 1) (t :: ts)
  | later {s k t n ts} : Numeral t n → s + n < 2 ^ 64 → Exceeds (s + n) k ts → Exceeds s (k + 1) (t :: ts)

/-- the widths declared by line `l` exceed 64 bits -/
def ExceedsLine (l : Str) : Prop := ∃ s k ts, Layout (s :: ts) l ∧ Numeral s k ∧ Exceeds 0 k ts

/-- the header up to the widths is fine, and the widths of the inputs, or else of the outputs, exceed 64 bits -/
inductive Oversized (text : Str) : Prop where
  | ins {l1 l2 ls a b} : Lines (l1 :: l2 :: ls) text → TwoNumbers l1 a b → ExceedsLine l2 → Oversized text
  | outs {l1 l2 l3 ls a b is} : Lines (l1 :: l2 :: l3 :: ls) text → TwoNumbers l1 a b → CountedNumbers l2 is →
      is.sum < 2 ^ 64 → ExceedsLine l3 → Oversized text

end CC.Spec.Bristol
