import Verif.Spec.Verdict
import Verif.Model.Bristol
import Verif.Spec.Valid

/-!
# Spec: what a used reader makes of any text

A reader that has been used before knows gates of some wires. `K` gives the gate of each wire the reader knows, `n` is the number
of gates of the target circuit before the call. As in `Spec/Verdict.lean`, texts are described by relations.
-/

namespace CC.Spec.Bristol

/-- what a reader knows: gates of wires -/
abbrev Known := Nat → Option Nat

/-- wires with a gate before the first gate line: the known ones and the inputs -/
def Start (K : Known) (numIn : Nat) (x : Nat) : Prop := K x ≠ none ∨ x < numIn

/-- header and all gate lines are fine; operands may be known from before -/
def ParsesFrom (K : Known) (f : File) (text : Str) : Prop :=
  ∃ ls tail rows, Header text f.numGate f.numWire f.ins f.outs (ls ++ tail) ∧ All2 RowText ls rows ∧
    RowsUse (Start K f.numIn) rows ∧ f.gates = rows.map Row.line ∧ (∀ l, tail.head? = some l → l = [])

/-- the number of gates a line adds; copies are made by two negations -/
def GOp.gates : GOp → Nat
  | .eq | .eqw => 2
  | _ => 1

/-- the number of gates a file adds -/
def File.size (f : File) : Nat := f.numIn + (f.gates.map fun l => l.op.gates).sum

/-- `x` is an output wire of the file -/
def File.IsOut (f : File) (x : Nat) : Prop := f.numWire - f.numOut ≤ x ∧ x < f.numWire

/-- neither the file nor an earlier text defines wire `x` -/
def Missing (K : Known) (f : File) (x : Nat) : Prop := ¬ Defined (Start K f.numIn) f.gates x

/-- the file does not define wire `x`, and the gate known from before is not in the target circuit -/
def Foreign (K : Known) (n : Nat) (f : File) (x g : Nat) : Prop :=
  K x = some g ∧ ¬ Defined (· < f.numIn) f.gates x ∧ n + f.size ≤ g

/-- the text is accepted as file `f` -/
structure AcceptsFrom (K : Known) (n : Nat) (f : File) (text : Str) : Prop where
  parses : ParsesFrom K f text
  room : f.numOut ≤ f.numWire
  outs : ∀ x, f.IsOut x → ¬ Missing K f x
  own : ∀ x g, f.IsOut x → ¬ Foreign K n f x g

/-- the first defect of `text` is reported by error `e` -/
inductive FailsFrom (K : Known) (n : Nat) (text : Str) : Err → Prop where
  | line1 : Lines [] text → FailsFrom K n text (.notFoundLine 1)
  | head {l1 ls ts e} : Lines (l1 :: ls) text → Layout ts l1 → BadNums 2 ts e → FailsFrom K n text e
  | line2 {l1 a b} : Lines [l1] text → TwoNumbers l1 a b → FailsFrom K n text (.notFoundLine 2)
  | ins {l1 l2 ls a b ts e} : Lines (l1 :: l2 :: ls) text → TwoNumbers l1 a b → Layout ts l2 → BadCounted ts e →
      FailsFrom K n text e
  | line3 {l1 l2 a b is} : Lines [l1, l2] text → TwoNumbers l1 a b → CountedNumbers l2 is →
      FailsFrom K n text (.notFoundLine 3)
  | outs {l1 l2 l3 ls a b is ts e} : Lines (l1 :: l2 :: l3 :: ls) text → TwoNumbers l1 a b → CountedNumbers l2 is →
      Layout ts l3 → BadCounted ts e → FailsFrom K n text e
  | line4 {l1 l2 l3 a b is os} : Lines [l1, l2, l3] text → TwoNumbers l1 a b → CountedNumbers l2 is →
      CountedNumbers l3 os → FailsFrom K n text (.notFoundLine 4)
  | gate {ls l rest a b is os rows ts e} : Header text a b is os (ls ++ l :: rest) → All2 RowText ls rows →
      RowsUse (Start K is.sum) rows → l ≠ [] → Layout ts l → BadGate (Defined (Start K is.sum) (rows.map Row.line)) ts e →
      FailsFrom K n text e
  /-- a gate line has too few operands or no output wire -/
  | row {ls l rest a b is os rows row} : Header text a b is os (ls ++ l :: rest) → All2 RowText ls rows →
      RowsUse (Start K is.sum) rows → RowText l row → (∀ x ∈ row.args, Defined (Start K is.sum) (rows.map Row.line) x) →
      ¬ row.Enough → FailsFrom K n text (.panic .indexOutOfBounds)
  /-- more outputs than wires -/
  | room {f} : ParsesFrom K f text → f.numWire < f.numOut → FailsFrom K n text (.panic .underflow)
  /-- an output wire has no gate, and the earlier output wires are fine -/
  | missing {f x} : ParsesFrom K f text → f.numOut ≤ f.numWire → f.IsOut x → Missing K f x →
      (∀ y g, f.IsOut y → y < x → ¬ Foreign K n f y g) → FailsFrom K n text (.panic .missingKey)
  /-- an output wire has a gate of another circuit, and the earlier output wires are fine -/
  | foreign {f x g} : ParsesFrom K f text → f.numOut ≤ f.numWire → f.IsOut x → Foreign K n f x g →
      (∀ y, f.IsOut y → y < x → ¬ Missing K f y ∧ ∀ g', ¬ Foreign K n f y g') → FailsFrom K n text (.unknownGate g)

/-- the bits of the inputs, on top of known wires -/
def inputsOver (e : Wires) (bits : List Bool) : Wires := fun x => if x < bits.length then bits[x]? else e x

/-- the `i`-th output bit, if the wires known before carry the bits `e` -/
def File.outputFrom (f : File) (e : Wires) (bits : List Bool) (i : Nat) : Option Bool :=
  exec f.gates (inputsOver e bits) (f.numWire - f.numOut + i)

/-- the known wires carry the bits `e`: for each known wire, `e` gives the bit of its gate, and for the others nothing -/
def Carries (w : World) (r : Ref) (K : Known) (ins : List Bool) (e : Wires) : Prop :=
  ∀ x, match K x with
    | some g => ∃ b, e x = some b ∧ Val w r ins g b
    | none => e x = none

/-! ### several texts, one after the other -/

/-- the text is accepted as file `f`, where the wires `P` are defined by earlier texts -/
structure AcceptsAfter (P : Nat → Prop) (f : File) (text : Str) : Prop where
  parses : ∃ ls tail rows, Header text f.numGate f.numWire f.ins f.outs (ls ++ tail) ∧ All2 RowText ls rows ∧
    RowsUse (fun x => P x ∨ x < f.numIn) rows ∧ f.gates = rows.map Row.line ∧ (∀ l, tail.head? = some l → l = [])
  room : f.numOut ≤ f.numWire
  outs : ∀ x, f.IsOut x → Defined (fun x => P x ∨ x < f.numIn) f.gates x

/-- each text is accepted after those before it -/
def Chain (P : Nat → Prop) : List (File × Str) → Prop
  | [] => True
  | (f, t) :: rest => AcceptsAfter P f t ∧ Chain (Defined (fun x => P x ∨ x < f.numIn) f.gates) rest

/-- the output bits of the files, executed one after the other on the same wires -/
def chainOutputs (e : Wires) : List (File × List Bool) → List (Option Bool)
  | [] => []
  | (f, ins) :: rest => (List.range f.numOut).map (f.outputFrom e ins) ++ chainOutputs (exec f.gates (inputsOver e ins)) rest

end CC.Spec.Bristol
