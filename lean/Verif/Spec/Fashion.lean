import Verif.Spec.Bristol

/-!
# Spec: EQ lines as the Bristol Fashion format defines them

In that format `1 1 b o EQ` assigns the constant `b` (0 or 1) to wire `o`; the copy of a wire is `EQW`.
-/

namespace CC.Spec.Bristol

/-- the constant written as an operand -/
def literal : List Nat → Option Bool
  | [0] => some false
  | [1] => some true
  | _ => none

/-- execute one line -/
def GLine.fashion (l : GLine) (e : Wires) : Wires := fun x =>
  if x = l.out then (if l.op = .eq then literal l.args else (vals e l.args).bind l.op.fn) else e x

/-- execute the lines in order -/
def fashion (ls : List GLine) (e : Wires) : Wires := ls.foldl (fun e l => l.fashion e) e

/-- the `i`-th output bit -/
def File.fashion (f : File) (bits : List Bool) (i : Nat) : Option Bool :=
  Bristol.fashion f.gates (inputWires bits) (f.numWire - f.numOut + i)

/-- starting from defined wires `P`, every line has the right operands: a constant for EQ, defined wires for the others -/
def FashionUses (P : Nat → Prop) : List GLine → Prop
  | [] => True
  | l :: ls => (l.op = .eq → l.args = [0] ∨ l.args = [1]) ∧ (l.op ≠ .eq → l.args.length = l.op.arity ∧ ∀ x ∈ l.args, P x) ∧
      FashionUses (fun x => P x ∨ x = l.out) ls

/-- a valid file of the format -/
structure File.FashionValid (f : File) : Prop where
  uses : FashionUses (· < f.numIn) f.gates
  room : f.numOut ≤ f.numWire
  outs : ∀ x, f.numWire - f.numOut ≤ x → x < f.numWire → Defined (· < f.numIn) f.gates x

end CC.Spec.Bristol
