import Verif.Spec.Program
import Verif.Spec.Mixed
import Verif.Spec.FieldProgram

/-!
# Spec: repairing programs by making their outputs last

A program of C32, C68 or C76 is repaired by copying each value just before it is declared as output, using operations of the
library only: numbers and field elements are negated twice, bit strings are complemented twice, bits go through `identity`.
-/

namespace CC.Spec

/-- statements that copy the given values; `m` is the number of statements before them -/
def copying : (m : Nat) → (outs : List Nat) → List Stmt
  | _, [] => []
  | m, i :: outs => .neg i :: .neg m :: copying (m + 2) outs

/-- the positions of the copies -/
def places : (m : Nat) → (outs : List Nat) → List Nat
  | _, [] => []
  | m, _ :: outs => (m + 1) :: places (m + 2) outs

namespace Mixed

/-- statements that copy the value `i`; `m` is the number of statements before them -/
def Kind.copy (i m : Nat) : Kind → List Cmd
  | .int => [.toBits i, .notBits m, .notBits (m + 1)]
  | .bits => [.notBits i, .notBits m]
  | .bit => [.identity i]

/-- the kind of a value of the program -/
def kindOf (p : List Cmd) (i : Nat) : Kind := (((kinds p []).getD [])[i]?).getD .bit

/-- statements that copy the given values of `p` -/
def copying (p : List Cmd) : (m : Nat) → (outs : List Nat) → List Cmd
  | _, [] => []
  | m, i :: outs => (kindOf p i).copy i m ++ copying p (m + ((kindOf p i).copy i m).length) outs

/-- the positions of the copies -/
def places (p : List Cmd) : (m : Nat) → (outs : List Nat) → List Nat
  | _, [] => []
  | m, i :: outs =>
    (m + ((kindOf p i).copy i m).length - 1) :: places p (m + ((kindOf p i).copy i m).length) outs

end Mixed

/-- statements that copy the given field elements -/
def FieldProgram.copying : (m : Nat) → (outs : List Nat) → List FieldProgram.Cmd
  | _, [] => []
  | m, i :: outs => .neg i :: .neg m :: copying (m + 2) outs

end CC.Spec
