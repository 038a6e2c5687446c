import Verif.Model.Bundled
import Verif.Proofs.BrParse
import Verif.Proofs.BrSlice
import Verif.Proofs.BundledFiles

/-!
# Kernel checks of the bundled files
-/

namespace CC.Bundled
open CC Spec Spec.Bristol CC.Bristol

/-! ### what is checked about a text -/

/-- the text has contents `f`, a valid file with `numIn` inputs and `numOut` outputs, no line reads an output wire, and the
file is a ripple circuit -/
structure IsRipple (f : File) (text : Str) (numIn numOut : Nat) (fo fn : List Bool → Bool → Bool) (ss : List Slice) : Prop where
  text : file? text = some f
  valid : valid? f = true
  unread : outputsUnread? f = true
  hin : f.numIn = numIn
  hout : f.numOut = numOut
  len : ss.length = numOut
  ripple : ripple? f.gates numIn (f.numWire - numOut) 20 fo fn ss = true

/-! ### slices of the three files -/

def sumBit (bs : List Bool) (c : Bool) : Bool := bs.foldl (· != ·) c

def addCarry : List Bool → Bool → Bool
  | [a, b], c => a && b || (a || b) && c
  | _, _ => false

def subBorrow : List Bool → Bool → Bool
  | [a, b], c => !a && b || (!a || b) && c
  | _, _ => false

def negCarry : List Bool → Bool → Bool
  | [a], c => a || c
  | _, _ => false

/-- slice `i` has inputs `i` and `64 + i`; its carry is `base + i` -/
def binSlices (base numWire : Nat) : List Slice := (List.range 64).map fun i =>
  { ins := [i, 64 + i], st := if i = 0 then none else some (base + i, false), out := numWire - 64 + i }

/-- wires of the carries of the negation; all but the first are negated -/
def negCarries : List Nat := [105, 127, 149, 171, 183, 185, 187, 189, 65, 67, 69, 71, 73, 75, 77, 79, 81, 85, 87, 89, 91, 93,
  95, 97, 99, 101, 103, 107, 109, 111, 113, 115, 117, 119, 121, 123, 125, 129, 131, 133, 135, 137, 139, 141, 143, 145, 147,
  151, 153, 155, 157, 159, 161, 163, 165, 167, 169, 173, 175, 177, 178, 180]

def negSlices (numWire : Nat) : List Slice := (List.range 64).map fun i =>
  { ins := [i], st := if i = 0 then none else if i = 1 then some (0, false) else some (negCarries[i - 2]?.getD 0, true),
    out := numWire - 64 + i }

set_option maxRecDepth 1000000 in
theorem adder64_ripple : IsRipple adder64File adder64Text 128 64 sumBit addCarry (binSlices 376 504) := by
  constructor <;> decide +kernel

set_option maxRecDepth 1000000 in
theorem sub64_ripple : IsRipple sub64File sub64Text 128 64 sumBit subBorrow (binSlices 439 567) := by
  constructor <;> decide +kernel

set_option maxRecDepth 1000000 in
theorem neg64_ripple : IsRipple neg64File neg64Text 64 64 sumBit negCarry (negSlices 254) := by
  constructor <;> decide +kernel

end CC.Bundled
