import Verif.Model.Bristol

/-!
# Spec: the bytes of a text

UTF-8 as defined by Lean's core library (`String.utf8EncodeChar`); bytes are numbers below 256.
-/

namespace CC.Spec.Bristol

/-- the bytes of a character -/
def charBytes (c : Char) : List Nat := (String.utf8EncodeChar c).map UInt8.toNat

/-- the bytes of a text -/
def textBytes (cs : List Char) : List Nat := cs.flatMap charBytes

end CC.Spec.Bristol
