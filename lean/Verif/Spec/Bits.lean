/-!
# Spec: the numbers denoted by bit lists and byte lists

Independent of the model.
-/

namespace CC.Spec

/-- the number denoted by bits, least significant first -/
def bitsVal : List Bool → Nat
  | [] => 0
  | b :: bs => b.toNat + 2 * bitsVal bs

/-- the number denoted by bytes, least significant first -/
def bytesVal : List Nat → Nat
  | [] => 0
  | b :: bs => b + 256 * bytesVal bs

/-- the two's-complement number denoted by bits, least significant first -/
def signedVal (bs : List Bool) : Int :=
  if bs.getLast? = some true then (bitsVal bs : Int) - 2 ^ bs.length else bitsVal bs

/-- the little-endian bits of `v mod 2^n` -/
def bitsOf (n v : Nat) : List Bool := (List.range n).map v.testBit

end CC.Spec
