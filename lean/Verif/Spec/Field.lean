import Verif.Spec.Alloc
import Verif.Model.Fp

/-!
# Spec: prime-field values
-/

namespace CC.Spec
open CC Arith

/-- an integer configuration of width `n` and a field configuration of modulus `p` on top of it, both for circuit `r` -/
def fieldOver (r : Ref) (n p rExp : Nat) : M Fp.FpConfig := do
  let ic ← IntConfig.new r n
  Fp.FpConfig.new r ic n p rExp

/-- The constants of a configuration fit in `n` bits. `from_biguint` counts whole bytes. -/
structure FieldFits (n p rExp : Nat) : Prop where
  width : 8 ≤ n
  modulus : p < 256 ^ (n / 8)
  radix : 2 ^ rExp < 256 ^ (n / 8)

/-- `v` is the canonical representative of `T / R` modulo `p` -/
def Quotient (p R T v : Nat) : Prop := v < p ∧ v * R % p = T % p

end CC.Spec
