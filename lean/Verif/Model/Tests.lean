import Verif.Model.Logic
import Verif.Model.Fp

/-!
# The circuits of the repository's own tests with random inputs

Each test builds a circuit, draws random input bits, evaluates the circuit once and compares the result. The functions
below are the building part; they return the circuit. The width, fixed in the tests, is an argument. Operators are
evaluated from left to right.
-/

namespace CC.Tests
open M Logic Arith Fp

/-- `add_sub_mul_test` — src/circuits/arithmetic/int.rs:658-678, with `N = 256`: `(x - y) * z` equals `x * z - y * z`. -/
def addSubMul (n : Nat) : M Ref := do
  let st ← newStorage
  let r ← newCircuit st
  let cfg ← IntConfig.new r n
  let x ← AInt.new cfg n
  let y ← AInt.new cfg n
  let z ← AInt.new cfg n
  let d ← x.sub y
  let out1 ← d.mul z
  let xz ← x.mul z
  let yz ← y.mul z
  let out2 ← xz.sub yz
  let e ← out1.eq out2 n
  let _ ← output r e
  pure r

/-- `less` — src/circuits/arithmetic/int.rs:681-702, with `N = 256`: `x < x + 1` and not `x + 1 < x`. -/
def less (n : Nat) : M Ref := do
  let st ← newStorage
  let r ← newCircuit st
  let cfg ← IntConfig.new r n
  let x ← AInt.new cfg n
  let one ← AInt.one cfg n
  let y ← x.add one
  let l ← x.less y n
  let k ← y.less x n
  let _ ← output r l
  let _ ← output r k
  pure r

/-- `larger` — src/circuits/arithmetic/int.rs:705-726, with `N = 256`: `x > x - 1` and not `x - 1 > x`. -/
def larger (n : Nat) : M Ref := do
  let st ← newStorage
  let r ← newCircuit st
  let cfg ← IntConfig.new r n
  let x ← AInt.new cfg n
  let one ← AInt.one cfg n
  let y ← x.sub one
  let l ← x.larger y n
  let k ← y.larger x n
  let _ ← output r l
  let _ ← output r k
  pure r

/-- `fp_add_sub_mul_test` — src/circuits/finite_field/mod.rs:344-373, with `p = 11`, `REXP = 4` and `N = 8`:
`(x + y) * z` equals `x * z + y * z`, and `(x - y) * z` equals `x * z - y * z`. -/
def fpAddSubMul (n p rExp : Nat) : M Ref := do
  let st ← newStorage
  let r ← newCircuit st
  let ic ← IntConfig.new r n
  let cfg ← FpConfig.new r ic n p rExp
  let x ← AFp.new cfg n
  let y ← AFp.new cfg n
  let z ← AFp.new cfg n
  let a ← x.add y n
  let out1 ← a.mul z n
  let xz ← x.mul z n
  let yz ← y.mul z n
  let out2 ← xz.add yz n
  let d ← x.sub y n
  let out3 ← d.mul z n
  let xz' ← x.mul z n
  let yz' ← y.mul z n
  let out4 ← xz'.sub yz' n
  let e1 ← out1.eq out2 n
  let e2 ← out3.eq out4 n
  let _ ← output r e1
  let _ ← output r e2
  pure r

/-- `not` — src/circuits/logic/mod.rs:353-371, with `N = 256`. -/
def not (n : Nat) : M Ref := do
  let st ← newStorage
  let r ← newCircuit st
  let cfg ← BitsConfig.new r n
  let x ← Bits.new cfg n
  let z ← x.not
  z.output n
  pure r

/-- The tests `and`, `or` and `xor` differ in the operator only. -/
def binary (op : Bits → Bits → M Bits) (n : Nat) : M Ref := do
  let st ← newStorage
  let r ← newCircuit st
  let cfg ← BitsConfig.new r n
  let x ← Bits.new cfg n
  let y ← Bits.new cfg n
  let z ← op x y
  z.output n
  pure r

/-- `and` — src/circuits/logic/mod.rs:373-396, with `N = 256`. -/
def and (n : Nat) : M Ref := binary Bits.and n

/-- `or` — src/circuits/logic/mod.rs:398-421, with `N = 256`. -/
def or (n : Nat) : M Ref := binary Bits.or n

/-- `xor` — src/circuits/logic/mod.rs:423-446, with `N = 256`. -/
def xor (n : Nat) : M Ref := binary Bits.xor n

end CC.Tests
