import Verif.Model.Arith

/-!
# `src/circuits/finite_field/mod.rs`: `AllocFp`
-/

namespace CC.Fp
open M Arith

/-- `mod_inv` — src/circuits/finite_field/mod.rs:317-327. `BigInt::to_bytes_le` returns sign and magnitude;
the sign is dropped, so the result is the absolute value. -/
def modInv (val p : Nat) : Nat :=
  let a : Int := val
  let b : Int := p
  let x := (Utils.extGcd a b).1
  if x < 0 then (x + b).natAbs else x.natAbs

/-- `build_add_circuit` — src/circuits/finite_field/mod.rs:211-238. -/
def buildAdd (r : Ref) (ic : IntConfig) (n p : Nat) : M ModuleId := do
  let (mid, s) ← subCircuit r
  let ic := { ic with cref := s }
  let l ← AInt.new ic n
  let r ← AInt.new ic n
  let pInt ← AInt.fromBiguint ic n p
  let sum ← l.add r
  let plusLarger ← sum.larger pInt n
  let plusLargerInt ← AInt.fromGateIds ic n [plusLarger]
  let zero ← AInt.zero ic n
  let negZero ← zero.neg n
  let minusLess ← sum.less negZero n
  let minusLessInt ← AInt.fromGateIds ic n [minusLess]
  let elseBit ← or s plusLarger minusLess
  let elseBit ← not s elseBit
  let elseInt ← AInt.fromGateIds ic n [elseBit]
  let sumMinusP ← sum.sub pInt
  let t1 ← plusLargerInt.mul sumMinusP
  let sumPlusP ← sum.add pInt
  let t2 ← minusLessInt.mul sumPlusP
  let out ← t1.add t2
  let t3 ← elseInt.mul sum
  let out ← out.add t3
  out.output n
  pure mid

/-- `build_sub_circuit` — src/circuits/finite_field/mod.rs:240-256. -/
def buildSub (r : Ref) (ic : IntConfig) (n : Nat) (addMid : ModuleId) : M ModuleId := do
  let (mid, s) ← subCircuit r
  let ic := { ic with cref := s }
  let l ← AInt.new ic n
  let r ← AInt.new ic n
  let negR ← r.neg n
  let outs ← module s addMid (l.val ++ negR.val)
  let out ← AInt.fromGateIds ic n outs
  out.output n
  pure mid

/-- `build_mul_circuit` — src/circuits/finite_field/mod.rs:258-280. -/
def buildMul (r : Ref) (ic : IntConfig) (n r2 : Nat) (montRedMid : ModuleId) : M ModuleId := do
  let (mid, s) ← subCircuit r
  let ic := { ic with cref := s }
  let l ← AInt.new ic n
  let r ← AInt.new ic n
  let lr ← l.mul r
  let o1 ← module s montRedMid lr.val
  let lrMod ← AInt.fromGateIds ic n o1
  let r2Int ← AInt.fromBiguint ic n r2
  let lrModR2 ← lrMod.mul r2Int
  let o2 ← module s montRedMid lrModR2.val
  let out ← AInt.fromGateIds ic n o2
  out.output n
  pure mid

/-- `build_mont_red` — src/circuits/finite_field/mod.rs:282-315. -/
def buildMontRed (r : Ref) (ic : IntConfig) (n p pMinusInv rExp : Nat) : M ModuleId := do
  let (mid, s) ← subCircuit r
  let ic := { ic with cref := s }
  let val ← AInt.new ic n
  let pInt ← AInt.fromBiguint ic n p
  let pMinusInvInt ← AInt.fromBiguint ic n pMinusInv
  let valPi ← val.mul pMinusInvInt
  let falseBit ← constant s false
  -- `for i in r_exp..N { val_pi.val_le[i] = and(val_pi.val_le[i], false) }` — lines 299-301
  let bits ← foldList (fun bits i => do
    let b ← idx bits i
    let z ← and s b falseBit
    pure (bits.set i z)) valPi.val (rangeFromTo rExp n)
  let valPi : AInt := { valPi with val := bits }
  let valPiP ← valPi.mul pInt
  let valValPiP ← val.add valPiP
  let t ← valValPiP.shiftRight n rExp
  let ge ← t.largerOrEq pInt n
  let geInt ← AInt.fromGateIds ic n [ge]
  let one ← AInt.one ic n
  let elseInt ← one.sub geInt
  let pSubedT ← t.sub pInt
  let t1 ← geInt.mul pSubedT
  let t2 ← elseInt.mul t
  let out ← t1.sub t2
  out.output n
  pure mid

/-- `AllocFpConfig` — src/circuits/finite_field/mod.rs:167-179. -/
structure FpConfig where
  cref : Ref
  intConfig : IntConfig
  p : Nat
  pMinusInv : Nat
  rExp : Nat
  r2 : Nat
  addMid : ModuleId
  subMid : ModuleId
  mulMid : ModuleId
  montRedMid : ModuleId

/-- `AllocFpConfig::new` — src/circuits/finite_field/mod.rs:182-209. `r2` is computed modulo `r`, as in line
190. `BigUint` subtraction (line 192) panics on underflow. -/
def FpConfig.new (r : Ref) (ic : IntConfig) (n p rExp : Nat) : M FpConfig := do
  let rr := 1 <<< rExp
  let r2 := (rr * rr) % rr
  let pInv := modInv p rr
  if rr < pInv then throw (.panic .underflow)
  else do
    let pMinusInv := rr - pInv
    let addMid ← buildAdd r ic n p
    let subMid ← buildSub r ic n addMid
    let montRedMid ← buildMontRed r ic n p pMinusInv rExp
    let mulMid ← buildMul r ic n r2 montRedMid
    pure { cref := r, intConfig := ic, p, pMinusInv, rExp, r2, addMid, subMid, mulMid, montRedMid }

/-- `AllocFp` — src/circuits/finite_field/mod.rs:8-12. -/
structure AFp where
  val : AInt
  config : FpConfig

namespace AFp

/-- `AllocFp::new` — src/circuits/finite_field/mod.rs:15-19. -/
def new (config : FpConfig) (n : Nat) : M AFp := do
  let val ← AInt.new config.intConfig n
  pure { val, config }

/-- `AllocFp::from_gate_ids_unchecked` — src/circuits/finite_field/mod.rs:21-28. -/
def fromGateIdsUnchecked (config : FpConfig) (n : Nat) (ids : List GateId) : M AFp := do
  let val ← expect (AInt.fromGateIds config.intConfig n ids)
  pure { val, config }

/-- `AllocFp::from_biguint_unchecked` — src/circuits/finite_field/mod.rs:30-37. -/
def fromBiguintUnchecked (config : FpConfig) (n v : Nat) : M AFp := do
  let val ← expect (AInt.fromBiguint config.intConfig n v)
  pure { val, config }

/-- `AllocFp::output` — src/circuits/finite_field/mod.rs:39-41. -/
def output (x : AFp) (n : Nat) : M Unit := x.val.output n

/-- `AllocFp::zero` — src/circuits/finite_field/mod.rs:47-53. -/
def zero (config : FpConfig) (n : Nat) : M AFp := do
  let val ← AInt.zero config.intConfig n
  pure { val, config }

/-- `AllocFp::one` — src/circuits/finite_field/mod.rs:55-61. -/
def one (config : FpConfig) (n : Nat) : M AFp := do
  let val ← AInt.one config.intConfig n
  pure { val, config }

/-- `AllocFp::eq` — src/circuits/finite_field/mod.rs:63-65. -/
def eq (x y : AFp) (n : Nat) : M GateId := x.val.eq y.val n

/-- `AllocFp::neq` — src/circuits/finite_field/mod.rs:67-69. -/
def neq (x y : AFp) (n : Nat) : M GateId := x.val.neq y.val n

/-- `x + y` — src/circuits/finite_field/mod.rs:80-93; `x += y` (125-137) is the same call. -/
def add (x y : AFp) (n : Nat) : M AFp := do
  let outs ← expect (module x.config.cref x.config.addMid (x.val.val ++ y.val.val))
  fromGateIdsUnchecked x.config n outs

/-- `x - y` — src/circuits/finite_field/mod.rs:95-108; `x -= y` (139-151) is the same call. -/
def sub (x y : AFp) (n : Nat) : M AFp := do
  let outs ← expect (module x.config.cref x.config.subMid (x.val.val ++ y.val.val))
  fromGateIdsUnchecked x.config n outs

/-- `x * y` — src/circuits/finite_field/mod.rs:110-123; `x *= y` (153-165) is the same call. -/
def mul (x y : AFp) (n : Nat) : M AFp := do
  let outs ← expect (module x.config.cref x.config.mulMid (x.val.val ++ y.val.val))
  fromGateIdsUnchecked x.config n outs

/-- `-x` — src/circuits/finite_field/mod.rs:72-78. -/
def neg (x : AFp) (n : Nat) : M AFp := do
  let z ← expect (zero x.config n)
  z.sub x n

end AFp

end CC.Fp
