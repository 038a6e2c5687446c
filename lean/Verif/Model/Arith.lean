import Verif.Model.Logic
import Verif.Model.Utils

/-!
# `src/circuits/arithmetic/int.rs`: `AllocInt` and the arithmetic module builders

The const generic `N` is the argument `n`.
-/

namespace CC.Arith
open M

/-- `build_add_circuit` — src/circuits/arithmetic/int.rs:307-345. -/
def buildAdd (r : Ref) (n : Nat) : M ModuleId := do
  let (mid, s) ← subCircuit r
  let a ← replicate (input s) n
  let b ← replicate (input s) n
  let gps ← mapList (fun i => do
    let ai ← idx a i
    let bi ← idx b i
    let g ← and s ai bi
    let p ← or s ai bi
    pure (g, p)) (List.range n)
  let gs := gps.map Prod.fst
  let ps := gps.map Prod.snd
  let c0 ← idx gs 0
  let cs ← foldList (fun cs i => do
    let pi ← idx ps i
    let cPre ← idx cs (i - 1)
    let pc ← and s pi cPre
    let gi ← idx gs i
    let c ← or s gi pc
    pure (cs ++ [c])) [c0] (rangeFromTo 1 n)
  let a0 ← idx a 0
  let b0 ← idx b 0
  let s0 ← xor s a0 b0
  let _ ← output s s0
  let _ ← mapList (fun i => do
    let ai ← idx a i
    let bi ← idx b i
    let axb ← xor s ai bi
    let cPre ← idx cs (i - 1)
    let o ← xor s axb cPre
    output s o) (rangeFromTo 1 n)
  pure mid

/-- `build_sub_circuit` — src/circuits/arithmetic/int.rs:347-378. -/
def buildSub (r : Ref) (n : Nat) (addMid : ModuleId) : M ModuleId := do
  let (mid, s) ← subCircuit r
  let a ← replicate (input s) n
  let b ← replicate (input s) n
  let flipped ← mapList (fun i => do
    let bi ← idx b i
    not s bi) (List.range n)
  let one ← constant s true
  let zeros ← replicate (constant s false) (n - 1)
  let compB ← module s addMid (flipped ++ [one] ++ zeros)
  let results ← module s addMid (a ++ compB)
  let _ ← mapList (fun g => output s g) results
  pure mid

/-- `build_mul_circuit` — src/circuits/arithmetic/int.rs:380-420. -/
def buildMul (r : Ref) (n : Nat) (addMid : ModuleId) : M ModuleId := do
  let (mid, s) ← subCircuit r
  let a ← replicate (input s) n
  let b ← replicate (input s) n
  let sum0 ← replicate (constant s false) n
  let sum ← foldList (fun sum i => do
    let zeros ← replicate (constant s false) i
    let ands ← mapList (fun j => do
      let aj ← idx a j
      let bi ← idx b i
      and s aj bi) (List.range (n - i))
    module s addMid (sum ++ (zeros ++ ands))) sum0 (List.range n)
  let _ ← mapList (fun i => do
    let g ← idx sum i
    output s g) (List.range n)
  pure mid

/-- `build_mul_extend_circuit` — src/circuits/arithmetic/int.rs:422-466. -/
def buildMulExtend (r : Ref) (n : Nat) (addMid : ModuleId) : M ModuleId := do
  let (mid, s) ← subCircuit r
  let a ← replicate (input s) n
  let b ← replicate (input s) n
  let sum0 ← replicate (constant s false) (2 * n)
  let sum ← foldList (fun sum i => do
    let zeros ← replicate (constant s false) i
    let ands ← mapList (fun j => do
      let aj ← idx a j
      let bi ← idx b i
      and s aj bi) (List.range n)
    let zeros2 ← replicate (constant s false) (n - i)
    module s addMid (sum ++ (zeros ++ ands ++ zeros2))) sum0 (List.range n)
  let _ ← mapList (fun i => do
    let g ← idx sum i
    output s g) (List.range (2 * n))
  pure mid

/-- `build_less_circuit` — src/circuits/arithmetic/int.rs:468-490. `sub[n_bits - 1]` with `n_bits = 0`
underflows. -/
def buildLess (r : Ref) (n : Nat) (subMid : ModuleId) : M ModuleId := do
  let (mid, s) ← subCircuit r
  let a ← replicate (input s) n
  let b ← replicate (input s) n
  let sub ← module s subMid (a ++ b)
  let one ← constant s true
  let sign ← if n = 0 then throw (.panic .underflow) else idx sub (n - 1)
  let isLess ← equivalent s sign one
  let _ ← output s isLess
  pure mid

/-- `build_less_or_eq_circuit` — src/circuits/arithmetic/int.rs:492-515. -/
def buildLessOrEq (r : Ref) (n : Nat) (lessMid eqMid : ModuleId) : M ModuleId := do
  let (mid, s) ← subCircuit r
  let a ← replicate (input s) n
  let b ← replicate (input s) n
  let o1 ← module s lessMid (a ++ b)
  let isLess ← idx o1 0
  let o2 ← module s eqMid (a ++ b)
  let isEq ← idx o2 0
  let res ← or s isLess isEq
  let _ ← output s res
  pure mid

/-- `build_larger_circuit` — src/circuits/arithmetic/int.rs:517-538. -/
def buildLarger (r : Ref) (n : Nat) (lessOrEqMid : ModuleId) : M ModuleId := do
  let (mid, s) ← subCircuit r
  let a ← replicate (input s) n
  let b ← replicate (input s) n
  let o ← module s lessOrEqMid (a ++ b)
  let le ← idx o 0
  let res ← not s le
  let _ ← output s res
  pure mid

/-- `build_larger_or_eq_circuit` — src/circuits/arithmetic/int.rs:540-561. -/
def buildLargerOrEq (r : Ref) (n : Nat) (lessMid : ModuleId) : M ModuleId := do
  let (mid, s) ← subCircuit r
  let a ← replicate (input s) n
  let b ← replicate (input s) n
  let o ← module s lessMid (a ++ b)
  let lt ← idx o 0
  let res ← not s lt
  let _ ← output s res
  pure mid

/-- `AllocIntConfig` — src/circuits/arithmetic/int.rs:266-278. -/
structure IntConfig where
  cref : Ref
  addMid : ModuleId
  subMid : ModuleId
  mulMid : ModuleId
  eqMid : ModuleId
  neqMid : ModuleId
  lessMid : ModuleId
  lessOrEqMid : ModuleId
  largerMid : ModuleId
  largerOrEqMid : ModuleId

/-- `AllocIntConfig::new` — src/circuits/arithmetic/int.rs:280-305. -/
def IntConfig.new (r : Ref) (n : Nat) : M IntConfig := do
  let addMid ← buildAdd r n
  let subMid ← buildSub r n addMid
  let mulMid ← buildMul r n addMid
  let eqMid ← Logic.buildEq r n
  let neqMid ← Logic.buildNeq r n eqMid
  let lessMid ← buildLess r n subMid
  let lessOrEqMid ← buildLessOrEq r n lessMid eqMid
  let largerMid ← buildLarger r n lessOrEqMid
  let largerOrEqMid ← buildLargerOrEq r n lessMid
  pure { cref := r, addMid, subMid, mulMid, eqMid, neqMid, lessMid, lessOrEqMid, largerMid, largerOrEqMid }

/-- `AllocInt` — src/circuits/arithmetic/int.rs:7-12. -/
structure AInt where
  val : List GateId
  config : IntConfig

namespace AInt

/-- `AllocInt::new` — src/circuits/arithmetic/int.rs:15-23. -/
def new (config : IntConfig) (n : Nat) : M AInt := do
  let val ← replicate (input config.cref) n
  pure { val, config }

/-- `AllocInt::from_gate_ids` — src/circuits/arithmetic/int.rs:25-38. -/
def fromGateIds (config : IntConfig) (n : Nat) (ids : List GateId) : M AInt := do
  if ids.length ≤ n then do
    let pad ← replicate (constant config.cref false) (n - ids.length)
    pure { val := ids ++ pad, config }
  else throw (.panic .assertFailed)

/-- `BigUint::to_bytes_le` (num-bigint, behaviour assumed): the base-256 digits, least significant first,
without leading zeros; zero is the single byte 0. `fuel` only bounds the recursion; `v` is enough. -/
def bytesLeAux : (fuel v : Nat) → List Nat
  | 0, _ => []
  | fuel + 1, v => if v = 0 then [] else v % 256 :: bytesLeAux fuel (v / 256)

/-- `BigUint::to_bytes_le` -/
def bytesLe (v : Nat) : List Nat := if v = 0 then [0] else bytesLeAux v v

/-- `AllocInt::from_biguint` — src/circuits/arithmetic/int.rs:40-61. -/
def fromBiguint (config : IntConfig) (n : Nat) (v : Nat) : M AInt := do
  let bits := Utils.bytes2bitsLe (bytesLe v)
  if bits.length ≤ n then do
    let val ← mapList (fun b => constant config.cref b) bits
    let pad ← replicate (constant config.cref false) (n - bits.length)
    pure { val := val ++ pad, config }
  else throw (.panic .assertFailed)

/-- `AllocInt::output` — src/circuits/arithmetic/int.rs:63-69. -/
def output (x : AInt) (n : Nat) : M Unit := do
  let _ ← mapList (fun i => do
    let g ← idx x.val i
    CC.output x.config.cref g) (List.range n)
  pure ()

/-- `AllocInt::zero` — src/circuits/arithmetic/int.rs:71-73. -/
def zero (config : IntConfig) (n : Nat) : M AInt := fromGateIds config n []

/-- `AllocInt::one` — src/circuits/arithmetic/int.rs:75-80. -/
def one (config : IntConfig) (n : Nat) : M AInt := do
  let t ← constant config.cref true
  fromGateIds config n [t]

/-- `[&self.val_le[0..N], &other.val_le[0..N]].concat()` — src/circuits/arithmetic/int.rs:85 and repeats;
slicing beyond the end panics. -/
def slices (x y : AInt) (n : Nat) : M (List GateId) :=
  if x.val.length < n then throw (.panic .indexOutOfBounds)
  else if y.val.length < n then throw (.panic .indexOutOfBounds)
  else pure (x.val.take n ++ y.val.take n)

/-- the common body of the six comparisons — src/circuits/arithmetic/int.rs:82-128 -/
def compareWith (mid : ModuleId) (x y : AInt) (n : Nat) : M GateId := do
  let inputs ← slices x y n
  let outs ← module x.config.cref mid inputs
  idx outs 0

/-- `AllocInt::eq` — src/circuits/arithmetic/int.rs:82-88. -/
def eq (x y : AInt) (n : Nat) : M GateId := compareWith x.config.eqMid x y n

/-- `AllocInt::neq` — src/circuits/arithmetic/int.rs:90-96. -/
def neq (x y : AInt) (n : Nat) : M GateId := compareWith x.config.neqMid x y n

/-- `AllocInt::less` — src/circuits/arithmetic/int.rs:98-104. -/
def less (x y : AInt) (n : Nat) : M GateId := compareWith x.config.lessMid x y n

/-- `AllocInt::less_or_eq` — src/circuits/arithmetic/int.rs:106-112. -/
def lessOrEq (x y : AInt) (n : Nat) : M GateId := compareWith x.config.lessOrEqMid x y n

/-- `AllocInt::larger` — src/circuits/arithmetic/int.rs:114-120. -/
def larger (x y : AInt) (n : Nat) : M GateId := compareWith x.config.largerMid x y n

/-- `AllocInt::larger_or_eq` — src/circuits/arithmetic/int.rs:122-128. -/
def largerOrEq (x y : AInt) (n : Nat) : M GateId := compareWith x.config.largerOrEqMid x y n

/-- `AllocInt::shift_left` — src/circuits/arithmetic/int.rs:130-145. -/
def shiftLeft (x : AInt) (n k : Nat) : M AInt := do
  let zeros ← replicate (constant x.config.cref false) k
  let rest ← mapList (fun i => idx x.val (i - k)) (rangeFromTo k n)
  pure { val := zeros ++ rest, config := x.config }

/-- `AllocInt::shift_right` — src/circuits/arithmetic/int.rs:147-162. -/
def shiftRight (x : AInt) (n k : Nat) : M AInt := do
  let sign ← if n = 0 then throw (.panic .underflow) else idx x.val (n - 1)
  if n < k then throw (.panic .underflow)
  else do
    let low ← mapList (fun i => idx x.val (i + k)) (List.range (n - k))
    pure { val := low ++ List.replicate k sign, config := x.config }

/-- `x + y` — src/circuits/arithmetic/int.rs:173-189; `x += y` (227-238) makes the same call. -/
def add (x y : AInt) : M AInt := do
  let bits ← expect (module x.config.cref x.config.addMid (x.val ++ y.val))
  pure { val := bits, config := x.config }

/-- `x - y` — src/circuits/arithmetic/int.rs:191-207; `x -= y` (240-251) makes the same call. -/
def sub (x y : AInt) : M AInt := do
  let bits ← expect (module x.config.cref x.config.subMid (x.val ++ y.val))
  pure { val := bits, config := x.config }

/-- `x * y` — src/circuits/arithmetic/int.rs:209-225; `x *= y` (253-264) makes the same call. -/
def mul (x y : AInt) : M AInt := do
  let bits ← expect (module x.config.cref x.config.mulMid (x.val ++ y.val))
  pure { val := bits, config := x.config }

/-- `-x` — src/circuits/arithmetic/int.rs:165-171. -/
def neg (x : AInt) (n : Nat) : M AInt := do
  let z ← expect (zero x.config n)
  sub z x

end AInt

end CC.Arith
