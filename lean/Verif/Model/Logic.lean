import Verif.Model.Circuit

/-!
# `src/circuits/logic/mod.rs`: `AllocBits` and the bitwise module builders

The const generic `N` is an argument. `BuildCircuitError` (src/circuits/mod.rs) only wraps the circuit errors.
-/

namespace CC.Logic
open M

/-- `AllocBitsConfig` — src/circuits/logic/mod.rs:191-200. -/
structure BitsConfig where
  cref : Ref
  notMid : ModuleId
  andMid : ModuleId
  orMid : ModuleId
  xorMid : ModuleId
  eqMid : ModuleId
  neqMid : ModuleId

/-- `build_not_circuit` — src/circuits/logic/mod.rs:223-237. -/
def buildNot (r : Ref) (n : Nat) : M ModuleId := do
  let (mid, s) ← subCircuit r
  let a ← replicate (input s) n
  let _ ← mapList (fun i => do
    let ai ← idx a i
    let out ← not s ai
    output s out) (List.range n)
  pure mid

/-- `build_and_circuit` — src/circuits/logic/mod.rs:239-257. -/
def buildAnd (r : Ref) (n : Nat) : M ModuleId := do
  let (mid, s) ← subCircuit r
  let a ← replicate (input s) n
  let b ← replicate (input s) n
  let _ ← mapList (fun i => do
    let ai ← idx a i
    let bi ← idx b i
    let out ← and s ai bi
    output s out) (List.range n)
  pure mid

/-- `build_or_circuit` — src/circuits/logic/mod.rs:259-277. -/
def buildOr (r : Ref) (n : Nat) : M ModuleId := do
  let (mid, s) ← subCircuit r
  let a ← replicate (input s) n
  let b ← replicate (input s) n
  let _ ← mapList (fun i => do
    let ai ← idx a i
    let bi ← idx b i
    let out ← or s ai bi
    output s out) (List.range n)
  pure mid

/-- `build_xor_circuit` — src/circuits/logic/mod.rs:279-297. -/
def buildXor (r : Ref) (n : Nat) : M ModuleId := do
  let (mid, s) ← subCircuit r
  let a ← replicate (input s) n
  let b ← replicate (input s) n
  let _ ← mapList (fun i => do
    let ai ← idx a i
    let bi ← idx b i
    let out ← xor s ai bi
    output s out) (List.range n)
  pure mid

/-- `build_eq_circuit` — src/circuits/logic/mod.rs:299-320. -/
def buildEq (r : Ref) (n : Nat) : M ModuleId := do
  let (mid, s) ← subCircuit r
  let a ← replicate (input s) n
  let b ← replicate (input s) n
  let e0 ← constant s true
  let e ← foldList (fun e i => do
    let ai ← idx a i
    let bi ← idx b i
    let isEq ← equivalent s ai bi
    and s e isEq) e0 (List.range n)
  let _ ← output s e
  pure mid

/-- `build_neq_circuit` — src/circuits/logic/mod.rs:322-343. -/
def buildNeq (r : Ref) (n : Nat) (eqMid : ModuleId) : M ModuleId := do
  let (mid, s) ← subCircuit r
  let a ← replicate (input s) n
  let b ← replicate (input s) n
  let outs ← module s eqMid (a ++ b)
  let e ← idx outs 0
  let ne ← not s e
  let _ ← output s ne
  pure mid

/-- `AllocBitsConfig::new` — src/circuits/logic/mod.rs:202-221. -/
def BitsConfig.new (r : Ref) (n : Nat) : M BitsConfig := do
  let notMid ← buildNot r n
  let andMid ← buildAnd r n
  let orMid ← buildOr r n
  let xorMid ← buildXor r n
  let eqMid ← buildEq r n
  let neqMid ← buildNeq r n eqMid
  pure { cref := r, notMid, andMid, orMid, xorMid, eqMid, neqMid }

/-- `AllocBits` — src/circuits/logic/mod.rs:6-10. -/
structure Bits where
  bits : List GateId
  config : BitsConfig

/-- `AllocBits::new` — src/circuits/logic/mod.rs:13-24. -/
def Bits.new (config : BitsConfig) (n : Nat) : M Bits := do
  let bits ← replicate (input config.cref) n
  pure { bits, config }

/-- `AllocBits::from_gate_ids` — src/circuits/logic/mod.rs:26-39. -/
def Bits.fromGateIds (config : BitsConfig) (n : Nat) (ids : List GateId) : M Bits := do
  if ids.length ≤ n then do
    let pad ← replicate (constant config.cref false) (n - ids.length)
    pure { bits := ids ++ pad, config }
  else throw (.panic .assertFailed)

/-- `AllocBits::output` — src/circuits/logic/mod.rs:41-47. -/
def Bits.output (x : Bits) (n : Nat) : M Unit := do
  let _ ← mapList (fun i => do
    let g ← idx x.bits i
    CC.output x.config.cref g) (List.range n)
  pure ()

/-- `AllocBits::eq` — src/circuits/logic/mod.rs:49-55. -/
def Bits.eq (x y : Bits) : M GateId := do
  let outs ← module x.config.cref x.config.eqMid (x.bits ++ y.bits)
  idx outs 0

/-- `AllocBits::neq` — src/circuits/logic/mod.rs:57-63. -/
def Bits.neq (x y : Bits) : M GateId := do
  let outs ← module x.config.cref x.config.neqMid (x.bits ++ y.bits)
  idx outs 0

/-- `AllocBits::mux` — src/circuits/logic/mod.rs:65-79. -/
def Bits.mux (x trueBits : Bits) (n : Nat) (select : GateId) : M Bits := do
  let r := x.config.cref
  let notS ← CC.not r select
  let sel ← mapList (fun i => do
    let xi ← idx x.bits i
    let f ← CC.and r xi notS
    let ti ← idx trueBits.bits i
    let t ← CC.and r ti select
    CC.xor r f t) (List.range n)
  pure { bits := sel, config := x.config }

/-- `!x` — src/circuits/logic/mod.rs:82-96. -/
def Bits.not (x : Bits) : M Bits := do
  let outs ← expect (module x.config.cref x.config.notMid x.bits)
  pure { bits := outs, config := x.config }

/-- `x & y` — src/circuits/logic/mod.rs:98-114; `x &= y` (152-163) makes the same call. -/
def Bits.and (x y : Bits) : M Bits := do
  let outs ← expect (module x.config.cref x.config.andMid (x.bits ++ y.bits))
  pure { bits := outs, config := x.config }

/-- `x | y` — src/circuits/logic/mod.rs:116-132; `x |= y` (165-176) makes the same call. -/
def Bits.or (x y : Bits) : M Bits := do
  let outs ← expect (module x.config.cref x.config.orMid (x.bits ++ y.bits))
  pure { bits := outs, config := x.config }

/-- `x ^ y` — src/circuits/logic/mod.rs:134-150; `x ^= y` (178-189) makes the same call. -/
def Bits.xor (x y : Bits) : M Bits := do
  let outs ← expect (module x.config.cref x.config.xorMid (x.bits ++ y.bits))
  pure { bits := outs, config := x.config }

end CC.Logic
