import Verif.Spec.History

/-!
# Spec: which calls are refused, and circular circuits
-/

namespace CC.Spec

/-- the circuits and storages a call is given exist (in Rust they always do) -/
def Op.Refs (w : World) : Op → Prop
  | .newStorage => True
  | .newCircuit s => s < w.stores.length
  | .registerModule r m => r < w.circs.length ∧ m < w.circs.length
  | .storeModule s m => s < w.stores.length ∧ m < w.circs.length
  | .input r | .output r _ | .constant r _ | .not r _ | .identity r _ | .xor r _ _ | .and r _ _ | .or r _ _
  | .equivalent r _ _ | .subCircuit r | .clone r | .module r _ _ => r < w.circs.length

/-- the calls that fail, and how -/
inductive Refused (w : World) : Op → Err → Prop where
  /-- an output for an id that is no gate of the circuit -/
  | output {r g} : w.getGate r g = .error (.unknownGate g) → Refused w (.output r g) (.unknownGate g)
  /-- a module id that the circuit's storage does not have -/
  | unknown {r mid ids} : w.getModule r mid = .error (.unknownModule mid) →
      Refused w (.module r mid ids) (.unknownModule mid)
  /-- a circuit that calls itself -/
  | itself {r mid ids} : w.getModule r mid = .ok r → Refused w (.module r mid ids) (.panic .alreadyBorrowed)
  /-- a circuit whose inputs and outputs together outnumber its wires -/
  | wires {r mid ids m c} : w.getModule r mid = .ok m → m ≠ r → w.circs[m]? = some c →
      c.numWire < c.inputLen + c.outputLen → Refused w (.module r mid ids) (.panic .underflow)

/-- to evaluate gate `p.2` of circuit `p.1`, gate `q.2` of circuit `q.1` is evaluated first -/
inductive NeedsNow (w : World) : Ref × GateId → Ref × GateId → Prop where
  /-- an operand -/
  | operand {r c g gate x} : w.circs[r]? = some c → c.gateMap g = some gate → x ∈ gate.operands → NeedsNow w (r, g) (r, x)
  /-- an output of the called circuit; all of them are evaluated, not only the one the gate stands for -/
  | inside {r c g nIn nOut ids oi mid mr mc k o} : w.circs[r]? = some c →
      c.gateMap g = some (.module nIn nOut ids oi mid) → w.module? c mid = some mr → w.circs[mr]? = some mc →
      mc.outputMap k = some o → NeedsNow w (r, g) (mr, o)

/-- the same in one or more steps -/
inductive Needs (w : World) : Ref × GateId → Ref × GateId → Prop where
  | one {p q} : NeedsNow w p q → Needs w p q
  | cons {p q s} : NeedsNow w p q → Needs w q s → Needs w p s

/-- some output of circuit `r` is, or needs, a gate that needs itself -/
def Circular (w : World) (r : Ref) : Prop :=
  ∃ c i o p, w.circs[r]? = some c ∧ c.outputMap i = some o ∧ (p = (r, o) ∨ Needs w (r, o) p) ∧ Needs w p p

end CC.Spec
