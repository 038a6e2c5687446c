import Verif.Spec.Semantics

/-!
# Spec: the reasons why evaluation of a circuit can fail
-/

namespace CC.Spec

/-- a reason, in circuit `r` or in a circuit it calls, for evaluation to end with the given error -/
inductive Failure (w : World) : Ref → Err → Prop where
  /-- the call stack is exhausted -/
  | depth {r} : Failure w r .outOfFuel
  /-- a gate uses an id that was never issued -/
  | operand {r c g gate x} : w.circs[r]? = some c → c.gateMap g = some gate → x ∈ gate.operands → c.gateMap x = none →
      Failure w r (.unknownGate x)
  /-- the bit of an input has been dropped -/
  | input {r c g k} : w.circs[r]? = some c → c.gateMap g = some (.input k) → Failure w r (.unknownEvaledBit g)
  /-- the left operand of a gate has been dropped while the right one was computed -/
  | left {r c g gate x y} : w.circs[r]? = some c → c.gateMap g = some gate →
      gate = .xor x y ∨ gate = .and x y ∨ gate = .or x y → Failure w r (.unknownEvaledBit x)
  /-- a gate with twice the same operand drops it after the first read -/
  | twice {r c g gate x} : w.circs[r]? = some c → c.gateMap g = some gate →
      gate = .xor x x ∨ gate = .and x x ∨ gate = .or x x → Failure w r (.panic .missingKey)
  /-- an argument of a module call has been dropped while another one was computed, or is passed twice -/
  | arguments {r c g nIn nOut ids oi mid} : w.circs[r]? = some c → c.gateMap g = some (.module nIn nOut ids oi mid) →
      2 ≤ ids.length → Failure w r (.panic .missingKey)
  /-- a module is called with the wrong number of arguments -/
  | arity {r c g nIn nOut ids oi mid mr mc} : w.circs[r]? = some c → c.gateMap g = some (.module nIn nOut ids oi mid) →
      w.module? c mid = some mr → w.circs[mr]? = some mc → ids.length ≠ mc.inputLen → Failure w r (.panic .assertFailed)
  /-- a called circuit fails -/
  | inner {r c mr e} : w.circs[r]? = some c → Calls w c mr → Failure w mr e → Failure w r e

end CC.Spec
