import Verif.Spec.Semantics

/-!
# Spec: which circuits can be written as a Bristol file, and the reasons why writing can fail
-/

namespace CC.Spec

/-- gate `g` of circuit `r` can be written: everything it is computed from exists, in the circuit and in the circuits it calls, no
call has more arguments than the called circuit has inputs, and there is no cycle -/
inductive Writable (w : World) : Ref → GateId → Prop where
  | plain {r c g gate} : w.circs[r]? = some c → c.gateMap g = some gate →
      (∀ nIn nOut ids oi mid, gate ≠ .module nIn nOut ids oi mid) → (∀ x ∈ gate.operands, Writable w r x) → Writable w r g
  | call {r c g nIn nOut ids oi mid mr mc} : w.circs[r]? = some c → c.gateMap g = some (.module nIn nOut ids oi mid) →
      (∀ x ∈ ids, Writable w r x) → w.module? c mid = some mr → w.circs[mr]? = some mc → ids.length ≤ mc.inputLen →
      (∀ i o, mc.outputMap i = some o → Writable w mr o) → Writable w r g

/-- a reason, in circuit `r` or in a circuit it calls, for the writer to end with the given error after the header -/
inductive Unwritable (w : World) : Ref → Err → Prop where
  /-- the call stack is exhausted -/
  | depth {r} : Unwritable w r .outOfFuel
  /-- a gate uses an id that was never issued -/
  | operand {r c g gate x} : w.circs[r]? = some c → c.gateMap g = some gate → x ∈ gate.operands → c.gateMap x = none →
      Unwritable w r (.unknownGate x)
  /-- a module is called with too many arguments: the first one in excess has no input wire -/
  | excess {r c g nIn nOut ids oi mid mr mc} : w.circs[r]? = some c → c.gateMap g = some (.module nIn nOut ids oi mid) →
      w.module? c mid = some mr → w.circs[mr]? = some mc → mc.inputLen < ids.length →
      Unwritable w r (.unknownInput mc.inputLen)
  /-- a called circuit cannot be written -/
  | inner {r c mr e} : w.circs[r]? = some c → Calls w c mr → Unwritable w mr e → Unwritable w r e

end CC.Spec
