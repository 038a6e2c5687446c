import Verif.Spec.Writer

/-!
# Circuits whose outputs are written last
-/

namespace CC.Spec
open CC

/-- The outputs of the circuit are different logic gates of its own that no output needs for its operands (`TidyOutputs`), or
they are, in their order, all outputs of one call of a circuit of this kind. -/
inductive LastOutputs (w : World) : Ref → Prop
  | gates {r c} : w.circs[r]? = some c → TidyOutputs c → LastOutputs w r
  | call {r c} (g : GateId) {nIn nOut ids mid} {mr : Ref} : w.circs[r]? = some c →
      c.gateMap g = some (.module nIn nOut ids 0 mid) → w.module? c mid = some mr → c.outputLen = nOut →
      (∀ i, i < nOut → c.outputMap i = some (g + i)) → LastOutputs w mr → LastOutputs w r

end CC.Spec
