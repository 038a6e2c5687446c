import Verif.Spec.History
import Verif.Model.Checked

/-!
# Spec: heaps whose counters fit in 64 bits, and histories with checked additions
-/

namespace CC.Spec

/-- every counter of the circuit fits in 64 bits -/
structure FitsC (c : Circuit) : Prop where
  inputLen : c.inputLen < 2 ^ 64
  outputLen : c.outputLen < 2 ^ 64
  numWire : c.numWire < 2 ^ 64
  numGate : c.numGate < 2 ^ 64
  numConst : c.numConst < 2 ^ 64
  gateIndex : c.gateIndex < 2 ^ 64

/-- every counter in the heap fits in 64 bits -/
structure Fits (w : World) : Prop where
  circs : ∀ c ∈ w.circs, FitsC c
  stores : ∀ s ∈ w.stores, s.numModule < 2 ^ 64

/-- making the call in a build that checks additions -/
def Op.callC : Op → M Ret
  | .newStorage => do return .storage (← CC.newStorage)
  | .newCircuit s => do return .circuit (← CC.newCircuit s)
  | .input r => do return .gate (← CheckedApi.input r)
  | .output r g => do return .wire (← CheckedApi.output r g)
  | .constant r v => do return .gate (← CheckedApi.constant r v)
  | .not r x => do return .gate (← CheckedApi.not r x)
  | .xor r a b => do return .gate (← CheckedApi.xor r a b)
  | .and r a b => do return .gate (← CheckedApi.and r a b)
  | .or r a b => do return .gate (← CheckedApi.or r a b)
  | .equivalent r a b => do return .gate (← CheckedApi.equivalent r a b)
  | .identity r x => do return .gate (← CheckedApi.identity r x)
  | .registerModule r m => do return .mid (← CheckedApi.registerModule r m)
  | .storeModule s m => do return .mid (← CheckedApi.storeModule s m)
  | .subCircuit r => do let (m, s) ← CheckedApi.subCircuit r; return .sub m s
  | .clone r => do return .circuit (← CC.cloneCircuit r)
  | .module r mid ids => do return .gates (← CheckedApi.module r mid ids)

/-- run a list of calls and record the history -/
def playC : List Op → World × List Ev → World × List Ev
  | [], x => x
  | op :: ops, (w, evs) => playC ops ((op.callC w).2, evs ++ [⟨op, w, (op.callC w).1⟩])

end CC.Spec
