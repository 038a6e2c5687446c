import Verif.Spec.Bounded
import Verif.Spec.Valid
import Verif.Model.Wrapping

/-!
# Spec: histories in a release build
-/

namespace CC.Spec

/-- making the call in a build whose arithmetic wraps around -/
def Op.callR : Op → M Ret
  | .newStorage => do return .storage (← CC.newStorage)
  | .newCircuit s => do return .circuit (← CC.newCircuit s)
  | .input r => do return .gate (← WrappingApi.input r)
  | .output r g => do return .wire (← WrappingApi.output r g)
  | .constant r v => do return .gate (← WrappingApi.constant r v)
  | .not r x => do return .gate (← WrappingApi.not r x)
  | .xor r a b => do return .gate (← WrappingApi.xor r a b)
  | .and r a b => do return .gate (← WrappingApi.and r a b)
  | .or r a b => do return .gate (← WrappingApi.or r a b)
  | .equivalent r a b => do return .gate (← WrappingApi.equivalent r a b)
  | .identity r x => do return .gate (← WrappingApi.identity r x)
  | .registerModule r m => do return .mid (← WrappingApi.registerModule r m)
  | .storeModule s m => do return .mid (← WrappingApi.storeModule s m)
  | .subCircuit r => do let (m, s) ← WrappingApi.subCircuit r; return .sub m s
  | .clone r => do return .circuit (← CC.cloneCircuit r)
  | .module r mid ids => do return .gates (← WrappingApi.module r mid ids)

/-- run a list of calls and record the history -/
def playR : List Op → World × List Ev → World × List Ev
  | [], x => x
  | op :: ops, (w, evs) => playR ops ((op.callR w).2, evs ++ [⟨op, w, (op.callR w).1⟩])

/-- `w` is reached by any calls in a release build -/
inductive RunR : World → Prop where
  | nil : RunR World.empty
  | step {w} (op : Op) : RunR w → RunR (op.callR w).2

/-- `w` is reached by valid calls in a release build -/
inductive ValidRunR : World → Prop where
  | nil : ValidRunR World.empty
  | step {w} (op : Op) : ValidRunR w → op.Valid w → ValidRunR (op.callR w).2

/-- the largest id a counter can hand out -/
def top : Nat := 2 ^ 64 - 1

/-- no id of this circuit has reached the largest number -/
structure RoomC (c : Circuit) : Prop where
  gate : c.gateMap top = none
  input : c.inputMap top = none
  output : c.outputMap top = none

/-- no id has reached the largest number. Ids are handed out in order and each one is a key of a map in memory, so every
heap that fits in a computer is like this. -/
structure Room (w : World) : Prop where
  circs : ∀ c ∈ w.circs, RoomC c
  stores : ∀ s ∈ w.stores, s.moduleMap top = none

/-- the two arithmetic panics -/
def Arith : Err → Prop
  | .panic .overflow | .panic .underflow => True
  | _ => False

end CC.Spec
