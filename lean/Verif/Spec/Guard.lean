import Verif.Spec.Functions

/-!
# Programs that return copies of their results

`identity` (/repo/src/bool_circuit.rs:569-572) negates a gate twice.
-/

namespace CC.Spec.Functions

/-- the function, with every result passed through `identity` before it is returned -/
def Func.guarded (sigs : List Sig) (F : Func) : Func where
  arity := F.arity
  body := F.body ++ F.outs.map .copy
  outs := List.range' (F.arity + values sigs F.body) F.outs.length

/-- all functions of a library -/
def guard : List Sig → List Func → List Func
  | _, [] => []
  | sigs, F :: lib => F.guarded sigs :: guard (sigs ++ [F.sig sigs]) lib

/-- every function uses values and functions that exist; nothing about the order of results or the room for calls -/
def LibFine : List Sig → List Func → Prop
  | _, [] => True
  | sigs, F :: lib => F.Fine sigs ∧ LibFine (sigs ++ [F.sig sigs]) lib

/-- no line is a constant, and every line has a result that is returned or used by a later line; `m` values exist before the
first line -/
def Thrifty (sigs : List Sig) : Nat → List Line → List Nat → Prop
  | _, [], _ => True
  | m, l :: p, outs => l.source = false ∧
      (∃ i, m ≤ i ∧ i < m + l.width sigs ∧ (i ∈ outs ∨ ∃ l' ∈ p, i ∈ l'.operands)) ∧ Thrifty sigs (m + l.width sigs) p outs

/-- `F`, which may call the first `k` functions of the library, or a function it calls, directly or not, is not thrifty -/
inductive Spendthrift (lib : List Func) : Nat → Func → Prop where
  | own {k F} : ¬ Thrifty (signatures (lib.take k) []) F.arity F.body F.outs → Spendthrift lib k F
  | call {k F f args G} : Line.call f args ∈ F.body → lib[f]? = some G → Spendthrift lib f G → Spendthrift lib k F

/-- the line is a gate, or two; neither a constant nor a call -/
def Line.logic : Line → Bool
  | .const _ => false
  | .call _ _ => false
  | _ => true

end CC.Spec.Functions
