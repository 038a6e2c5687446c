import Verif.Spec.Mixed

/-!
# Spec: statements that use constants or the adder
-/

namespace CC.Spec.Mixed

/-- the statement adds constants to the circuit, its own or those of a module, or calls the adder, whose module has a gate that
is not needed: everything except new values, bitwise operations, selection, shifts to the right, conversions between words,
and the gates of the circuit -/
def Cmd.Spoils (n : Nat) : Cmd → Prop
  | .const _ | .zero | .one | .constant _ => True
  | .add _ _ | .sub _ _ | .mul _ _ | .neg _ => True
  | .eq _ _ | .neq _ _ | .less _ _ | .lessOrEq _ _ | .larger _ _ | .largerOrEq _ _ | .eqBits _ _ | .neqBits _ _ => True
  | .shl _ k => 1 ≤ k
  | .ofBit _ => 2 ≤ n
  | .newInt | .newBits | .input | .shr _ _ | .toInt _ | .toBits _ | .notBits _ | .andBits _ _ | .orBits _ _ | .xorBits _ _
  | .mux _ _ _ | .not _ | .and _ _ | .or _ _ | .xor _ _ | .equivalent _ _ | .identity _ => False

/-- the statement makes no gate: new values and shifts to the right -/
def Cmd.Moves : Cmd → Prop
  | .newInt | .newBits | .input | .shr _ _ => True
  | _ => False

/-- the statement makes logic gates, its own or those of a module, and no constants: bitwise operations, selection, the gates of
the circuit -/
def Cmd.Computes : Cmd → Prop
  | .notBits _ | .andBits _ _ | .orBits _ _ | .xorBits _ _ | .mux _ _ _ => True
  | .not _ | .and _ _ | .or _ _ | .xor _ _ | .equivalent _ _ | .identity _ => True
  | _ => False

/-- a new value, or a conversion between words -/
def Cmd.Passes : Cmd → Prop
  | .newInt | .newBits | .input | .toInt _ | .toBits _ => True
  | _ => False

/-- the values a statement of these kinds uses -/
def Cmd.reads : Cmd → List Nat
  | .toInt i | .toBits i | .notBits i | .not i | .identity i => [i]
  | .andBits i j | .orBits i j | .xorBits i j | .and i j | .or i j | .xor i j | .equivalent i j => [i, j]
  | .mux s i j => [s, i, j]
  | _ => []

/-- the value is a result, or is used by a statement whose value is, directly or not, of use for one -/
inductive Leads (p : List Cmd) (outs : List Nat) : Nat → Prop
  | result {i} : i ∈ outs → Leads p outs i
  | read {i j c} : p[j]? = some c → i ∈ c.reads → Leads p outs j → Leads p outs i

/-- every statement that computes something is of use for a result -/
def NoneIdle (p : List Cmd) (outs : List Nat) : Prop := ∀ i c, p[i]? = some c → c.Computes → Leads p outs i

end CC.Spec.Mixed
