import Verif.Spec.Bits
import Verif.Spec.History
import Verif.Spec.Semantics

/-!
# Spec: numbers held by gates

Used for the integer, bit-vector and field types: what it means that a list of gates of a circuit holds a number, and
which calls may be made between creating a configuration and using it.
-/

namespace CC.Spec

/-- zero or more calls on circuit `r` -/
inductive On (r : Ref) (w : World) : World → Prop where
  | refl : On r w w
  | step {w'} (op : Op) : On r w w' → op.target = some r → On r w (op.call w').2

/-- `w0` is the heap before a configuration was made, `w1` the heap after it. Any calls may follow, on any circuits,
except on the module circuits the configuration created. -/
inductive Since (w0 w1 : World) : World → Prop where
  | refl : Since w0 w1 w1
  | step {w} (op : Op) : Since w0 w1 w →
      (∀ q, op.target = some q → q < w0.circs.length ∨ w1.circs.length ≤ q) → Since w0 w1 (op.call w).2

/-- the gates have these values -/
def Denotes (w : World) (r : Ref) (ins : List Bool) (gs : List GateId) (bs : List Bool) : Prop :=
  gs.length = bs.length ∧ ∀ (i : Nat) g b, gs[i]? = some g → bs[i]? = some b → Val w r ins g b

/-- the gates hold the number `v`, least significant bit first -/
def Num (w : World) (r : Ref) (ins : List Bool) (gs : List GateId) (v : Nat) : Prop :=
  ∃ bs, Denotes w r ins gs bs ∧ bitsVal bs = v

/-- the gates hold the two's-complement number `v` -/
def SNum (w : World) (r : Ref) (ins : List Bool) (gs : List GateId) (v : Int) : Prop :=
  ∃ bs, Denotes w r ins gs bs ∧ signedVal bs = v

/-- `w'` comes from `w` by calls on `r` which leave inputs, outputs and the values of the existing gates alone -/
structure Extends (r : Ref) (w w' : World) : Prop where
  on : On r w w'
  vals : ∀ ins g b, Val w r ins g b → Val w' r ins g b
  io : ∀ c c', w.circs[r]? = some c → w'.circs[r]? = some c' →
    c'.inputLen = c.inputLen ∧ c'.outputLen = c.outputLen ∧ ∀ i, c'.outputMap i = c.outputMap i

/-- the program succeeds, only extends circuit `r`, and `Q` holds of its result and the new heap -/
def Gives (r : Ref) (w : World) {α} (x : M α) (Q : α → World → Prop) : Prop :=
  ∃ a w', x w = (.ok a, w') ∧ Extends r w w' ∧ Q a w'

/-- `cfg` was made by `new` in some reachable heap `w0`, giving `w1`; `w` is any later heap -/
structure Made {κ} (new : M κ) (cfg : κ) (w0 w1 w : World) : Prop where
  reachable : Reachable w0
  made : new w0 = (.ok cfg, w1)
  since : Since w0 w1 w

end CC.Spec
