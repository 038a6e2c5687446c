import Verif.Model.Log
import Verif.Spec.Depth
import Verif.Spec.Readers

/-!
# Spec: what a log says about time and memory

`cost` adds up the prices of the gates computed. `frames` replays a log: for each evaluation that is going on, the innermost
first, which bits are stored and how often each was used since. `held` is the number of bits stored at the end of a log,
`Space` the number of gates on the longest chain of circuits that call each other.
-/

namespace CC.Spec
open CC.Log

/-- what the gates computed cost together -/
def cost (κ : Ref → GateId → Nat) : List Event → Nat
  | [] => 0
  | .compute r g :: l => κ r g + cost κ l
  | _ :: l => cost κ l

/-- an evaluation that is going on: of which circuit, the gates whose bits are stored, with the number of uses since, and
all gates that were ever stored, the last one first -/
structure Frame where
  circuit : Ref
  bits : List (GateId × Nat)
  done : List GateId

/-- the innermost evaluation stores `g` -/
def put (g : GateId) : List Frame → List Frame
  | [] => []
  | f :: fs => { f with bits := (g, 0) :: f.bits.filter (·.1 ≠ g), done := g :: f.done } :: fs

/-- the innermost evaluation uses `g`, for the last time or not -/
def use (g : GateId) (last : Bool) : List Frame → List Frame
  | [] => []
  | f :: fs =>
    { f with bits := if last then f.bits.filter (·.1 ≠ g) else f.bits.map fun p => if p.1 = g then (g, p.2 + 1) else p } :: fs

/-- one event -/
def replay (fs : List Frame) : Event → List Frame
  | .enter r => ⟨r, [], []⟩ :: fs
  | .leave _ => fs.tail
  | .store _ g => put g fs
  | .count _ g last => use g last fs
  | .compute _ _ => fs
  | .look _ _ _ => fs
  | .read _ _ => fs

/-- the evaluations going on after the events of a log -/
def frames (l : List Event) : List Frame := l.foldl replay []

/-- the number of bits stored after the events of a log -/
def held (l : List Event) : Nat := ((frames l).map (·.bits.length)).sum

/-- circuit `r` and any chain of circuits called from it have at most `n` gates together -/
inductive Space (w : World) : Ref → Nat → Prop where
  | mk {r c m n} : w.circs[r]? = some c → (∀ mr, Calls w c mr → Space w mr m) → c.gateIndex + m ≤ n → Space w r n

/-- In an evaluation that is going on, no bit is stored twice, all belong to gates, and each still has a reader to come or
has no readers at all: a gate with `d` readers is no longer stored once its bit was used `d` times. -/
structure Sparing (w : World) (f : Frame) : Prop where
  nodup : (f.bits.map (·.1)).Nodup
  live : ∀ g k, (g, k) ∈ f.bits → ∃ c, w.circs[f.circuit]? = some c ∧ g < c.gateIndex ∧
    (k < (readers c g).length ∨ readers c g = [])

/-- how often the computation of `y` reads `x`; a module call, which computes several gates, reads when it computes the first -/
def reads (c : Circuit) (y x : GateId) : Nat :=
  match c.gateMap y with
  | none => 0
  | some (.module _ _ ids oi _) => if oi = 0 then ids.count x else 0
  | some gate => gate.operands.count x

/-- how often `x` was read by the gates stored since it was stored itself -/
def uses (c : Circuit) (x : GateId) : List GateId → Nat
  | [] => 0
  | y :: ys => if y = x then 0 else reads c y x + uses c x ys

/-- What an event says is true when it happens. All events but the beginning of an evaluation belong to the innermost
evaluation. A bit is found exactly if it is stored. A use is the last one exactly if it is the use by the last reader. When the bit of a gate
is stored, every stored bit has been used exactly once for every reading by the gates stored since, the new one included. -/
def Told (w : World) (fs : List Frame) : Event → Prop
  | .enter _ => True
  | .leave r => ∃ f, fs.head? = some f ∧ f.circuit = r
  | .compute r _ => ∃ f, fs.head? = some f ∧ f.circuit = r
  | .read r _ => ∃ f, fs.head? = some f ∧ f.circuit = r
  | .store r g => ∃ f c, fs.head? = some f ∧ f.circuit = r ∧ w.circs[r]? = some c ∧
      ∀ x k, (x, k) ∈ f.bits → k = uses c x f.done + reads c g x
  | .look r g found => ∃ f, fs.head? = some f ∧ f.circuit = r ∧ (found = true ↔ ∃ k, (g, k) ∈ f.bits)
  | .count r g last => ∃ f c k, fs.head? = some f ∧ f.circuit = r ∧ w.circs[r]? = some c ∧ (g, k) ∈ f.bits ∧
      (last = true ↔ k + 1 = (readers c g).length)

end CC.Spec
