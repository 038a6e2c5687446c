import Verif.Spec.Bristol
import Verif.Spec.Semantics

/-!
# Spec: printed files, and what inlining a circuit amounts to
-/

namespace CC.Spec.Bristol

/-- decimal digits of a number -/
def num (n : Nat) : Str := Nat.toDigits 10 n

/-- a gate line as printed -/
def GLine.text (l : GLine) : Str :=
  num l.args.length ++ " 1 ".toList ++ l.args.flatMap (fun x => num x ++ [' ']) ++ num l.out ++ [' '] ++ l.op.name ++ ['\n']

/-- gate lines as printed -/
def gatesText (ls : List GLine) : Str := ls.flatMap GLine.text

/-- a file as printed -/
def File.text (f : File) : Str :=
  num f.numGate ++ [' '] ++ num f.numWire ++ ['\n'] ++
  num f.ins.length ++ f.ins.flatMap (fun n => ' ' :: num n) ++ ['\n'] ++
  num f.outs.length ++ f.outs.flatMap (fun n => ' ' :: num n) ++ ['\n'] ++
  ['\n'] ++ gatesText f.gates

/-- the file written for circuit `c` with gate lines `ls` and `numFirst` bits in its first input: the header counts come
from the counters of the circuit, and constants are further inputs -/
def fileOf (c : Circuit) (numFirst : Nat) (ls : List GLine) : File where
  numGate := c.numGate
  numWire := c.numWire + c.numConst
  ins := [numFirst, c.inputLen + c.numConst - numFirst]
  outs := [c.outputLen]
  gates := ls

end CC.Spec.Bristol

namespace CC.Spec

/-- gate `g` is needed for some output -/
def Needed (c : Circuit) (g : GateId) : Prop := ∃ (i : Nat) (o : GateId), c.outputMap i = some o ∧ Reach c o g

/-- gate `g` is a NOT, XOR, AND or OR gate -/
def IsLogic (c : Circuit) (g : GateId) : Prop :=
  ∃ a b, c.gateMap g = some (.not a) ∨ c.gateMap g = some (.xor a b) ∨ c.gateMap g = some (.and a b) ∨
    c.gateMap g = some (.or a b)

/-- gate `g` is the first gate of a module call of circuit `mr` -/
def IsCall (w : World) (c : Circuit) (g : GateId) (mr : Ref) : Prop :=
  ∃ nIn nOut ids mid, c.gateMap g = some (.module nIn nOut ids 0 mid) ∧ w.module? c mid = some mr

/-- `own` are the values of the constant gates of `c` in the order of creation -/
def OwnConsts (c : Circuit) (own : List Bool) : Prop :=
  ∃ ks : List GateId, ks.Pairwise (· < ·) ∧ (∀ g, g ∈ ks ↔ ∃ v, c.gateMap g = some (.const v)) ∧
    All2 (fun g v => c.gateMap g = some (.const v)) ks own

/-- Writing circuit `r` with all module calls inlined takes `n` gate lines and the constants `bs`: the circuit's own
constants, and for each needed gate one line if it is a logic gate, and the lines and constants of the called circuit if
it is a module call. `gs` lists the logic gates and calls in some order, each once. -/
inductive Inlined (w : World) : Ref → Nat → List Bool → Prop where
  | mk {r c own} (gs : List GateId) (n : GateId → Nat) (b : GateId → List Bool) :
      w.circs[r]? = some c → OwnConsts c own → gs.Nodup →
      (∀ g, g ∈ gs ↔ Needed c g ∧ (IsLogic c g ∨ ∃ mr, IsCall w c g mr)) →
      (∀ g, g ∈ gs → IsLogic c g → n g = 1 ∧ b g = []) →
      (∀ g mr, g ∈ gs → IsCall w c g mr → Inlined w mr (n g) (b g)) →
      Inlined w r (gs.map n).sum (own ++ gs.flatMap b)

/-- the outputs are different logic gates, and no output is needed for an operand of an output -/
structure TidyOutputs (c : Circuit) : Prop where
  logic : ∀ i o, c.outputMap i = some o → IsLogic c o
  inj : ∀ i j o, c.outputMap i = some o → c.outputMap j = some o → i = j
  last : ∀ (i j : Nat) (o p : GateId) (gate : Gate) (x : GateId), c.outputMap i = some o → c.outputMap j = some p →
    c.gateMap p = some gate → x ∈ gate.operands → ¬ Reach c x o

end CC.Spec
