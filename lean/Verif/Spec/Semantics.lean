import Verif.Model.Circuit

/-!
# Spec: what a circuit means

`Val w r ins g b`: in circuit `r`, with input wires carrying `ins`, gate `g` has value `b` according to the truth tables;
a module gate has the value of the called circuit's output of the same index on the argument values. The definition
mentions neither evaluation order nor caches.
-/

namespace CC.Spec

inductive Val (w : World) : Ref → List Bool → GateId → Bool → Prop where
  | input {r c ins g k b} : w.circs[r]? = some c → c.gateMap g = some (.input k) → ins[k]? = some b → Val w r ins g b
  | const {r c ins g v} : w.circs[r]? = some c → c.gateMap g = some (.const v) → Val w r ins g v
  | not {r c ins g x a} : w.circs[r]? = some c → c.gateMap g = some (.not x) → Val w r ins x a →
      Val w r ins g (!a)
  | and {r c ins g x y a b} : w.circs[r]? = some c → c.gateMap g = some (.and x y) → Val w r ins x a →
      Val w r ins y b → Val w r ins g (a && b)
  | xor {r c ins g x y a b} : w.circs[r]? = some c → c.gateMap g = some (.xor x y) → Val w r ins x a →
      Val w r ins y b → Val w r ins g (a != b)
  | or {r c ins g x y a b} : w.circs[r]? = some c → c.gateMap g = some (.or x y) → Val w r ins x a →
      Val w r ins y b → Val w r ins g (a || b)
  | module {r c ins g nIn nOut ids oi mid mr mc bits o b} :
      w.circs[r]? = some c → c.gateMap g = some (.module nIn nOut ids oi mid) →
      w.module? c mid = some mr → w.circs[mr]? = some mc →
      bits.length = ids.length →
      (∀ (i : Nat) x a, ids[i]? = some x → bits[i]? = some a → Val w r ins x a) →
      bits.length = mc.inputLen →
      mc.outputMap oi = some o → Val w mr bits o b →
      Val w r ins g b

/-- the output bits of a circuit -/
def Outputs (w : World) (r : Ref) (ins outs : List Bool) : Prop :=
  ∃ c, w.circs[r]? = some c ∧ ins.length = c.inputLen ∧ outs.length = c.outputLen ∧
    ∀ i b, outs[i]? = some b → ∃ o, c.outputMap i = some o ∧ Val w r ins o b

/-- first id of the group a gate was created in: a module call creates consecutive gates, any other call one gate -/
def lead (g : GateId) : Gate → GateId
  | .module _ _ _ oi _ => g - oi
  | _ => g

/-- every operand existed before the gate was created -/
def Topo (c : Circuit) : Prop :=
  ∀ g gate, c.gateMap g = some gate → ∀ x ∈ gate.operands, x < lead g gate

/-- every module call has the right number of arguments for an existing circuit that has not gained inputs or outputs
since -/
def CallsOk (w : World) (c : Circuit) : Prop :=
  ∀ g nIn nOut ids oi mid, c.gateMap g = some (.module nIn nOut ids oi mid) →
    ∃ mr mc, w.module? c mid = some mr ∧ w.circs[mr]? = some mc ∧ ids.length = nIn ∧ nIn = mc.inputLen ∧
      nOut = mc.outputLen

/-- circuit `c` contains a call of circuit `mr` -/
def Calls (w : World) (c : Circuit) (mr : Ref) : Prop :=
  ∃ g nIn nOut ids oi mid, c.gateMap g = some (.module nIn nOut ids oi mid) ∧ w.module? c mid = some mr

/-- a well-built circuit: gates use existing gates, module calls fit, and the called circuits are well-built (so there is
no recursion) -/
inductive Built (w : World) : Ref → Prop where
  | mk {r c} : w.circs[r]? = some c → Topo c → CallsOk w c → (∀ mr, Calls w c mr → Built w mr) → Built w r

/-- `x` is needed to compute `g`: operands and the other gates of the same module call -/
inductive Reach (c : Circuit) (g : GateId) : GateId → Prop where
  | refl : Reach c g g
  | operand {y gate x} : Reach c g y → c.gateMap y = some gate → x ∈ gate.operands → Reach c g x
  | sibling {y nIn nOut ids oi mid k} : Reach c g y → c.gateMap y = some (.module nIn nOut ids oi mid) → k < nOut →
      Reach c g (y - oi + k)

/-- gate `o` can still be read when output `i` is computed: nobody reads it, or somebody outside the part needed for
the earlier outputs reads it, or a module call with several outputs reads it -/
def Readable (c : Circuit) (i : WireId) (o : GateId) : Prop :=
  (∀ g gate, c.gateMap g = some gate → o ∉ gate.operands) ∨
  ∃ g gate, c.gateMap g = some gate ∧ o ∈ gate.operands ∧
    ((∀ j p, j < i → c.outputMap j = some p → ¬ Reach c p g) ∨
      ∃ nIn nOut ids oi mid, gate = .module nIn nOut ids oi mid ∧ 2 ≤ nOut)

/-- well-built, and every output readable, here and in all called circuits -/
inductive Evaluable (w : World) : Ref → Prop where
  | mk {r c} : w.circs[r]? = some c → Topo c →
      (∀ i o, c.outputMap i = some o → Readable c i o) → CallsOk w c → (∀ mr, Calls w c mr → Evaluable w mr) →
      Evaluable w r

end CC.Spec
