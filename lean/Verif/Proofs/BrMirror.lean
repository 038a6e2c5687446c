import Verif.Proofs.BrTwin
import Verif.Proofs.BrFile

/-!
# What the writer writes for a circuit without modules, and what the reader makes of it

`Mir`: wires are given to gates one to one, and the line of a wire is the gate with its operands replaced by their wires.
`Mirror`: the circuit that the reader builds from such lines; gate ids are wire numbers.
-/

namespace CC.Bristol
open CC.Spec CC.Spec.Bristol

/-! ### writer -/

/-- the gate is a logic gate with operation `op` -/
inductive OpOf : Gate → GOp → Prop
  | not (x : GateId) : OpOf (.not x) .inv
  | xor (x y : GateId) : OpOf (.xor x y) .xor
  | and (x y : GateId) : OpOf (.and x y) .and
  | or (x y : GateId) : OpOf (.or x y) .or

theorem OpOf.str {gate op} (h : OpOf gate op) : gateStr gate = op.name := by cases h <;> rfl

/-- a circuit of inputs and logic gates only -/
def Flat (c : Circuit) : Prop := ∀ g gate, c.gateMap g = some gate → (∃ k, gate = .input k) ∨ ∃ op, OpOf gate op

/-- wires are given one to one, and the lines are the gates; `n` is the number of inputs -/
structure Mir (c : Circuit) (n : Nat) (pre : Str) (ls : List GLine) (s : WS) : Prop where
  out : s.1.out = pre ++ gatesText ls
  wire : s.1.numWire = n + ls.length
  inj : ∀ g h x, s.2 g = some x → s.2 h = some x → g = h
  lt : ∀ g x, s.2 g = some x → x < n + ls.length
  low : ∀ g x, s.2 g = some x → x < n → c.gateMap g = some (.input x)
  line : ∀ g x, s.2 g = some x → n ≤ x → ∃ gate l, c.gateMap g = some gate ∧ ls[x - n]? = some l ∧ l.out = x ∧
    OpOf gate l.op ∧ All2 (fun id y => s.2 id = some y) gate.operands l.args
  ins : ∀ g k, c.gateMap g = some (.input k) → s.2 g ≠ none
  onto : ∀ x, x < n + ls.length → ∃ g, s.2 g = some x

/-- from `s` to `s1` only gates in `B` were given wires -/
def Ran (c : Circuit) (n : Nat) (pre : Str) (B : GateId → Prop) (s s1 : WS) : Prop :=
  ∀ ls, Mir c n pre ls s → ∃ ls', Mir c n pre ls' s1 ∧ (∀ h x, s.2 h = some x → s1.2 h = some x) ∧
    ∀ h, s1.2 h ≠ none → s.2 h ≠ none ∨ B h

section
variable {c : Circuit} {n : Nat} {pre : Str} {B : GateId → Prop}

theorem Ran.refl (s : WS) : Ran c n pre B s s := fun ls h => ⟨ls, h, fun _ _ e => e, fun _ e => .inl e⟩

theorem Ran.trans {s s1 s2 : WS} (h1 : Ran c n pre B s s1) (h2 : Ran c n pre B s1 s2) : Ran c n pre B s s2 := by
  intro ls h
  obtain ⟨ls1, k1, k2, k3⟩ := h1 ls h
  obtain ⟨ls2, l1, l2, l3⟩ := h2 ls1 k1
  refine ⟨ls2, l1, fun g x e => l2 g x (k2 g x e), fun g e => ?_⟩
  rcases l3 g e with e | e
  · exact k3 g e
  · exact .inr e

theorem Ran.mono {B' : GateId → Prop} {s s1 : WS} (h : Ran c n pre B s s1) (hB : ∀ g, B g → B' g) : Ran c n pre B' s s1 := by
  intro ls hm
  obtain ⟨ls1, k1, k2, k3⟩ := h ls hm
  exact ⟨ls1, k1, k2, fun g e => (k3 g e).imp_right (hB g)⟩

theorem wiresOf_all2 {wog : Map GateId Nat} : ∀ {ids : List GateId} {ws : List Nat}, wiresOf wog ids = .ok ws →
    All2 (fun id y => wog id = some y) ids ws
  | [], ws, h => by cases h; trivial
  | id :: ids, ws, h => by
    unfold wiresOf at h
    cases hx : wog id with
    | none => rw [hx] at h; cases h
    | some x =>
      rw [hx] at h
      obtain ⟨xs, e1, e2⟩ := ok_bind h
      cases e2
      exact ⟨hx, wiresOf_all2 e1⟩

theorem all2_mono {α β} {R R' : α → β → Prop} (h : ∀ a b, R a b → R' a b) : ∀ {xs : List α} {ys : List β},
    All2 R xs ys → All2 R' xs ys
  | [], [], _ => trivial
  | _ :: _, _ :: _, k => ⟨h _ _ k.1, all2_mono h k.2⟩

/-- a line is written -/
theorem updateWire_ran {g : GateId} {gate : Gate} {op : GOp} {ws : List Nat} {s : WS} (hg : c.gateMap g = some gate)
    (ho : OpOf gate op) (hno : s.2 g = none) (hws : wiresOf s.2 gate.operands = .ok ws) :
    Ran c n pre (· = g) s (updateWire g (some ws) (gateStr gate) s) := by
  intro ls h
  have hmono : ∀ h x, s.2 h = some x → (s.2.insert g s.1.numWire) h = some x := by
    intro h x e
    rw [Map.insert_ne _ _ (by rintro rfl; rw [hno] at e; cases e)]; exact e
  have hcases : ∀ h x, (s.2.insert g s.1.numWire) h = some x → (h = g ∧ x = s.1.numWire) ∨ (h ≠ g ∧ s.2 h = some x) := by
    intro h x e
    by_cases he : h = g
    · subst he; rw [Map.insert_self] at e; cases e; exact .inl ⟨rfl, rfl⟩
    · rw [Map.insert_ne _ _ he] at e; exact .inr ⟨he, e⟩
  refine ⟨ls ++ [⟨op, ws, s.1.numWire⟩], ?_, hmono, ?_⟩
  · have hw := h.wire
    refine ⟨?_, ?_, ?_, ?_, ?_, ?_, ?_, ?_⟩
    · simp only [updateWire]
      rw [h.out, ho.str, gateLine_text]
      simp [gatesText]
    · simp only [updateWire, List.length_append, List.length_singleton]; omega
    · intro a b x ha hb
      simp only [updateWire] at ha hb
      rcases hcases a x ha with ⟨rfl, rfl⟩ | ⟨ha1, ha2⟩ <;> rcases hcases b _ hb with ⟨rfl, hx⟩ | ⟨hb1, hb2⟩
      · rfl
      · have := h.lt _ _ hb2; omega
      · have := h.lt _ _ ha2; omega
      · exact h.inj a b x ha2 hb2
    · intro a x ha
      simp only [updateWire] at ha
      rw [List.length_append, List.length_singleton]
      rcases hcases a x ha with ⟨rfl, rfl⟩ | ⟨ha1, ha2⟩
      · omega
      · have := h.lt _ _ ha2; omega
    · intro a x ha hx
      simp only [updateWire] at ha
      rcases hcases a x ha with ⟨rfl, rfl⟩ | ⟨ha1, ha2⟩
      · omega
      · exact h.low a x ha2 hx
    · intro a x ha hx
      simp only [updateWire] at ha ⊢
      rcases hcases a x ha with ⟨rfl, rfl⟩ | ⟨ha1, ha2⟩
      · refine ⟨gate, ⟨op, ws, s.1.numWire⟩, hg, ?_, rfl, ho, all2_mono hmono (wiresOf_all2 hws)⟩
        rw [hw, Nat.add_sub_cancel_left, List.getElem?_append_right (Nat.le_refl _)]
        simp
      · obtain ⟨gate', l, k1, k2, k3, k4, k5⟩ := h.line a x ha2 hx
        refine ⟨gate', l, k1, ?_, k3, k4, all2_mono hmono k5⟩
        rw [List.getElem?_append_left (by have := h.lt _ _ ha2; omega)]; exact k2
    · intro a k ha
      simp only [updateWire]
      cases e : s.2 a with
      | none => exact absurd e (h.ins a k ha)
      | some x => rw [hmono a x e]; simp
    · intro x hx
      rw [List.length_append, List.length_singleton] at hx
      by_cases he : x = n + ls.length
      · refine ⟨g, ?_⟩
        simp only [updateWire, Map.insert_self]
        rw [hw, he]
      · obtain ⟨a, ha⟩ := h.onto x (by omega)
        exact ⟨a, hmono a x ha⟩
  · intro a ha
    simp only [updateWire] at ha
    by_cases he : a = g
    · exact .inr he
    · rw [Map.insert_ne _ _ he] at ha; exact .inl ha

/-- the gate writer behaves -/
def RanGate (c : Circuit) (n : Nat) (pre : Str) (wg : WriteGate) : Prop :=
  ∀ g gate s s1, c.gateMap g = some gate → s.2 g = none → wg g gate s = .ok s1 → Ran c n pre (· ≤ g) s s1

theorem ensureWire_ran {wg : WriteGate} (hg : RanGate c n pre wg) {id : GateId} {s s1 : WS}
    (h : ensureWire c wg id s = .ok s1) : Ran c n pre (· ≤ id) s s1 := by
  unfold ensureWire at h
  split at h
  · cases h; exact .refl _
  · next hno =>
    split at h
    · cases h
    · next gate hgate => exact hg id gate s s1 hgate hno h

theorem ensureWires_ran {wg : WriteGate} (hg : RanGate c n pre wg) : ∀ {ids : List GateId} {s s1 : WS},
    (∀ x ∈ ids, ∀ g, g ≤ x → B g) → ensureWires c wg ids s = .ok s1 → Ran c n pre B s s1
  | [], s, s1, _, h => by cases h; exact .refl _
  | id :: ids, s, s1, hB, h => by
    unfold ensureWires at h
    obtain ⟨s2, e1, e2⟩ := ok_bind h
    exact ((ensureWire_ran hg e1).mono (hB id (List.mem_cons_self ..))).trans
      (ensureWires_ran hg (fun x hx => hB x (List.mem_cons_of_mem _ hx)) e2)

theorem writeGate_ran {w : World} {r : Ref} (hc : w.circs[r]? = some c) (ht : Topo c) (hf : Flat c) : ∀ fuel,
    RanGate c n pre (writeGate w fuel r)
  | 0, g, gate, s, s1, _, _, h => by cases h
  | fuel + 1, g, gate, s, s1, hgate, hno, h => by
    intro ls hm
    rcases hf g gate hgate with ⟨k, rfl⟩ | ⟨op, ho⟩
    · exact absurd hno (hm.ins g k hgate)
    · have e : writeGate w (fuel + 1) r g gate s = (do
          let s ← ensureWires c (writeGate w fuel r) gate.operands s
          let ws ← wiresOf s.2 gate.operands
          .ok (updateWire g (some ws) (gateStr gate) s)) := by
        unfold writeGate
        rw [bind_of_ok (circuit_of hc)]
        cases ho <;> rfl
      rw [e] at h
      obtain ⟨s2, e1, h⟩ := ok_bind h
      obtain ⟨ws, e2, h⟩ := ok_bind h
      cases h
      have r1 := ensureWires_ran (B := (· < g)) (writeGate_ran hc ht hf fuel)
        (fun x hx y hy => by
          have := ht g gate hgate x hx
          have e : lead g gate = g := by cases ho <;> rfl
          omega) e1
      have hno2 : s2.2 g = none := by
        obtain ⟨ls1, _, _, k3⟩ := r1 ls hm
        cases e : s2.2 g with
        | none => rfl
        | some x =>
          rcases k3 g (by rw [e]; simp) with e' | e'
          · exact absurd hno e'
          · exact absurd e' (Nat.lt_irrefl _)
      exact ((r1.mono (fun x hx => Nat.le_of_lt hx)).trans
        ((updateWire_ran hgate ho hno2 e2).mono (fun x hx => Nat.le_of_eq hx))) ls hm

theorem writePass1_ran {wg : WriteGate} (hg : RanGate c n pre wg) : ∀ {k i : Nat} {s s1 : WS} {outs},
    writePass1 c wg i k s = .ok (outs, s1) → Ran c n pre (fun _ => True) s s1 ∧ ∀ p ∈ outs, c.gateMap p.1 = some p.2
  | 0, i, s, s1, outs, h => by cases h; exact ⟨.refl _, by simp⟩
  | k + 1, i, s, s1, outs, h => by
    unfold writePass1 at h
    split at h
    · cases h
    · split at h
      · cases h
      · next g _ gate hgate =>
        obtain ⟨s2, e1, h⟩ := ok_bind h
        obtain ⟨⟨rest, s3⟩, e2, h⟩ := ok_bind h
        cases h
        obtain ⟨k1, k2⟩ := writePass1_ran hg e2
        refine ⟨(ensureWires_ran hg (fun _ _ _ _ => trivial) e1).trans k1, ?_⟩
        intro p hp
        rcases List.mem_cons.mp hp with rfl | hp
        · exact hgate
        · exact k2 p hp

theorem writePass2_ran {wg : WriteGate} (hg : RanGate c n pre wg) : ∀ {outs : List (GateId × Gate)} {s s1 : WS},
    (∀ p ∈ outs, c.gateMap p.1 = some p.2) → writePass2 wg outs s = .ok s1 → Ran c n pre (fun _ => True) s s1
  | [], s, s1, _, h => by cases h; exact .refl _
  | (g, gate) :: rest, s, s1, ho, h => by
    unfold writePass2 at h
    have ho' := fun p hp => ho p (List.mem_cons_of_mem _ hp)
    split at h
    · exact writePass2_ran hg ho' h
    · next hno =>
      obtain ⟨s2, e1, h⟩ := ok_bind h
      exact ((hg g gate s s2 (ho (g, gate) (List.mem_cons_self ..)) hno e1).mono (fun _ _ => trivial)).trans
        (writePass2_ran hg ho' h)

/-- writing gives the inputs their wires and then goes over the outputs twice -/
theorem write_split {w : World} {r : Ref} (hwf : WFc c) (hc : w.circs[r]? = some c)
    (hk : c.numConst = 0) {fuel k : Nat} {res : Written} (h : write w fuel r k WSt.new Map.empty = .ok res) :
    ∃ s1 outs s4, s1.1.out = header c k ∧ s1.1.numWire = c.inputLen ∧
      (∀ g x, s1.2 g = some x ↔ c.gateMap g = some (.input x)) ∧
      writePass1 c (writeGate w fuel r) 0 c.outputLen s1 = .ok (outs, s4) ∧
      writePass2 (writeGate w fuel r) outs s4 = .ok (res.st, res.wog) := by
  unfold write at h
  rw [bind_of_ok (circuit_of hc)] at h
  simp only at h
  split at h
  · cases h
  obtain ⟨s1, e1, h⟩ := ok_bind h
  obtain ⟨s2, e2, h⟩ := ok_bind h
  obtain ⟨cs, e3, h⟩ := ok_bind h
  cases h
  have hfuel : ∃ f, fuel = f + 1 ∨ c.inputLen = 0 := by
    cases fuel with
    | succ f => exact ⟨f, .inl rfl⟩
    | zero =>
      refine ⟨0, .inr ?_⟩
      rcases Nat.eq_zero_or_pos c.inputLen with e | e
      · exact e
      · obtain ⟨g, hg⟩ := Option.isSome_iff_exists.mp ((hwf.input_dom 0).mpr e)
        have hgate := (hwf.input_iff 0 g).mp hg
        obtain ⟨m, hm⟩ : ∃ m, c.inputLen = m + 1 := ⟨c.inputLen - 1, by omega⟩
        rw [hm, writeInputs, hg] at e1
        simp only at e1
        rw [hgate] at e1
        simp only [writeGate] at e1
        cases e1
  have k5 : s1.1.out = header c k ∧ s1.1.numWire = c.inputLen ∧ ∀ g x, s1.2 g = some x ↔ c.gateMap g = some (.input x) := by
    obtain ⟨f, hfu | hfu⟩ := hfuel
    · subst hfu
      obtain ⟨s1', k1, k2, k3, k4, k5⟩ := writeInputs_ok (fuel := f) hwf hc c.inputLen 0 (by omega)
        (s := ({ WSt.new with out := WSt.new.out ++ header c k, constOf := Map.empty }, Map.empty)) rfl (by simp)
      rw [k1] at e1
      cases e1
      simp only [Nat.zero_add] at k2 k5
      refine ⟨by rw [k3]; rfl, k2, fun g x => ?_⟩
      rw [k5]
      exact ⟨fun h => h.2, fun h => ⟨(hwf.input_dom x).mp (by rw [(hwf.input_iff x g).mpr h]; rfl), h⟩⟩
    · rw [hfu] at e1
      cases e1
      refine ⟨rfl, hfu.symm, fun g x => ⟨fun e => (by simp at e), fun e => ?_⟩⟩
      have := (hwf.input_dom x).mp (by rw [(hwf.input_iff x g).mpr e]; rfl)
      omega
  obtain ⟨a1, a2, a3⟩ := k5
  have hcg : c.constGates = [] := List.eq_nil_of_length_eq_zero (by have := hwf.consts; omega)
  unfold writeAll at e2
  rw [hcg] at e2
  obtain ⟨s3, e4, e2⟩ := ok_bind e2
  cases e4
  obtain ⟨⟨outs, s4⟩, e5, e6⟩ := ok_bind e2
  refine ⟨_, outs, s4, ?_, ?_, ?_, e5, e6⟩
  · exact a1
  · simp only [a2, hk, Nat.add_zero]
  · exact a3

/-- the lines written for a circuit of inputs and logic gates are its gates -/
theorem write_mir {w : World} {r : Ref} (hwf : WFc c) (hc : w.circs[r]? = some c) (ht : Topo c) (hf : Flat c)
    (hk : c.numConst = 0) {fuel k : Nat} {res : Written} (h : write w fuel r k WSt.new Map.empty = .ok res) :
    ∃ ls, Mir c c.inputLen (header c k) ls (res.st, res.wog) := by
  obtain ⟨s1, outs, s4, a1, a2, a3, e5, e6⟩ := write_split hwf hc hk h
  have hg := writeGate_ran (n := c.inputLen) (pre := header c k) hc ht hf fuel
  obtain ⟨r1, r2⟩ := writePass1_ran hg e5
  obtain ⟨ls, hm, _⟩ := (r1.trans (writePass2_ran hg r2 e6)) [] {
    out := by simp [a1, gatesText]
    wire := by simp only [a2, List.length_nil, Nat.add_zero]
    inj := by
      intro g h x hg hh
      have e1 := (a3 g x).mp hg
      have e2 := (a3 h x).mp hh
      have := (hwf.input_iff x g).mpr e1
      rw [(hwf.input_iff x h).mpr e2] at this
      cases this; rfl
    lt := by
      intro g x hg
      have := (hwf.input_dom x).mp (by rw [(hwf.input_iff x g).mpr ((a3 g x).mp hg)]; rfl)
      simpa using this
    low := fun g x hg _ => (a3 g x).mp hg
    line := by
      intro g x hg hx
      have := (hwf.input_dom x).mp (by rw [(hwf.input_iff x g).mpr ((a3 g x).mp hg)]; rfl)
      omega
    ins := by
      intro g k hg
      rw [(a3 g k).mpr hg]; simp
    onto := by
      intro x hx
      obtain ⟨g, hg⟩ := Option.isSome_iff_exists.mp ((hwf.input_dom x).mpr (by simpa using hx))
      exact ⟨g, (a3 g x).mpr ((hwf.input_iff x g).mp hg)⟩ }
  exact ⟨ls, hm⟩

end

/-! ### reader -/

/-- the gate read for a line when gate ids are wire numbers -/
def gateOf (l : GLine) : Option Gate :=
  match l.op, l.args with
  | .inv, [a] => some (.not a)
  | .xor, [a, b] => some (.xor a b)
  | .and, [a, b] => some (.and a b)
  | .or, [a, b] => some (.or a b)
  | _, _ => none

/-- the circuit of `n` inputs and the lines `ls`, whose outputs are numbered from `n` on, without its outputs -/
structure Mirror (n : Nat) (ls : List GLine) (c : Circuit) : Prop where
  gateIndex : c.gateIndex = n + ls.length
  gate : ∀ g, c.gateMap g = if g < n then some (.input g) else (ls[g - n]?).bind gateOf
  inputLen : c.inputLen = n
  inputMap : ∀ k, c.inputMap k = if k < n then some k else none
  numGate : c.numGate = ls.length
  numWire : c.numWire = n + ls.length
  numConst : c.numConst = 0
  constGates : c.constGates = []

theorem mirror_new (s : StoreRef) : Mirror 0 [] (Circuit.new s) :=
  ⟨rfl, fun _ => rfl, rfl, fun _ => rfl, rfl, rfl, rfl, rfl⟩

theorem Mirror.input {n : Nat} {c : Circuit} (h : Mirror n [] c) : Mirror (n + 1) [] c.input.2 := by
  have h1 := h.gateIndex
  have h2 := h.inputLen
  have h3 := h.numWire
  simp only [List.length_nil, Nat.add_zero] at h1 h3
  refine ⟨?_, ?_, ?_, ?_, ?_, ?_, ?_, ?_⟩ <;> simp only [Circuit.input, Circuit.addGate]
  · simp [h1]
  · intro g
    rw [Map.insert_apply, h1, h2]
    have := h.gate g
    simp only [List.getElem?_nil, Option.bind_none] at this ⊢
    split
    · next e => subst e; rw [if_pos (by omega)]
    · rw [this]
      split
      · rw [if_pos (by omega)]
      · rw [if_neg (by omega)]
  · omega
  · intro k
    rw [Map.insert_apply, h1, h2]
    split
    · next e => subst e; rw [if_pos (by omega)]
    · rw [h.inputMap]
      split
      · rw [if_pos (by omega)]
      · rw [if_neg (by omega)]
  · exact h.numGate
  · simp [h3]
  · exact h.numConst
  · exact h.constGates

theorem addDependence_gateMap (c : Circuit) (x y : GateId) : (c.addDependence x y).gateMap = c.gateMap := by
  unfold Circuit.addDependence; split <;> rfl

/-- a logic gate is appended -/
theorem Mirror.step {n : Nat} {ls : List GLine} {c c' : Circuit} (h : Mirror n ls c) {l : GLine} {gate : Gate}
    (hl : gateOf l = some gate) (h1 : c'.gateIndex = c.gateIndex + 1)
    (h2 : c'.gateMap = c.gateMap.insert c.gateIndex gate) (h3 : c'.inputLen = c.inputLen)
    (h4 : c'.inputMap = c.inputMap) (h5 : c'.numGate = c.numGate + 1) (h6 : c'.numWire = c.numWire + 1)
    (h7 : c'.numConst = c.numConst) (h8 : c'.constGates = c.constGates) : Mirror n (ls ++ [l]) c' := by
  have k1 := h.gateIndex
  have k2 := h.numGate
  have k3 := h.numWire
  refine ⟨?_, ?_, by rw [h3, h.inputLen], by rw [h4]; exact h.inputMap, ?_, ?_, by rw [h7, h.numConst], by rw [h8, h.constGates]⟩
  · rw [List.length_append, List.length_singleton]; omega
  · intro g
    rw [h2, Map.insert_apply, k1]
    split
    · next e =>
      subst e
      rw [if_neg (by omega), Nat.add_sub_cancel_left, List.getElem?_append_right (Nat.le_refl _)]
      simp [hl]
    · rw [h.gate]
      split
      · rfl
      · by_cases hg : g < n + ls.length
        · rw [List.getElem?_append_left (by omega)]
        · rw [List.getElem?_eq_none (by omega), List.getElem?_eq_none (by simp; omega)]
  · rw [List.length_append, List.length_singleton]; omega
  · rw [List.length_append, List.length_singleton]; omega

/-- the outputs were not touched -/
def SameOut (c c' : Circuit) : Prop := c'.outputLen = c.outputLen ∧ c'.outputMap = c.outputMap

theorem addDependence_eq (c : Circuit) (x y : GateId) : ∃ d, c.addDependence x y = { c with depMap := d } := by
  unfold Circuit.addDependence; split <;> exact ⟨_, rfl⟩

theorem Mirror.not {n ls c} (h : Mirror n ls c) {l : GLine} {x : GateId} (hl : gateOf l = some (.not x)) :
    Mirror n (ls ++ [l]) (c.not x).2 ∧ SameOut c (c.not x).2 := by
  obtain ⟨d, e⟩ := addDependence_eq (c.addGate (.not x)).2 x c.gateIndex
  have e' : (c.not x).2 = { (c.addGate (.not x)).2 with depMap := d, numGate := c.numGate + 1 } := by
    show { (c.addGate (.not x)).2.addDependence x c.gateIndex with
      numGate := ((c.addGate (.not x)).2.addDependence x c.gateIndex).numGate + 1 } = _
    rw [e]; rfl
  rw [e']
  exact ⟨h.step hl rfl rfl rfl rfl rfl rfl rfl rfl, rfl, rfl⟩

theorem Mirror.two {n ls c} (h : Mirror n ls c) {l : GLine} {gate : Gate} (hl : gateOf l = some gate) (x y : GateId)
    {c' : Circuit} (hc : c' = { ((c.addGate gate).2.addDependence x c.gateIndex).addDependence y c.gateIndex with
      numGate := (((c.addGate gate).2.addDependence x c.gateIndex).addDependence y c.gateIndex).numGate + 1 }) :
    Mirror n (ls ++ [l]) c' ∧ SameOut c c' := by
  obtain ⟨d, e⟩ := addDependence_eq (c.addGate gate).2 x c.gateIndex
  obtain ⟨d', e'⟩ := addDependence_eq ((c.addGate gate).2.addDependence x c.gateIndex) y c.gateIndex
  have e' : c' = { (c.addGate gate).2 with depMap := d', numGate := c.numGate + 1 } := by
    rw [hc, e', e]; rfl
  rw [e']
  exact ⟨h.step hl rfl rfl rfl rfl rfl rfl rfl rfl, rfl, rfl⟩

/-- the first `k` wires are bound to the gates with the same number -/
def upTo (k : Nat) : GOW := fun x => if x < k then some x else none

theorem upTo_insert (k : Nat) : (upTo k).insert k k = upTo (k + 1) := by
  funext x
  rw [Map.insert_apply]
  unfold upTo
  split
  · next e => subst e; rw [if_pos (by omega)]
  · split
    · rw [if_pos (by omega)]
    · rw [if_neg (by omega)]

theorem readInputBits_mirror {r : Ref} : ∀ (k n : Nat) {w : World} {c : Circuit}, w.circs[r]? = some c → Mirror n [] c →
    ∃ w' c', readInputBits r (upTo n) n k w = (.ok (upTo (n + k)), w') ∧ w'.circs[r]? = some c' ∧ Mirror (n + k) [] c' ∧
      SameOut c c'
  | 0, n, w, c, hc, h => ⟨w, c, rfl, hc, h, rfl, rfl⟩
  | k + 1, n, w, c, hc, h => by
    obtain ⟨w', c', k1, k2, k3, k4, k5⟩ := readInputBits_mirror (r := r) k (n + 1) (setC_get hc c.input.2) h.input
    have e : n + (k + 1) = n + 1 + k := by omega
    refine ⟨w', c', ?_, k2, by rw [e]; exact k3, k4, k5⟩
    have hg : c.gateIndex = n := by have := h.gateIndex; simpa using this
    rw [readInputBits, bind_ok (input_eq hc), hg, upTo_insert, k1, e]

theorem readInputs_mirror {r : Ref} : ∀ (ns : List Nat) (sum : Nat) {ts rest : List Str} {w : World} {c : Circuit},
    w.circs[r]? = some c → Mirror sum [] c → All2 Numeral ts ns →
    ∃ w' c', readInputs r (upTo sum) sum ns.length (ts ++ rest) w = (.ok (upTo (sum + ns.sum)), w') ∧
      w'.circs[r]? = some c' ∧ Mirror (sum + ns.sum) [] c' ∧ SameOut c c'
  | [], sum, ts, rest, w, c, hc, h, _ => ⟨w, c, rfl, hc, h, rfl, rfl⟩
  | n :: ns, sum, ts, rest, w, c, hc, h, hts => by
    cases ts with
    | nil => exact hts.elim
    | cons t ts =>
      obtain ⟨w1, c1, h1, h2, h3, h4, h5⟩ := readInputBits_mirror n sum hc h
      obtain ⟨w2, c2, k1, k2, k3, k4, k5⟩ := readInputs_mirror ns (sum + n) (rest := rest) h2 h3 hts.2
      have e : sum + (n :: ns).sum = sum + n + ns.sum := by rw [List.sum_cons]; omega
      refine ⟨w2, c2, ?_, k2, by rw [e]; exact k3, k4.trans h4, k5.trans h5⟩
      rw [List.length_cons, List.cons_append, readInputs, bind_lift_ok (nextUsize_cons hts.1)]
      simp only []
      rw [bind_ok h1, k1, e]

theorem all2_upTo {k : Nat} : ∀ {xs : List Nat} {gs : List GateId}, All2 (fun x g => upTo k x = some g) xs gs → gs = xs
  | [], [], _ => rfl
  | x :: xs, g :: gs, h => by
    have h1 : upTo k x = some g := h.1
    unfold upTo at h1
    split at h1
    · cases h1; rw [all2_upTo h.2]
    · cases h1

theorem readGateOp_mirror {r : Ref} {w : World} {c : Circuit} (hc : w.circs[r]? = some c) {n : Nat} {ls : List GLine}
    (h : Mirror n ls c) {l : GLine} (hl : gateOf l ≠ none) (ho : l.out = n + ls.length) :
    ∃ w' c', readGateOp r (upTo (n + ls.length)) l.args [l.out] l.op.name w = (.ok (upTo (n + ls.length + 1)), w') ∧
      w'.circs[r]? = some c' ∧ Mirror n (ls ++ [l]) c' ∧ SameOut c c' := by
  obtain ⟨op, args, out⟩ := l
  simp only at ho
  subst ho
  have hg := h.gateIndex
  have fin : ∀ {x : M GateId} {c' : Circuit}, x w = (.ok c.gateIndex, w.setC r c') →
      (Mirror n (ls ++ [⟨op, args, n + ls.length⟩]) c' ∧ SameOut c c') →
      ∃ w' c', (x >>= fun g => (pure ((upTo (n + ls.length)).insert (n + ls.length) g) : M GOW)) w =
        (.ok (upTo (n + ls.length + 1)), w') ∧ w'.circs[r]? = some c' ∧
        Mirror n (ls ++ [⟨op, args, n + ls.length⟩]) c' ∧ SameOut c c' := by
    intro x c' e k
    refine ⟨_, c', ?_, setC_get hc c', k⟩
    rw [bind_ok e, hg, upTo_insert]; rfl
  cases op <;> rcases args with _ | ⟨a, _ | ⟨b, _ | ⟨d, args⟩⟩⟩ <;> first | exact absurd rfl hl | skip
  · exact fin (not_eq hc a) (h.not rfl)
  · exact fin (xor_eq hc a b) (h.two (gate := .xor a b) rfl a b rfl)
  · exact fin (and_eq hc a b) (h.two (gate := .and a b) rfl a b rfl)
  · exact fin (or_eq hc a b) (h.two (gate := .or a b) rfl a b rfl)

theorem readGates_mirror {r : Ref} {n : Nat} {tail : List Str} (htail : ∀ l, tail.head? = some l → l = []) :
    ∀ {gs : List GLine} {lines : List Str} {done : List GLine} {w : World} {c : Circuit},
    w.circs[r]? = some c → Mirror n done c → All2 GateText lines gs → (∀ l ∈ gs, gateOf l ≠ none) →
    (∀ (i : Nat) l, gs[i]? = some l → l.out = n + done.length + i ∧ ∀ x ∈ l.args, x < l.out) →
    ∃ w' c', readGates r (upTo (n + done.length)) (lines ++ tail) w = (.ok (upTo (n + done.length + gs.length)), w') ∧
      w'.circs[r]? = some c' ∧ Mirror n (done ++ gs) c' ∧ SameOut c c' := by
  intro gs
  induction gs with
  | nil =>
    intro lines done w c hc h hl _ _
    cases lines with
    | cons l ls => exact hl.elim
    | nil =>
      refine ⟨w, c, ?_, hc, by rw [List.append_nil]; exact h, rfl, rfl⟩
      rw [List.nil_append, readGates_end htail]; rfl
  | cons g gs ih =>
    intro lines done w c hc h hl hop hout
    cases lines with
    | nil => exact hl.elim
    | cons l lines =>
      obtain ⟨ho, hargs⟩ := hout 0 g rfl
      rw [Nat.add_zero] at ho
      have hd : ∀ x ∈ g.args, upTo (n + done.length) x ≠ none := by
        intro x hx
        unfold upTo
        rw [if_pos (by have := hargs x hx; omega)]; simp
      obtain ⟨ids, hids, htok⟩ := readGateTokens_ok hl.1 hd
      have hids := all2_upTo hids
      subst hids
      have hne : l.isEmpty = false := by simpa using gateText_ne hl.1
      obtain ⟨w1, c1, e1, e2, e3, e4, e5⟩ := readGateOp_mirror hc h (hop g (List.mem_cons_self ..)) ho
      obtain ⟨w2, c2, k1, k2, k3, k4, k5⟩ := ih (lines := lines) e2 e3 hl.2 (fun l hl => hop l (List.mem_cons_of_mem _ hl)) (by
        intro i l hl
        obtain ⟨q1, q2⟩ := hout (i + 1) l (by simpa using hl)
        refine ⟨?_, q2⟩
        rw [List.length_append, List.length_singleton]; omega)
      refine ⟨w2, c2, ?_, k2, by simpa using k3, k4.trans e4, k5.trans e5⟩
      rw [List.cons_append, readGates, hne]
      refine (bind_lift_ok htok _ w).trans ?_
      refine (bind_ok e1).trans ?_
      rw [List.length_append, List.length_singleton] at k1
      have e : n + done.length + (g :: gs).length = n + (done.length + 1) + gs.length := by
        rw [List.length_cons]; omega
      rw [e, ← k1]
      rfl

theorem readFinal_mirror {r : Ref} {n : Nat} {ls : List GLine} {m : Nat} (hm : m = n + ls.length) : ∀ {k lo : Nat} {w : World} {c : Circuit},
    w.circs[r]? = some c → Mirror n ls c → (∀ l ∈ ls, gateOf l ≠ none) → k = 0 ∨ lo + k ≤ m →
    (∀ i, c.outputMap i ≠ none → i < c.outputLen) →
    ∃ w' c', readFinal r (upTo m) ((List.range k).map (lo + ·)) w = (.ok (), w') ∧ w'.circs[r]? = some c' ∧ Mirror n ls c' ∧
      c'.outputLen = c.outputLen + k ∧
      ∀ i, c'.outputMap i = if i < c.outputLen then c.outputMap i else if i < c.outputLen + k then some (lo + (i - c.outputLen)) else none
  | 0, lo, w, c, hc, h, _, _, hd => by
    refine ⟨w, c, rfl, hc, h, rfl, fun i => ?_⟩
    split
    · rfl
    · next hi =>
      rw [if_neg (by omega)]
      cases e : c.outputMap i with
      | none => rfl
      | some g => exact absurd (hd i (by rw [e]; simp)) hi
  | k + 1, lo, w, c, hc, h, hg, hlo, hd => by
    have hup : upTo m lo = some lo := by unfold upTo; rw [if_pos (by omega)]
    obtain ⟨gate, hgate⟩ : ∃ gate, c.gateMap lo = some gate := by
      rw [h.gate]
      split
      · exact ⟨_, rfl⟩
      · have hlt : lo - n < ls.length := by omega
        rw [List.getElem?_eq_getElem hlt]
        exact Option.ne_none_iff_exists'.mp (hg _ (List.getElem_mem hlt))
    obtain ⟨w', c', k1, k2, k3, k4, k5⟩ := readFinal_mirror hm (k := k) (lo := lo + 1)
      (setC_get hc { c with outputMap := c.outputMap.insert c.outputLen lo, outputLen := c.outputLen + 1 })
      ⟨h.gateIndex, h.gate, h.inputLen, h.inputMap, h.numGate, h.numWire, h.numConst, h.constGates⟩ hg (by omega) (by
        intro i hi
        simp only [Map.insert_apply] at hi
        split at hi
        · simp only; omega
        · have := hd i hi; simp only; omega)
    refine ⟨w', c', ?_, k2, k3, by rw [k4]; simp only; omega, fun i => ?_⟩
    · have e : (List.range (k + 1)).map (lo + ·) = lo :: (List.range k).map (lo + 1 + ·) := by
        rw [List.range_succ_eq_map, List.map_cons, List.map_map]
        congr 1
        apply List.map_congr_left
        intro i _
        simp only [Function.comp]; omega
      rw [e, readFinal, hup]
      simp only
      rw [bind_ok (output_eq_ok hc hgate), k1]
    · rw [k5]
      simp only [Map.insert_apply]
      by_cases h1 : i < c.outputLen
      · rw [if_pos (by omega), if_neg (by omega), if_pos h1]
      · rw [if_neg h1]
        by_cases h2 : i = c.outputLen
        · subst h2
          rw [if_pos (by omega), if_pos rfl, if_pos (by omega), Nat.sub_self]; rfl
        · rw [if_neg (by omega)]
          split
          · rw [if_pos (by omega)]; congr 1; omega
          · rw [if_neg (by omega)]

/-- reading a file whose lines define the wires in order gives the circuit whose gate ids are the wire numbers -/
theorem read_mirror {r : Ref} {w : World} {s : StoreRef} (hc : w.circs[r]? = some (Circuit.new s)) {f : File} {text : Str}
    (ht : Text f text) (hop : ∀ l ∈ f.gates, gateOf l ≠ none)
    (hout : ∀ (i : Nat) l, f.gates[i]? = some l → l.out = f.numIn + i ∧ ∀ x ∈ l.args, x < l.out)
    (hw : f.numOut = 0 ∨ f.numWire = f.numIn + f.gates.length) (hroom : f.numOut ≤ f.numWire) :
    ∃ w' c', read r Map.empty text w = (.ok (upTo (f.numIn + f.gates.length)), w') ∧ w'.circs[r]? = some c' ∧ Mirror f.numIn f.gates c' ∧
      c'.outputLen = f.numOut ∧
      ∀ i, c'.outputMap i = if i < f.numOut then some (f.numWire - f.numOut + i) else none := by
  obtain ⟨l1, l2, l3, l4, ls, tail, hls, ⟨s1, t1, rest1, hl1, hs1, ht1⟩, ⟨s2, ts2, rest2, hl2, hs2, hts2⟩,
    ⟨s3, ts3, rest3, hl3, hs3, hts3⟩, hgs, htail⟩ := ht
  have hup0 : upTo 0 = Map.empty := by funext x; simp [upTo, Map.empty]
  obtain ⟨w1, c1, a1, a2, a3, a4, a5⟩ := readInputs_mirror f.ins 0 (rest := rest2) hc (mirror_new s) hts2
  rw [Nat.zero_add] at a1 a3
  obtain ⟨w2, c2, b1, b2, b3, b4, b5⟩ := readGates_mirror (n := f.numIn) htail (done := []) a2 a3 hgs hop (by
    intro i l hl; simpa using hout i l hl)
  rw [List.nil_append] at b3
  simp only [List.length_nil, Nat.add_zero] at b1
  have ho : c2.outputLen = 0 := by rw [b4, a4]; rfl
  have hom : c2.outputMap = Map.empty := by rw [b5, a5]; rfl
  obtain ⟨w3, c3, d1, d2, d3, d4, d5⟩ := readFinal_mirror rfl (k := f.numOut) (lo := f.numWire - f.numOut) b2 b3 hop (by omega) (by
    intro i hi; rw [hom] at hi; exact absurd rfl hi)
  refine ⟨w3, c3, ?_, d2, d3, by rw [d4, ho, Nat.zero_add], fun i => ?_⟩
  · unfold read
    rw [bind_lift_ok (a := (l1, l2 :: l3 :: l4 :: (ls ++ tail))) (by rw [lines_iff.mp hls]; rfl)]
    simp only []
    rw [layout_iff.mp hl1, bind_lift_ok (nextUsize_cons hs1)]
    simp only []
    rw [bind_lift_ok (nextUsize_cons ht1)]
    simp only []
    rw [bind_lift_ok (x := nextLine 2 (l2 :: l3 :: l4 :: (ls ++ tail))) rfl]
    simp only []
    rw [layout_iff.mp hl2, List.cons_append, bind_lift_ok (nextUsize_cons hs2)]
    simp only []
    rw [← hup0, bind_ok a1, bind_lift_ok (x := nextLine 3 (l3 :: l4 :: (ls ++ tail))) rfl]
    simp only []
    rw [layout_iff.mp hl3, List.cons_append, bind_lift_ok (nextUsize_cons hs3)]
    simp only []
    rw [bind_lift_ok (readOutputLens_ok f.outs 0 hts3), bind_lift_ok (x := nextLine 4 (l4 :: (ls ++ tail))) rfl]
    simp only [Nat.zero_add]
    rw [bind_ok (show readGates r (upTo f.ins.sum) (ls ++ tail) w1 = _ from b1)]
    unfold File.numOut at hroom d1
    rw [if_neg (by omega)]
    have e : rangeFromTo (f.numWire - f.outs.sum) f.numWire = (List.range f.outs.sum).map (f.numWire - f.outs.sum + ·) := by
      unfold rangeFromTo
      rw [show f.numWire - (f.numWire - f.outs.sum) = f.outs.sum by omega]
    rw [e, bind_ok d1]
    rfl
  · rw [d5, ho]
    simp only [Nat.not_lt_zero, if_false, Nat.zero_add, Nat.sub_zero]

end CC.Bristol
