import Verif.Spec.Writer
import Verif.Proofs.EvalComplete
import Verif.Proofs.Built
import Verif.Proofs.Builder
import Verif.Proofs.BrText
import Verif.Proofs.BrSlice

/-!
# The Bristol writer

`Emits w r s s' ls cs`: between writer states `s` and `s'` (on circuit `r`) the lines `ls` were written and the constants
`cs` were allotted. `Items` accounts for the gates written. `Wrote` combines both with the set of gates that got a wire.
-/

namespace CC.Bristol
open CC.Spec CC.Spec.Bristol

/-! ### values -/

/-- every gate with a wire has its value there -/
def Sound (w : World) (r : Ref) (ins : List Bool) (e : Wires) (wog : Map GateId Nat) : Prop :=
  ∀ g x b, wog g = some x → Val w r ins g b → e x = some b

/-- wires in use are inputs or constants (`< last`) or gate wires (`base ≤ · < n`) -/
def Wired (base last n : Nat) (wog : Map GateId Nat) : Prop :=
  ∀ g x, wog g = some x → x < last ∨ (base ≤ x ∧ x < n)

structure Emits (w : World) (r : Ref) (s s' : WS) (ls : List GLine) (cs : List Bool) : Prop where
  out : s'.1.out = s.1.out ++ gatesText ls
  numWire : s'.1.numWire = s.1.numWire + ls.length
  outs : ∀ (i : Nat) l, ls[i]? = some l → l.out = s.1.numWire + i
  arity : ∀ l ∈ ls, l.args.length = l.op.arity
  plain : ∀ l ∈ ls, l.op ≠ .eq ∧ l.op ≠ .eqw
  last : s'.1.lastConstWire = s.1.lastConstWire + cs.length
  constOf : ∀ x, s'.1.constOf x =
    if s.1.lastConstWire ≤ x ∧ x < s'.1.lastConstWire then cs[x - s.1.lastConstWire]? else s.1.constOf x
  keep : ∀ g x, s.2 g = some x → s'.2 g = some x
  wired : ∀ base, base ≤ s.1.numWire → Wired base s.1.lastConstWire s.1.numWire s.2 →
    Wired base s'.1.lastConstWire s'.1.numWire s'.2 ∧
    ∀ l ∈ ls, ∀ x ∈ l.args, x < s'.1.lastConstWire ∨ (base ≤ x ∧ x < l.out)
  sound : s'.1.lastConstWire ≤ s.1.numWire → (∀ g x, s.2 g = some x → x < s.1.numWire) → ∀ ins (e : Wires),
    (∀ (i : Nat) b, cs[i]? = some b → e (s.1.lastConstWire + i) = some b) → Sound w r ins e s.2 →
    Sound w r ins (exec ls e) s'.2

theorem exec_append (a b : List GLine) (e : Wires) : exec (a ++ b) e = exec b (exec a e) := by
  simp [exec, List.foldl_append]

theorem gatesText_append (a b : List GLine) : gatesText (a ++ b) = gatesText a ++ gatesText b := by
  simp [gatesText]

theorem Emits.refl (w : World) (r : Ref) (s : WS) : Emits w r s s [] [] where
  out := by simp [gatesText]
  numWire := rfl
  outs := by intro i l h; simp at h
  arity := by simp
  plain := by simp
  last := rfl
  constOf := by intro x; rw [if_neg (by omega)]
  keep := fun _ _ h => h
  wired := by intro base _ h; exact ⟨h, by simp⟩
  sound := by intro _ _ ins e _ h; exact h

theorem Emits.below {w r s s' ls cs} (h : Emits w r s s' ls cs) (e : Wires) {x : Nat} (hx : x < s.1.numWire) :
    exec ls e x = e x := by
  refine exec_keep fun l hl => ?_
  obtain ⟨i, hi, rfl⟩ := List.mem_iff_getElem.mp hl
  have := h.outs i _ (List.getElem?_eq_getElem hi)
  omega

theorem Emits.low {w r s s' ls cs} (h : Emits w r s s' ls cs) (hfit : s'.1.lastConstWire ≤ s.1.numWire)
    (hl : ∀ g x, s.2 g = some x → x < s.1.numWire) : ∀ g x, s'.2 g = some x → x < s'.1.numWire := by
  intro g x hg
  have h1 := (h.wired 0 (Nat.zero_le _) fun g x hg => .inr ⟨Nat.zero_le _, hl g x hg⟩).1 g x hg
  have := h.numWire
  omega

theorem Emits.trans {w r s s1 s2 ls1 ls2 cs1 cs2} (h1 : Emits w r s s1 ls1 cs1) (h2 : Emits w r s1 s2 ls2 cs2) :
    Emits w r s s2 (ls1 ++ ls2) (cs1 ++ cs2) where
  out := by rw [h2.out, h1.out, gatesText_append, List.append_assoc]
  numWire := by rw [h2.numWire, h1.numWire, List.length_append]; omega
  outs := by
    intro i l h
    by_cases hi : i < ls1.length
    · rw [List.getElem?_append_left hi] at h; exact h1.outs i l h
    · rw [List.getElem?_append_right (by omega)] at h
      have := h2.outs _ l h
      have := h1.numWire
      omega
  arity := by
    intro l hl
    rcases List.mem_append.mp hl with hl | hl
    · exact h1.arity l hl
    · exact h2.arity l hl
  plain := by
    intro l hl
    rcases List.mem_append.mp hl with hl | hl
    · exact h1.plain l hl
    · exact h2.plain l hl
  last := by rw [h2.last, h1.last, List.length_append]; omega
  constOf := by
    intro x
    have e1 := h1.last
    have e2 := h2.last
    rw [h2.constOf, h1.constOf]
    by_cases a : s1.1.lastConstWire ≤ x ∧ x < s2.1.lastConstWire
    · rw [if_pos a, if_pos (by omega), List.getElem?_append_right (by omega)]
      congr 1; omega
    · rw [if_neg a]
      by_cases b : s.1.lastConstWire ≤ x ∧ x < s1.1.lastConstWire
      · rw [if_pos b, if_pos (by omega), List.getElem?_append_left (by omega)]
      · rw [if_neg b, if_neg (by omega)]
  keep := fun g x h => h2.keep g x (h1.keep g x h)
  wired := by
    intro base hb hw
    obtain ⟨k1, k2⟩ := h1.wired base hb hw
    have := h1.numWire
    obtain ⟨k3, k4⟩ := h2.wired base (by omega) k1
    refine ⟨k3, ?_⟩
    intro l hl x hx
    rcases List.mem_append.mp hl with hl | hl
    · have := h2.last
      rcases k2 l hl x hx with h | h
      · left; omega
      · exact Or.inr h
    · exact k4 l hl x hx
  sound := by
    intro hfit hlow ins e hc hs
    have e1 := h1.last
    have e2 := h2.last
    have e3 := h1.numWire
    rw [exec_append]
    refine h2.sound (by omega) (h1.low (by omega) hlow) ins _ ?_ (h1.sound (by omega) hlow ins e ?_ hs)
    · intro i b hi
      have hlt : i < cs2.length := (List.getElem?_eq_some_iff.mp hi).1
      rw [h1.below e (by omega)]
      have := hc (cs1.length + i) b (by rw [List.getElem?_append_right (by omega)]; simpa using hi)
      rw [e1, Nat.add_assoc]; exact this
    · intro i b hi
      have hlt : i < cs1.length := (List.getElem?_eq_some_iff.mp hi).1
      exact hc i b (by rw [List.getElem?_append_left hlt]; exact hi)

/-! ### gates written -/

/-- the lines and constants a gate takes -/
def Block (w : World) (c : Circuit) (g : GateId) (p : Nat × List Bool) : Prop :=
  (IsLogic c g ∧ p.1 = 1 ∧ p.2 = []) ∨ ∃ mr, IsCall w c g mr ∧ Inlined w mr p.1 p.2

/-- logic gates and calls -/
def Work (w : World) (c : Circuit) (g : GateId) : Prop := IsLogic c g ∨ ∃ mr, IsCall w c g mr

structure Items (w : World) (c : Circuit) (s s' : WS) (ls : List GLine) (cs : List Bool) (gs : List GateId)
    (bl : List (Nat × List Bool)) : Prop where
  len : ls.length = (bl.map (·.1)).sum
  consts : cs = bl.flatMap (·.2)
  blocks : All2 (Block w c) gs bl
  nodup : gs.Nodup
  fresh : ∀ g ∈ gs, s.2 g = none ∧ s'.2 g ≠ none
  done : ∀ g, Work w c g → s'.2 g ≠ none → s.2 g ≠ none ∨ g ∈ gs

/-- what happened between `s` and `s'`: exactly the gates in `P` got wires -/
def Wrote (w : World) (r : Ref) (c : Circuit) (P : GateId → Prop) (s s' : WS) : Prop :=
  ∃ ls cs gs bl, Emits w r s s' ls cs ∧ Items w c s s' ls cs gs bl ∧ ∀ g, s'.2 g ≠ none ↔ s.2 g ≠ none ∨ P g

theorem Items.refl (w : World) (c : Circuit) (s : WS) : Items w c s s [] [] [] [] :=
  ⟨rfl, rfl, trivial, List.nodup_nil, by simp, fun _ _ h => .inl h⟩

theorem Wrote.refl (w : World) (r : Ref) (c : Circuit) (s : WS) {P : GateId → Prop} (h : ∀ g, P g → s.2 g ≠ none) :
    Wrote w r c P s s :=
  ⟨[], [], [], [], .refl w r s, .refl w c s, fun g => ⟨.inl, fun k => k.elim id (h g)⟩⟩

theorem Wrote.trans {w r c P Q s s1 s2} (h1 : Wrote w r c P s s1) (h2 : Wrote w r c Q s1 s2) :
    Wrote w r c (fun g => P g ∨ Q g) s s2 := by
  obtain ⟨ls1, cs1, gs1, bl1, a1, b1, d1⟩ := h1
  obtain ⟨ls2, cs2, gs2, bl2, a2, b2, d2⟩ := h2
  refine ⟨_, _, gs1 ++ gs2, bl1 ++ bl2, a1.trans a2, ?_, ?_⟩
  · refine ⟨?_, ?_, b1.blocks.append b2.blocks, ?_, ?_, ?_⟩
    · rw [List.length_append, b1.len, b2.len]; simp
    · rw [b1.consts, b2.consts]; simp
    · refine List.nodup_append.mpr ⟨b1.nodup, b2.nodup, ?_⟩
      rintro x hx y hy rfl
      exact (b1.fresh x hx).2 (b2.fresh x hy).1
    · intro g hg
      rcases List.mem_append.mp hg with hg | hg
      · refine ⟨(b1.fresh g hg).1, (d2 g).mpr (.inl (b1.fresh g hg).2)⟩
      · refine ⟨?_, (b2.fresh g hg).2⟩
        cases e : s.2 g with
        | none => rfl
        | some x => have := a1.keep g x e; rw [(b2.fresh g hg).1] at this; cases this
    · intro g hg h
      rcases b2.done g hg h with h | h
      · rcases b1.done g hg h with h | h
        · exact .inl h
        · exact .inr (List.mem_append_left _ h)
      · exact .inr (List.mem_append_right _ h)
  · intro g
    rw [d2, d1, or_assoc]

theorem Wrote.congr {w r c P Q s s'} (h : Wrote w r c P s s') (hpq : ∀ g, P g ↔ Q g) : Wrote w r c Q s s' := by
  obtain ⟨ls, cs, gs, bl, a, b, d⟩ := h
  exact ⟨ls, cs, gs, bl, a, b, fun g => by rw [d g, hpq g]⟩

/-! ### the writer on one circuit -/

/-- closed under operands and module calls; inputs and constants have wires -/
structure Ready (c : Circuit) (wog : Map GateId Nat) : Prop where
  closed : ∀ g y, wog g ≠ none → Reach c g y → wog y ≠ none
  inputs : ∀ g k, c.gateMap g = some (.input k) → wog g ≠ none
  consts : ∀ g v, c.gateMap g = some (.const v) → wog g ≠ none

/-- needed for one of the gates `ids` -/
def From (c : Circuit) (ids : List GateId) (g : GateId) : Prop := ∃ x ∈ ids, Reach c x g

theorem Wrote.ready {w r c ids s s'} (h : Wrote w r c (From c ids) s s') (hr : Ready c s.2) : Ready c s'.2 := by
  obtain ⟨ls, cs, gs, bl, a, b, d⟩ := h
  refine ⟨?_, fun g k hg => (d g).mpr (.inl (hr.inputs g k hg)), fun g v hg => (d g).mpr (.inl (hr.consts g v hg))⟩
  intro g y hg hy
  rcases (d g).mp hg with hg | ⟨x, hx, hg⟩
  · exact (d y).mpr (.inl (hr.closed g y hg hy))
  · exact (d y).mpr (.inr ⟨x, hx, hg.trans hy⟩)

/-- `wg` writes gate `x` correctly -/
def Writes (w : World) (r : Ref) (c : Circuit) (wg : WriteGate) (x : GateId) : Prop :=
  ∀ gate s, c.gateMap x = some gate → Ready c s.2 → s.2 x = none →
    ∃ s', wg x gate s = .ok s' ∧ Wrote w r c (From c [x]) s s'

section
variable {w : World} {r : Ref} {c : Circuit} {wg : WriteGate}

theorem ensureWire_ok {x : GateId} (hw : Writes w r c wg x) (hx : ∃ gate, c.gateMap x = some gate) {s : WS}
    (hr : Ready c s.2) : ∃ s', ensureWire c wg x s = .ok s' ∧ Wrote w r c (From c [x]) s s' := by
  obtain ⟨gate, hg⟩ := hx
  unfold ensureWire
  cases e : s.2 x with
  | some y =>
    refine ⟨s, rfl, .refl _ _ _ _ ?_⟩
    rintro g ⟨z, hz, hzg⟩
    rw [List.mem_singleton.mp hz] at hzg
    exact hr.closed x g (by rw [e]; simp) hzg
  | none =>
    simp only [hg]
    exact hw gate s hg hr e

theorem ensureWires_ok : ∀ (ids : List GateId), (∀ x ∈ ids, Writes w r c wg x) →
    (∀ x ∈ ids, ∃ gate, c.gateMap x = some gate) → ∀ {s : WS}, Ready c s.2 →
    ∃ s', ensureWires c wg ids s = .ok s' ∧ Wrote w r c (From c ids) s s'
  | [], _, _, s, _ => ⟨s, rfl, .refl _ _ _ _ (by rintro g ⟨x, hx, _⟩; cases hx)⟩
  | x :: ids, h1, h2, s, hr => by
    obtain ⟨s1, k1, k2⟩ := ensureWire_ok (h1 x (by simp)) (h2 x (by simp)) hr
    obtain ⟨s2, k3, k4⟩ := ensureWires_ok ids (fun y hy => h1 y (by simp [hy])) (fun y hy => h2 y (by simp [hy]))
      (k2.ready hr)
    refine ⟨s2, ?_, (k2.trans k4).congr ?_⟩
    · unfold ensureWires
      rw [bind_of_ok k1]; exact k3
    · intro g
      simp [From]

theorem Wrote.bound {ids s s'} (h : Wrote w r c (From c ids) s s') {x : GateId} (hx : x ∈ ids) : s'.2 x ≠ none := by
  obtain ⟨ls, cs, gs, bl, a, b, d⟩ := h
  exact (d x).mpr (.inr ⟨x, hx, .refl⟩)

theorem wiresOf_ok {wog : Map GateId Nat} : ∀ {ids : List GateId}, (∀ x ∈ ids, wog x ≠ none) →
    ∃ ws, wiresOf wog ids = .ok ws ∧ All2 (fun id x => wog id = some x) ids ws
  | [], _ => ⟨[], rfl, trivial⟩
  | x :: ids, h => by
    obtain ⟨ws, k1, k2⟩ := wiresOf_ok (ids := ids) fun y hy => h y (by simp [hy])
    cases e : wog x with
    | none => exact absurd e (h x (by simp))
    | some y =>
      refine ⟨y :: ws, ?_, e, k2⟩
      unfold wiresOf
      rw [e]; simp only
      rw [bind_of_ok k1]

theorem vals_of {e : Wires} : ∀ {ws : List Nat} {bs : List Bool}, All2 (fun x b => e x = some b) ws bs → vals e ws = some bs
  | [], [], _ => rfl
  | x :: ws, b :: bs, h => by
    simp [vals, h.1, vals_of h.2]
  | [], _ :: _, h => h.elim
  | _ :: _, [], h => h.elim

/-- writing the line of a logic gate whose operands have wires -/
theorem updateWire_emits {g : GateId} {op : GOp} {ids : List GateId} {ws : List Nat} {s : WS}
    (hws : All2 (fun id x => s.2 id = some x) ids ws) (hg : s.2 g = none) (har : ids.length = op.arity)
    (hpl : op ≠ .eq ∧ op ≠ .eqw)
    (hval : ∀ ins b, Val w r ins g b → ∃ bs, All2 (Val w r ins) ids bs ∧ op.fn bs = some b) :
    Emits w r s (updateWire g (some ws) op.name s) [⟨op, ws, s.1.numWire⟩] [] where
  out := by
    simp [updateWire, gatesText, GLine.text, gateLine, dec, num]
  numWire := rfl
  outs := by
    intro i l h
    cases i with
    | zero => simp at h; subst h; rfl
    | succ i => simp at h
  arity := by
    intro l hl
    rw [List.mem_singleton.mp hl]
    simp only [← har]
    exact hws.length.symm
  plain := by
    intro l hl
    rw [List.mem_singleton.mp hl]
    exact hpl
  last := rfl
  constOf := by
    intro x
    rw [if_neg (by simp only [updateWire]; omega)]; rfl
  keep := by
    intro g' x h
    by_cases e : g' = g
    · subst e; rw [hg] at h; cases h
    · simp only [updateWire, Map.insert_ne _ _ e]; exact h
  wired := by
    intro base hb hw
    refine ⟨?_, ?_⟩
    · intro g' x h
      simp only [updateWire] at h ⊢
      by_cases e : g' = g
      · subst e; simp at h; omega
      · rw [Map.insert_ne _ _ e] at h
        have := hw g' x h
        omega
    · intro l hl x hx
      rw [List.mem_singleton.mp hl] at hx ⊢
      simp only at hx ⊢
      obtain ⟨i, hi, rfl⟩ := List.mem_iff_getElem.mp hx
      have hlen := hws.length
      have h1 := (all2_iff.mp hws).2 i ids[i] ws[i] (List.getElem?_eq_getElem (by omega)) (List.getElem?_eq_getElem hi)
      exact hw _ _ h1
  sound := by
    intro _ hlow ins e _ hs g' x b h hv
    simp only [updateWire] at h
    show (if x = s.1.numWire then _ else e x) = some b
    by_cases e' : g' = g
    · subst e'
      simp at h
      subst h
      rw [if_pos rfl]
      obtain ⟨bs, hbs, hfn⟩ := hval ins b hv
      have : vals e ws = some bs := by
        refine vals_of ?_
        rw [all2_iff] at hws hbs ⊢
        refine ⟨by omega, ?_⟩
        intro i y a hy ha
        have hi : i < ids.length := by have := (List.getElem?_eq_some_iff.mp ha).1; omega
        exact hs _ _ _ (hws.2 i ids[i] y (List.getElem?_eq_getElem hi) hy) (hbs.2 i ids[i] a (List.getElem?_eq_getElem hi) ha)
      simp [this, hfn]
    · rw [Map.insert_ne _ _ e'] at h
      have := hlow g' x h
      rw [if_neg (by omega)]
      exact hs g' x b h hv

theorem reach_plain {g : GateId} {gate : Gate} (hg : c.gateMap g = some gate)
    (hm : ∀ nIn nOut ids oi mid, gate ≠ .module nIn nOut ids oi mid) (y : GateId) :
    Reach c g y ↔ y = g ∨ From c gate.operands y := by
  constructor
  · intro h
    induction h with
    | refl => exact .inl rfl
    | operand _ hy hx ih =>
      rcases ih with rfl | ⟨z, hz, hr⟩
      · rw [hg] at hy; cases hy
        exact .inr ⟨_, hx, .refl⟩
      · exact .inr ⟨z, hz, .operand hr hy hx⟩
    | sibling _ hy hk ih =>
      rcases ih with rfl | ⟨z, hz, hr⟩
      · rw [hg] at hy; cases hy
        exact absurd rfl (hm _ _ _ _ _)
      · exact .inr ⟨z, hz, .sibling hr hy hk⟩
  · rintro (rfl | ⟨z, hz, hr⟩)
    · exact .refl
    · exact (Reach.operand .refl hg hz).trans hr

theorem reach_module (hwf : WFc c) {g : GateId} {nIn nOut ids oi mid} (hg : c.gateMap g = some (.module nIn nOut ids oi mid))
    (y : GateId) : Reach c g y ↔ (∃ k, k < nOut ∧ y = g - oi + k) ∨ From c ids y := by
  have hgr := hwf.group g _ _ _ _ _ hg
  constructor
  · intro h
    induction h with
    | refl => exact .inl ⟨oi, hgr.1, by omega⟩
    | operand _ hy hx ih =>
      rcases ih with ⟨k, hk, rfl⟩ | ⟨z, hz, hr⟩
      · rw [hgr.2.2 k hk] at hy; cases hy
        exact .inr ⟨_, hx, .refl⟩
      · exact .inr ⟨z, hz, .operand hr hy hx⟩
    | sibling _ hy hk ih =>
      rcases ih with ⟨k, hk', rfl⟩ | ⟨z, hz, hr⟩
      · rw [hgr.2.2 k hk'] at hy; cases hy
        exact .inl ⟨_, hk, by omega⟩
      · exact .inr ⟨z, hz, .sibling hr hy hk⟩
  · rintro (⟨k, hk, rfl⟩ | ⟨z, hz, hr⟩)
    · exact .sibling .refl hg hk
    · exact (Reach.operand .refl hg hz).trans hr

/-- no gate is needed for its own operands, nor is another gate of the same call -/
theorem not_from (hwf : WFc c) (ht : Topo c) {g : GateId} {gate : Gate} (hg : c.gateMap g = some gate) {y : GateId}
    (hy : leadOf c y = leadOf c g) : ¬ From c gate.operands y := by
  rintro ⟨x, hx, hr⟩
  have h1 := ht g gate hg x hx
  have h2 : leadOf c g = lead g gate := by simp [leadOf, hg]
  have h3 := leadOf_le (c := c) x
  have h4 := reach_lead hwf ht hr
  omega

theorem val_not (hc : w.circs[r]? = some c) {g x : GateId} (hg : c.gateMap g = some (.not x)) {ins b} (h : Val w r ins g b) :
    ∃ bs, All2 (Val w r ins) [x] bs ∧ GOp.inv.fn bs = some b := by
  cases h <;> simp_all
  next hv _ => exact ⟨[_], ⟨hv, trivial⟩, by simp [GOp.fn]⟩

theorem val_xor (hc : w.circs[r]? = some c) {g x y : GateId} (hg : c.gateMap g = some (.xor x y)) {ins b}
    (h : Val w r ins g b) : ∃ bs, All2 (Val w r ins) [x, y] bs ∧ GOp.xor.fn bs = some b := by
  cases h <;> simp_all
  next h1 h2 _ => exact ⟨[_, _], ⟨h1, h2, trivial⟩, by simp [GOp.fn]⟩

theorem val_and (hc : w.circs[r]? = some c) {g x y : GateId} (hg : c.gateMap g = some (.and x y)) {ins b}
    (h : Val w r ins g b) : ∃ bs, All2 (Val w r ins) [x, y] bs ∧ GOp.and.fn bs = some b := by
  cases h <;> simp_all
  next h1 h2 _ => exact ⟨[_, _], ⟨h1, h2, trivial⟩, by simp [GOp.fn]⟩

theorem val_or (hc : w.circs[r]? = some c) {g x y : GateId} (hg : c.gateMap g = some (.or x y)) {ins b}
    (h : Val w r ins g b) : ∃ bs, All2 (Val w r ins) [x, y] bs ∧ GOp.or.fn bs = some b := by
  cases h <;> simp_all
  next h1 h2 _ => exact ⟨[_, _], ⟨h1, h2, trivial⟩, by simp [GOp.fn]⟩

theorem IsLogic.not_call {g : GateId} (h : IsLogic c g) {mr : Ref} : ¬ IsCall w c g mr := by
  rintro ⟨_, _, _, _, h1, _⟩
  obtain ⟨a, b, h | h | h | h⟩ := h <;> rw [h] at h1 <;> cases h1

/-- operands first, then the line -/
theorem write_logic (hwf : WFc c) (ht : Topo c) {g : GateId} {gate : Gate} {op : GOp} (hg : c.gateMap g = some gate)
    (hlog : IsLogic c g) (har : gate.operands.length = op.arity) (hpl : op ≠ .eq ∧ op ≠ .eqw)
    (hval : ∀ ins b, Val w r ins g b → ∃ bs, All2 (Val w r ins) gate.operands bs ∧ op.fn bs = some b)
    (hops : ∀ x ∈ gate.operands, Writes w r c wg x) {s : WS} (hr : Ready c s.2) (hs : s.2 g = none) :
    ∃ s', (do
      let s ← ensureWires c wg gate.operands s
      let ws ← wiresOf s.2 gate.operands
      .ok (updateWire g (some ws) op.name s)) = .ok s' ∧ Wrote w r c (From c [g]) s s' := by
  have hm : ∀ nIn nOut ids oi mid, gate ≠ .module nIn nOut ids oi mid := by
    rintro nIn nOut ids oi mid rfl
    obtain ⟨a, b, h | h | h | h⟩ := hlog <;> rw [h] at hg <;> cases hg
  have hlt := hwf.lt_of_some hg
  obtain ⟨s1, k1, k2⟩ := ensureWires_ok gate.operands hops (fun x hx => hwf.some_of_lt (by
    have h1 := ht g gate hg x hx
    have h2 := lead_le g gate
    omega)) hr
  obtain ⟨ws, k3, k4⟩ := wiresOf_ok (wog := s1.2) (ids := gate.operands) fun x hx => k2.bound hx
  have hg1 : s1.2 g = none := by
    obtain ⟨ls, cs, gs, bl, a, b, d⟩ := k2
    have h1 := mt (d g).mp (by
      rintro (h | h)
      · exact h hs
      · exact not_from hwf ht hg rfl h)
    exact Classical.not_not.mp h1
  refine ⟨updateWire g (some ws) op.name s1, by rw [bind_of_ok k1, bind_of_ok k3], ?_⟩
  have hdom : ∀ y, (updateWire g (some ws) op.name s1).2 y ≠ none ↔ s1.2 y ≠ none ∨ y = g := by
    intro y
    simp only [updateWire]
    by_cases e : y = g
    · subst e; simp
    · rw [Map.insert_ne _ _ e]; simp [e]
  have h2 : Wrote w r c (· = g) s1 (updateWire g (some ws) op.name s1) := by
    refine ⟨[⟨op, ws, s1.1.numWire⟩], [], [g], [(1, [])], updateWire_emits k4 hg1 har hpl hval, ?_, hdom⟩
    refine ⟨rfl, rfl, ⟨.inl ⟨hlog, rfl, rfl⟩, trivial⟩, by simp, ?_, ?_⟩
    · intro x hx
      rw [List.mem_singleton.mp hx]
      exact ⟨hg1, (hdom g).mpr (.inr rfl)⟩
    · intro y _ hy
      rcases (hdom y).mp hy with h | h
      · exact .inl h
      · exact .inr (List.mem_singleton.mpr h)
  refine (k2.trans h2).congr ?_
  intro y
  simp only [From, List.mem_singleton, exists_eq_left]
  rw [reach_plain hg hm]
  simp only [From]
  exact or_comm

/-! ### constants -/

theorem writeConsts_ok (hc : w.circs[r]? = some c) : ∀ (ks : List GateId) (own : List Bool),
    All2 (fun g v => c.gateMap g = some (.const v)) ks own → ks.Nodup → ∀ {s : WS}, (∀ g ∈ ks, s.2 g = none) →
    ∃ s', writeConsts c ks s = .ok s' ∧ Emits w r s s' [] own ∧ ∀ g, s'.2 g ≠ none ↔ s.2 g ≠ none ∨ g ∈ ks
  | [], [], _, _, s, _ => ⟨s, rfl, .refl _ _ _, by simp⟩
  | [], _ :: _, h, _, _, _ => h.elim
  | _ :: _, [], h, _, _, _ => h.elim
  | g :: ks, v :: own, h, hn, s, hs => by
    have hn := List.nodup_cons.mp hn
    obtain ⟨s', k1, k2, k3⟩ := writeConsts_ok hc ks own h.2 hn.2
      (s := (⟨s.1.numWire, s.1.lastConstWire + 1, s.1.out, s.1.constOf.insert s.1.lastConstWire v⟩,
          s.2.insert g s.1.lastConstWire)) (by
        intro y hy
        have : y ≠ g := by rintro rfl; exact hn.1 hy
        simp only
        rw [Map.insert_ne _ _ this]
        exact hs y (by simp [hy]))
    refine ⟨s', ?_, Emits.trans (ls1 := []) (cs1 := [v]) ?_ k2, ?_⟩
    · unfold writeConsts
      rw [h.1]
      exact k1
    · refine ⟨by simp [gatesText], rfl, by simp, by simp, by simp, rfl, ?_, ?_, ?_, ?_⟩
      · intro x
        simp only [Map.insert_apply]
        by_cases e : x = s.1.lastConstWire
        · rw [if_pos e, if_pos (by omega), e]; simp
        · rw [if_neg e, if_neg (by omega)]
      · intro y x hy
        have : y ≠ g := by rintro rfl; rw [hs y (by simp)] at hy; cases hy
        simp only
        rw [Map.insert_ne _ _ this]; exact hy
      · intro base _ hw
        refine ⟨?_, by simp⟩
        intro y x hy
        by_cases e : y = g
        · subst e; simp at hy
          show x < s.1.lastConstWire + 1 ∨ _
          omega
        · simp only at hy
          rw [Map.insert_ne _ _ e] at hy
          have := hw y x hy
          simp only; omega
      · intro _ _ ins e hcs hsd y x b hy hv
        by_cases e' : y = g
        · subst e'
          simp at hy
          subst hy
          have : b = v := hv.det (.const hc h.1)
          subst this
          exact hcs 0 b rfl
        · simp only at hy
          rw [Map.insert_ne _ _ e'] at hy
          exact hsd y x b hy hv
    · intro y
      rw [k3]
      simp only
      by_cases e : y = g
      · subst e; simp
      · rw [Map.insert_ne _ _ e]; simp [e]

/-! ### the outputs -/

theorem writePass1_ok (hwf : WFc c) (hwg : ∀ i o gate, c.outputMap i = some o → c.gateMap o = some gate →
      ∀ x ∈ gate.operands, Writes w r c wg x ∧ ∃ gx, c.gateMap x = some gx) : ∀ (k i : Nat), i + k ≤ c.outputLen →
    ∀ {s : WS}, Ready c s.2 →
    ∃ outs s', writePass1 c wg i k s = .ok (outs, s') ∧ outs.length = k ∧
      (∀ j, j < k → ∃ o gate, c.outputMap (i + j) = some o ∧ c.gateMap o = some gate ∧ outs[j]? = some (o, gate)) ∧
      Wrote w r c (From c (outs.flatMap (·.2.operands))) s s'
  | 0, i, _, s, _ => ⟨[], s, rfl, rfl, by intro j hj; omega, .refl _ _ _ _ (by rintro g ⟨x, hx, _⟩; cases hx)⟩
  | k + 1, i, hik, s, hr => by
    obtain ⟨o, ho⟩ := Option.isSome_iff_exists.mp ((hwf.output_dom i).mpr (by omega))
    obtain ⟨gate, hg⟩ := hwf.some_of_lt (hwf.output_gate i o ho)
    obtain ⟨s1, k1, k2⟩ := ensureWires_ok gate.operands (fun x hx => (hwg i o gate ho hg x hx).1)
      (fun x hx => (hwg i o gate ho hg x hx).2) hr
    obtain ⟨outs, s2, k3, k4, k5, k6⟩ := writePass1_ok hwf hwg k (i + 1) (by omega) (k2.ready hr)
    refine ⟨(o, gate) :: outs, s2, ?_, by simp [k4], ?_, (k2.trans k6).congr ?_⟩
    · unfold writePass1
      rw [ho]; simp only
      rw [hg]; simp only
      rw [bind_of_ok k1, bind_of_ok k3]
    · intro j hj
      cases j with
      | zero => exact ⟨o, gate, by simpa using ho, hg, rfl⟩
      | succ j =>
        obtain ⟨o', gate', h1, h2, h3⟩ := k5 j (by omega)
        refine ⟨o', gate', ?_, h2, by simpa using h3⟩
        rw [show i + (j + 1) = i + 1 + j by omega]; exact h1
    · intro y
      simp only [From, List.flatMap_cons, List.mem_append, or_and_right, exists_or]

theorem writePass2_ok : ∀ (outs : List (GateId × Gate)), (∀ p ∈ outs, c.gateMap p.1 = some p.2 ∧ Writes w r c wg p.1) →
    ∀ {s : WS}, Ready c s.2 → ∃ s', writePass2 wg outs s = .ok s' ∧ Wrote w r c (From c (outs.map (·.1))) s s'
  | [], _, s, _ => ⟨s, rfl, .refl _ _ _ _ (by rintro g ⟨x, hx, _⟩; cases hx)⟩
  | (g, gate) :: outs, h, s, hr => by
    have h1 := h (g, gate) (by simp)
    cases e : s.2 g with
    | some y =>
      obtain ⟨s', k1, k2⟩ := writePass2_ok outs (fun p hp => h p (by simp [hp])) hr
      refine ⟨s', by unfold writePass2; rw [e]; exact k1, ?_⟩
      have h0 : Wrote w r c (From c [g]) s s := by
        refine .refl _ _ _ _ ?_
        rintro z ⟨x, hx, hz⟩
        rw [List.mem_singleton.mp hx] at hz
        exact hr.closed g z (by rw [e]; simp) hz
      refine (h0.trans k2).congr ?_
      intro y
      simp [From]
    | none =>
      obtain ⟨s1, k1, k2⟩ := h1.2 gate s h1.1 hr e
      obtain ⟨s', k3, k4⟩ := writePass2_ok outs (fun p hp => h p (by simp [hp])) (k2.ready hr)
      refine ⟨s', ?_, (k2.trans k4).congr ?_⟩
      · unfold writePass2
        rw [e]; simp only
        rw [bind_of_ok k1]; exact k3
      · intro y
        simp [From]

/-- every gate of the circuit is written correctly -/
def WritesAll (w : World) (r : Ref) (c : Circuit) (wg : WriteGate) : Prop := ∀ x, x < c.gateIndex → Writes w r c wg x

/-- the inputs have wires and nothing else has -/
def InputsOnly (c : Circuit) (wog : Map GateId Nat) : Prop := ∀ g, wog g ≠ none ↔ ∃ k, c.gateMap g = some (.input k)

theorem all2_fn {α β} {P : α → β → Prop} [Inhabited β] : ∀ {as : List α} {bs : List β}, All2 P as bs → as.Nodup →
    ∃ f : α → β, bs = as.map f ∧ ∀ a ∈ as, P a (f a)
  | [], [], _, _ => ⟨fun _ => default, rfl, by simp⟩
  | [], _ :: _, h, _ => h.elim
  | _ :: _, [], h, _ => h.elim
  | a :: as, b :: bs, h, hn => by
    classical
    have hn := List.nodup_cons.mp hn
    obtain ⟨f, h1, h2⟩ := all2_fn h.2 hn.2
    refine ⟨fun x => if x = a then b else f x, ?_, ?_⟩
    · simp only [List.map_cons, if_true, List.cons.injEq, true_and]
      rw [h1]
      refine List.map_congr_left fun x hx => ?_
      have : x ≠ a := by rintro rfl; exact hn.1 hx
      simp [this]
    · intro x hx
      simp only
      split
      · next e => subst e; exact h.1
      · next e =>
        rcases List.mem_cons.mp hx with h' | h'
        · exact absurd h' e
        · exact h2 x h'

theorem ownConsts (hwf : WFc c) : ∃ own, OwnConsts c own ∧ All2 (fun g v => c.gateMap g = some (.const v)) c.constGates own := by
  have : ∀ ks : List GateId, (∀ g ∈ ks, ∃ v, c.gateMap g = some (.const v)) →
      ∃ own, All2 (fun g v => c.gateMap g = some (.const v)) ks own := by
    intro ks
    induction ks with
    | nil => intro _; exact ⟨[], trivial⟩
    | cons k ks ih =>
      intro h
      obtain ⟨v, hv⟩ := h k (by simp)
      obtain ⟨own, ho⟩ := ih fun g hg => h g (by simp [hg])
      exact ⟨v :: own, hv, ho⟩
  obtain ⟨own, h⟩ := this c.constGates fun g hg => (hwf.const_iff g).mp hg
  exact ⟨own, ⟨c.constGates, hwf.const_sorted, hwf.const_iff, h⟩, h⟩

/-- all gates of a circuit, once its inputs have wires -/
theorem writeAll_ok (hwf : WFc c) (hc : w.circs[r]? = some c) (ht : Topo c) (hwg : WritesAll w r c wg) {s : WS}
    (hs : InputsOnly c s.2) : ∃ s' ls cs, writeAll c wg s = .ok s' ∧ Emits w r s s' ls cs ∧ Inlined w r ls.length cs ∧
      ∀ g, s'.2 g ≠ none ↔ (∃ k, c.gateMap g = some (.input k)) ∨ (∃ v, c.gateMap g = some (.const v)) ∨ Needed c g := by
  obtain ⟨own, ho, ha⟩ := ownConsts hwf
  have hnd : c.constGates.Nodup := hwf.const_sorted.imp (by intro a b h; omega)
  obtain ⟨s1, k1, k2, k3⟩ := writeConsts_ok hc c.constGates own ha hnd (s := s) (by
    intro g hg
    obtain ⟨v, hv⟩ := (hwf.const_iff g).mp hg
    refine Classical.byContradiction fun h => ?_
    obtain ⟨k, hk⟩ := (hs g).mp h
    rw [hv] at hk; cases hk)
  have d1 : ∀ g, s1.2 g ≠ none ↔ (∃ k, c.gateMap g = some (.input k)) ∨ ∃ v, c.gateMap g = some (.const v) := by
    intro g; rw [k3, hs, hwf.const_iff]
  have hready : Ready c s1.2 := by
    refine ⟨?_, fun g k hg => (d1 g).mpr (.inl ⟨k, hg⟩), fun g v hg => (d1 g).mpr (.inr ⟨v, hg⟩)⟩
    intro g y hg hy
    have hyg : y = g := by
      rcases (d1 g).mp hg with ⟨k, h⟩ | ⟨v, h⟩ <;>
      · rcases (reach_plain h (by simp) y).mp hy with h' | ⟨x, hx, _⟩
        · exact h'
        · cases hx
    rw [hyg]; exact hg
  obtain ⟨outs, s2, k4, k5, k6, k7⟩ := writePass1_ok hwf (wg := wg) (w := w) (r := r) (by
    intro i o gate ho hg x hx
    have h1 := ht o gate hg x hx
    have h2 := lead_le o gate
    have h3 := hwf.lt_of_some hg
    exact ⟨hwg x (by omega), hwf.some_of_lt (by omega)⟩) c.outputLen 0 (by omega) hready
  have hpair : ∀ p ∈ outs, c.gateMap p.1 = some p.2 ∧ ∃ i, c.outputMap i = some p.1 := by
    intro p hp
    obtain ⟨j, hj, rfl⟩ := List.mem_iff_getElem.mp hp
    obtain ⟨o, gate, h1, h2, h3⟩ := k6 j (by omega)
    rw [List.getElem?_eq_getElem hj] at h3
    rw [Option.some.inj h3]
    exact ⟨h2, _, h1⟩
  obtain ⟨s3, k8, k9⟩ := writePass2_ok (w := w) (r := r) (c := c) (wg := wg) outs (by
    intro p hp
    exact ⟨(hpair p hp).1, hwg p.1 (hwf.lt_of_some (hpair p hp).1)⟩) (k7.ready hready)
  have h23 : Wrote w r c (Needed c) s1 s3 := by
    refine (k7.trans k9).congr ?_
    intro y
    constructor
    · rintro (⟨x, hx, hr⟩ | ⟨x, hx, hr⟩)
      · obtain ⟨p, hp, hx⟩ := List.mem_flatMap.mp hx
        obtain ⟨i, hi⟩ := (hpair p hp).2
        exact ⟨i, p.1, hi, (Reach.operand .refl (hpair p hp).1 hx).trans hr⟩
      · obtain ⟨p, hp, rfl⟩ := List.mem_map.mp hx
        obtain ⟨i, hi⟩ := (hpair p hp).2
        exact ⟨i, p.1, hi, hr⟩
    · rintro ⟨i, o, ho, hr⟩
      have hi := (hwf.output_dom i).mp (by rw [ho]; rfl)
      obtain ⟨o', gate, h1, h2, h3⟩ := k6 i hi
      rw [Nat.zero_add, ho] at h1; cases h1
      exact .inr ⟨o, List.mem_map.mpr ⟨(o, gate), List.mem_of_getElem? h3, rfl⟩, hr⟩
  obtain ⟨ls, cs, gs, bl, a, b, d⟩ := h23
  refine ⟨s3, ls, own ++ cs, ?_, k2.trans a, ?_, ?_⟩
  · unfold writeAll
    rw [bind_of_ok k1, bind_of_ok k4]
    exact k8
  · obtain ⟨f, hf1, hf2⟩ := all2_fn b.blocks b.nodup
    have e1 : ls.length = (gs.map fun g => (f g).1).sum := by
      rw [b.len, hf1, List.map_map]; rfl
    have e2 : cs = gs.flatMap fun g => (f g).2 := by
      rw [b.consts, hf1, List.flatMap_map]
    rw [e1, e2]
    refine .mk gs (fun g => (f g).1) (fun g => (f g).2) hc ho b.nodup ?_ ?_ ?_
    · intro g
      constructor
      · intro hg
        refine ⟨?_, ?_⟩
        · rcases (d g).mp (b.fresh g hg).2 with h | h
          · exact absurd (b.fresh g hg).1 h
          · exact h
        · rcases hf2 g hg with h | ⟨mr, h, _⟩
          · exact .inl h.1
          · exact .inr ⟨mr, h⟩
      · rintro ⟨h1, h2⟩
        rcases b.done g h2 ((d g).mpr (.inr h1)) with h | h
        · exfalso
          rcases (d1 g).mp h with ⟨k, h⟩ | ⟨v, h⟩ <;>
          · rcases h2 with ⟨a, b, h' | h' | h' | h'⟩ | ⟨mr, _, _, _, _, h', _⟩ <;> rw [h'] at h <;> cases h
        · exact h
    · intro g hg hl
      rcases hf2 g hg with h | ⟨mr, h, _⟩
      · exact h.2
      · exact absurd h (IsLogic.not_call hl)
    · intro g mr hg hl
      rcases hf2 g hg with h | ⟨mr', h, h'⟩
      · exact absurd hl (IsLogic.not_call h.1)
      · obtain ⟨_, _, _, _, j1, j2⟩ := h
        obtain ⟨_, _, _, _, j3, j4⟩ := hl
        rw [j1] at j3; cases j3
        rw [j2] at j4; cases j4
        exact h'
  · intro g
    rw [d, d1, or_assoc]

/-! ### module calls -/

theorem bindArgs_ok {mc : Circuit} (hwf : WFc mc) {wog : Map GateId Nat} : ∀ (ids : List GateId) (i : Nat)
    (new : Map GateId Nat), (∀ x ∈ ids, wog x ≠ none) → i + ids.length ≤ mc.inputLen →
    ∃ new', bindArgs mc wog i ids new = .ok new' ∧ ∀ g y, new' g = some y ↔
      (∃ j id, ids[j]? = some id ∧ mc.gateMap g = some (.input (i + j)) ∧ wog id = some y) ∨
      ((∀ j, j < ids.length → mc.gateMap g ≠ some (.input (i + j))) ∧ new g = some y)
  | [], i, new, _, _ => ⟨new, rfl, by intro g y; simp⟩
  | id :: ids, i, new, h, hi => by
    simp only [List.length_cons] at hi
    obtain ⟨g0, hg0⟩ := Option.isSome_iff_exists.mp ((hwf.input_dom i).mpr (by omega))
    cases e : wog id with
    | none => exact absurd e (h id (by simp))
    | some x =>
      obtain ⟨new', k1, k2⟩ := bindArgs_ok hwf ids (i + 1) (new.insert g0 x) (fun y hy => h y (by simp [hy])) (by omega)
      refine ⟨new', ?_, ?_⟩
      · unfold bindArgs
        rw [hg0]; simp only
        rw [e]; exact k1
      · have hg0' := (hwf.input_iff i g0).mp hg0
        intro g y
        rw [k2]
        constructor
        · rintro (⟨j, id', h1, h2, h3⟩ | ⟨h1, h2⟩)
          · exact .inl ⟨j + 1, id', by simpa using h1, by rw [h2]; congr 2; omega, h3⟩
          · by_cases eg : g = g0
            · subst eg
              simp at h2
              exact .inl ⟨0, id, rfl, hg0', by rw [e, h2]⟩
            · rw [Map.insert_ne _ _ eg] at h2
              refine .inr ⟨?_, h2⟩
              intro j hj
              cases j with
              | zero =>
                intro hh
                have := (hwf.input_iff i g).mpr hh
                rw [hg0] at this
                exact eg (Option.some.inj this).symm
              | succ j =>
                have := h1 j (by simpa using hj)
                rw [show i + (j + 1) = i + 1 + j by omega]; exact this
        · rintro (⟨j, id', h1, h2, h3⟩ | ⟨h1, h2⟩)
          · cases j with
            | zero =>
              simp at h1; subst h1
              have := (hwf.input_iff i g).mpr h2
              rw [hg0] at this
              have := Option.some.inj this
              subst this
              refine .inr ⟨?_, by rw [← h3, e]; simp⟩
              intro j _ hh
              rw [h2] at hh
              have := Gate.input.inj (Option.some.inj hh)
              omega
            | succ j =>
              refine .inl ⟨j, id', by simpa using h1, by rw [h2]; congr 2; omega, h3⟩
          · refine .inr ⟨?_, ?_⟩
            · intro j hj
              have := h1 (j + 1) (by simpa using hj)
              rw [show i + 1 + j = i + (j + 1) by omega]; exact this
            · have : g ≠ g0 := by
                rintro rfl
                exact h1 0 (by simp) hg0'
              rw [Map.insert_ne _ _ this]; exact h2

theorem bindOuts_ok {mc : Circuit} (hwf : WFc mc) {new : Map GateId Nat} (first : GateId)
    (hb : ∀ i o, mc.outputMap i = some o → new o ≠ none) : ∀ (k i : Nat) (wog : Map GateId Nat), i + k ≤ mc.outputLen →
    ∃ wog', bindOuts mc new first i k wog = .ok wog' ∧ ∀ y x, wog' y = some x ↔
      (∃ j o, i ≤ j ∧ j < i + k ∧ y = first + j ∧ mc.outputMap j = some o ∧ new o = some x) ∨
      ((∀ j, i ≤ j → j < i + k → y ≠ first + j) ∧ wog y = some x)
  | 0, i, wog, _ => by
    refine ⟨wog, rfl, fun y x => ⟨fun h => .inr ⟨by intros; omega, h⟩, ?_⟩⟩
    rintro (⟨j, o, h1, h2, _⟩ | h)
    · omega
    · exact h.2
  | k + 1, i, wog, hi => by
    obtain ⟨o, ho⟩ := Option.isSome_iff_exists.mp ((hwf.output_dom i).mpr (by omega))
    cases e : new o with
    | none => exact absurd e (hb i o ho)
    | some z =>
      obtain ⟨wog', k1, k2⟩ := bindOuts_ok hwf first hb k (i + 1) (wog.insert (first + i) z) (by omega)
      refine ⟨wog', ?_, ?_⟩
      · unfold bindOuts
        rw [ho]; simp only
        rw [e]; exact k1
      · intro y x
        rw [k2]
        constructor
        · rintro (⟨j, o', h1, h2, h3, h4, h5⟩ | ⟨h1, h2⟩)
          · exact .inl ⟨j, o', by omega, by omega, h3, h4, h5⟩
          · by_cases ey : y = first + i
            · subst ey
              simp at h2
              exact .inl ⟨i, o, by omega, by omega, rfl, ho, by rw [e, h2]⟩
            · rw [Map.insert_ne _ _ ey] at h2
              refine .inr ⟨?_, h2⟩
              intro j hj1 hj2
              by_cases ej : j = i
              · subst ej; exact ey
              · exact h1 j (by omega) (by omega)
        · rintro (⟨j, o', h1, h2, h3, h4, h5⟩ | ⟨h1, h2⟩)
          · by_cases ej : j = i
            · subst ej
              rw [ho] at h4; cases h4
              refine .inr ⟨by intros; omega, ?_⟩
              rw [h3, Map.insert_self, ← h5, e]
            · exact .inl ⟨j, o', by omega, by omega, h3, h4, h5⟩
          · refine .inr ⟨fun j hj1 hj2 => h1 j (by omega) (by omega), ?_⟩
            rw [Map.insert_ne _ _ (h1 i (by omega) (by omega))]; exact h2

/-- what a value of a module gate is -/
theorem val_module (hc : w.circs[r]? = some c) {g : GateId} {nIn nOut ids oi mid}
    (hg : c.gateMap g = some (.module nIn nOut ids oi mid)) {mr : Ref} {mc : Circuit} (hm : w.module? c mid = some mr)
    (hmc : w.circs[mr]? = some mc) {ins b} (h : Val w r ins g b) :
    ∃ bits : List Bool, ∃ o, bits.length = ids.length ∧
      (∀ (i : Nat) x a, ids[i]? = some x → bits[i]? = some a → Val w r ins x a) ∧
      mc.outputMap oi = some o ∧ Val w mr bits o b := by
  cases h with
  | module h1 h2 h3 h4 h5 h6 h7 h8 h9 =>
    rw [hc] at h1; cases h1
    rw [hg] at h2; cases h2
    rw [hm] at h3; cases h3
    rw [hmc] at h4; cases h4
    exact ⟨_, _, h5, h6, h8, h9⟩
  | input h1 h2 => rw [hc] at h1; cases h1; rw [hg] at h2; cases h2
  | const h1 h2 => rw [hc] at h1; cases h1; rw [hg] at h2; cases h2
  | not h1 h2 => rw [hc] at h1; cases h1; rw [hg] at h2; cases h2
  | and h1 h2 => rw [hc] at h1; cases h1; rw [hg] at h2; cases h2
  | xor h1 h2 => rw [hc] at h1; cases h1; rw [hg] at h2; cases h2
  | or h1 h2 => rw [hc] at h1; cases h1; rw [hg] at h2; cases h2

theorem val_input (hc : w.circs[r]? = some c) {g : GateId} {k} (hg : c.gateMap g = some (.input k)) {ins b}
    (h : Val w r ins g b) : ins[k]? = some b := by
  cases h <;> simp_all

/-- `wog` writes every gate of the callee `mr` from fresh wires of its inputs -/
def Callee (w : World) (mr : Ref) (mc : Circuit) (wg : WriteGate) : Prop :=
  ∀ s : WS, InputsOnly mc s.2 → ∃ s' ls cs, writeAll mc wg s = .ok s' ∧ Emits w mr s s' ls cs ∧ Inlined w mr ls.length cs ∧
    ∀ i o, mc.outputMap i = some o → s'.2 o ≠ none

theorem write_module (hwf : WFc c) (ht : Topo c) (hc : w.circs[r]? = some c) {g : GateId} {nIn nOut ids oi mid}
    (hg : c.gateMap g = some (.module nIn nOut ids oi mid)) {mr : Ref} {mc : Circuit} (hm : w.module? c mid = some mr)
    (hmc : w.circs[mr]? = some mc) (hmwf : WFc mc) (hin : ids.length = mc.inputLen) (hout : nOut = mc.outputLen)
    {wgm : Ref → WriteGate} (hcal : Callee w mr mc (wgm mr))
    (hops : ∀ x ∈ ids, Writes w r c wg x) {s : WS} (hr : Ready c s.2) (hs : s.2 g = none) :
    ∃ s', (do
      let s ← ensureWires c wg ids s
      match w.module? c mid with
      | none => .error (.unknownModule mid)
      | some mr => do
        let mc ← w.circuit mr
        let new ← bindArgs mc s.2 0 ids Map.empty
        let (st, new) ← writeAll mc (wgm mr) (s.1, new)
        if g < oi then .error (.panic .underflow)
        else do
          let wog ← bindOuts mc new (g - oi) 0 nOut s.2
          .ok (st, wog)) = .ok s' ∧ Wrote w r c (From c [g]) s s' := by
  have hgr := hwf.group g _ _ _ _ _ hg
  have hlt := hwf.lt_of_some hg
  obtain ⟨s1, k1, k2⟩ := ensureWires_ok ids hops (fun x hx => hwf.some_of_lt (by
    have h1 := ht g _ hg x hx
    have h2 := lead_le g (.module nIn nOut ids oi mid)
    omega)) hr
  have hfree : ∀ k, k < nOut → s1.2 (g - oi + k) = none := by
    intro k hk
    have hk' := hgr.2.2 k hk
    have h0 : s.2 (g - oi + k) = none := by
      refine Classical.byContradiction fun h => ?_
      have hback : Reach c (g - oi + k) g := by
        have := Reach.sibling (c := c) (g := g - oi + k) .refl hk' hgr.1
        rwa [show g - oi + k - k + oi = g by omega] at this
      exact hr.closed _ g h hback hs
    obtain ⟨ls, cs, gs, bl, a, b, d⟩ := k2
    have h1 := mt (d (g - oi + k)).mp (by
      rintro (h | h)
      · exact h h0
      · exact not_from hwf ht hg (leadOf_member hwf hg hk) h)
    exact Classical.not_not.mp h1
  have hargs : ∀ x ∈ ids, s1.2 x ≠ none := fun x hx => k2.bound hx
  obtain ⟨new, k3, k4⟩ := bindArgs_ok hmwf ids 0 Map.empty hargs (by omega)
  have k4 : ∀ g y, new g = some y ↔ ∃ j id, ids[j]? = some id ∧ mc.gateMap g = some (.input j) ∧ s1.2 id = some y := by
    intro g y; rw [k4]; simp
  have hio : InputsOnly mc new := by
    intro y
    constructor
    · intro h
      obtain ⟨x, hx⟩ := Option.ne_none_iff_exists'.mp h
      obtain ⟨j, id, _, h2, _⟩ := (k4 y x).mp hx
      exact ⟨j, h2⟩
    · rintro ⟨k, hk⟩
      have hk' := (hmwf.input_dom k).mp (by rw [(hmwf.input_iff k y).mpr hk]; rfl)
      have hid := List.getElem?_eq_getElem (l := ids) (i := k) (by omega)
      obtain ⟨x, hx⟩ := Option.ne_none_iff_exists'.mp (hargs ids[k] (List.getElem_mem _))
      rw [(k4 y x).mpr ⟨k, _, hid, hk, hx⟩]
      simp
  obtain ⟨s2, ls, cs, k5, k6, k7, k8⟩ := hcal (s1.1, new) hio
  obtain ⟨wog, k9, k10⟩ := bindOuts_ok hmwf (g - oi) k8 nOut 0 s1.2 (by omega)
  simp only [Nat.zero_le, true_and, Nat.zero_add, forall_const] at k10
  have hdom : ∀ y, wog y ≠ none ↔ s1.2 y ≠ none ∨ ∃ k, k < nOut ∧ y = g - oi + k := by
    intro y
    constructor
    · intro h
      obtain ⟨x, hx⟩ := Option.ne_none_iff_exists'.mp h
      rcases (k10 y x).mp hx with ⟨j, o, h1, h2, _⟩ | ⟨_, h⟩
      · exact .inr ⟨j, h1, h2⟩
      · exact .inl (by rw [h]; simp)
    · intro h
      by_cases hk : ∃ k, k < nOut ∧ y = g - oi + k
      · obtain ⟨k, hk, rfl⟩ := hk
        obtain ⟨o, ho⟩ := Option.isSome_iff_exists.mp ((hmwf.output_dom k).mpr (by omega))
        obtain ⟨x, hx⟩ := Option.ne_none_iff_exists'.mp (k8 k o ho)
        rw [(k10 _ x).mpr (.inl ⟨k, o, hk, rfl, ho, hx⟩)]; simp
      · rcases h with h | h
        · obtain ⟨x, hx⟩ := Option.ne_none_iff_exists'.mp h
          rw [(k10 y x).mpr (.inr ⟨fun j hj e => hk ⟨j, hj, e⟩, hx⟩)]; simp
        · exact absurd h hk
  refine ⟨(s2.1, wog), ?_, ?_⟩
  · rw [bind_of_ok k1, hm]
    simp only
    rw [bind_of_ok (circuit_of hmc), bind_of_ok k3, bind_of_ok k5]
    rw [if_neg (by omega), bind_of_ok k9]
  have hem : Emits w r s1 (s2.1, wog) ls cs := by
    refine ⟨k6.out, k6.numWire, k6.outs, k6.arity, k6.plain, k6.last, k6.constOf, ?_, ?_, ?_⟩
    · intro y x hy
      refine (k10 y x).mpr (.inr ⟨?_, hy⟩)
      rintro j hj rfl
      rw [hfree j hj] at hy; cases hy
    · intro base hb hw
      obtain ⟨j1, j2⟩ := k6.wired base hb (by
        intro y x hy
        obtain ⟨j, id, _, _, h3⟩ := (k4 y x).mp hy
        exact hw id x h3)
      refine ⟨?_, j2⟩
      intro y x hy
      rcases (k10 y x).mp hy with ⟨j, o, _, _, _, h⟩ | ⟨_, h⟩
      · exact j1 o x h
      · have e1 := k6.last
        have e2 := k6.numWire
        have := hw y x h
        simp only at e1 e2 ⊢
        omega
    · intro hfit hlow ins e hcs hsd y x b hy hv
      rcases (k10 y x).mp hy with ⟨j, o, h1, h2, h3, h4⟩ | ⟨_, h⟩
      · subst h2
        obtain ⟨bits, o', m1, m2, m3, m4⟩ := val_module hc (hgr.2.2 j h1) hm hmc hv
        rw [h3] at m3; cases m3
        refine k6.sound hfit ?_ bits e hcs ?_ o x b h4 m4
        · intro y x hy
          obtain ⟨_, id, _, _, h⟩ := (k4 y x).mp hy
          exact hlow id x h
        · intro y' x' b' hy' hv'
          obtain ⟨i, id, n1, n2, n3⟩ := (k4 y' x').mp hy'
          exact hsd id x' b' n3 (m2 i id b' n1 (val_input hmc n2 hv'))
      · rw [k6.below e (hlow y x h)]
        exact hsd y x b h hv
  have hlead : IsCall w c (g - oi) mr := by
    have := hgr.2.2 0 (by omega)
    exact ⟨nIn, nOut, ids, mid, by simpa using this, hm⟩
  have h2 : Wrote w r c (fun y => ∃ k, k < nOut ∧ y = g - oi + k) s1 (s2.1, wog) := by
    refine ⟨ls, cs, [g - oi], [(ls.length, cs)], hem, ?_, hdom⟩
    refine ⟨by simp, by simp, ⟨.inr ⟨mr, hlead, k7⟩, trivial⟩, by simp, ?_, ?_⟩
    · intro y hy
      rw [List.mem_singleton.mp hy]
      exact ⟨hfree 0 (by omega), (hdom _).mpr (.inr ⟨0, by omega, rfl⟩)⟩
    · intro y hy hyw
      rcases (hdom y).mp hyw with h | ⟨k, hk, rfl⟩
      · exact .inl h
      · have hgk := hgr.2.2 k hk
        right
        rcases hy with ⟨a, b, h | h | h | h⟩ | ⟨mr', _, _, _, _, h, _⟩
        · rw [hgk] at h; cases h
        · rw [hgk] at h; cases h
        · rw [hgk] at h; cases h
        · rw [hgk] at h; cases h
        · rw [hgk] at h; cases h; simp
  refine (k2.trans h2).congr ?_
  intro y
  simp only [From, List.mem_singleton, exists_eq_left]
  rw [reach_module hwf hg]
  simp only [From]
  exact or_comm

end

/-! ### the recursion -/

theorem writeGate_all {w : World} (hw : WFw w) {r : Ref} (hb : Built w r) :
    ∃ F, ∀ c, w.circs[r]? = some c → ∀ fuel, F ≤ fuel → WritesAll w r c (writeGate w fuel r) := by
  induction hb with
  | @mk r c hc ht hcalls hbm ih =>
    have hwf := hw.circ r c hc
    obtain ⟨F, hF⟩ := exists_bound (n := c.gateIndex)
      (P := fun g F => ∀ nIn nOut ids oi mid mr mc, c.gateMap g = some (.module nIn nOut ids oi mid) →
        w.module? c mid = some mr → w.circs[mr]? = some mc → ∀ fuel, F ≤ fuel → Callee w mr mc (writeGate w fuel mr))
      (by
        intro g a b hab h nIn nOut ids oi mid mr mc h1 h2 h3 fuel hf
        exact h nIn nOut ids oi mid mr mc h1 h2 h3 fuel (by omega))
      (by
        intro g _
        cases e : c.gateMap g with
        | none => exact ⟨0, by intro _ _ _ _ _ _ _ h; cases h⟩
        | some gate =>
          cases gate with
          | module nIn nOut ids oi mid =>
            obtain ⟨mr, mc, h1, h2, _⟩ := hcalls g nIn nOut ids oi mid e
            have hcl : Calls w c mr := ⟨g, nIn, nOut, ids, oi, mid, e, h1⟩
            obtain ⟨F, hF⟩ := ih mr hcl
            refine ⟨F, ?_⟩
            intro nIn' nOut' ids' oi' mid' mr' mc' h h1' h2'
            cases h
            rw [h1] at h1'; cases h1'
            rw [h2] at h2'; cases h2'
            intro fuel hf s hs
            have htm : Topo mc := (hbm mr hcl).topo h2
            obtain ⟨s', ls, cs, k1, k2, k3, k4⟩ := writeAll_ok (hw.circ mr mc h2) h2 htm (hF mc h2 fuel hf) hs
            exact ⟨s', ls, cs, k1, k2, k3, fun i o ho => (k4 o).mpr (.inr (.inr ⟨i, o, ho, .refl⟩))⟩
          | _ => exact ⟨0, by intro _ _ _ _ _ _ _ h; cases h⟩)
    have main : ∀ L fuel, F + L ≤ fuel → ∀ g, leadOf c g < L → Writes w r c (writeGate w fuel r) g := by
      intro L
      induction L with
      | zero => intro fuel _ g hg; omega
      | succ L ihL =>
        intro fuel hfuel g hg
        obtain ⟨fuel, rfl⟩ : ∃ k, fuel = k + 1 := ⟨fuel - 1, by omega⟩
        have heg := ihL fuel (by omega)
        intro gate s hgate hr hs
        have hop : ∀ x ∈ gate.operands, Writes w r c (writeGate w fuel r) x := by
          intro x hx
          have h1 := ht g gate hgate x hx
          have h2 : leadOf c g = lead g gate := by simp [leadOf, hgate]
          have h3 := leadOf_le (c := c) x
          exact heg x (by omega)
        unfold writeGate
        rw [bind_of_ok (circuit_of hc)]
        cases gate with
        | input k => exact absurd hs (hr.inputs g k hgate)
        | const v => exact absurd hs (hr.consts g v hgate)
        | not x =>
          exact write_logic hwf ht (op := .inv) hgate ⟨x, x, .inl hgate⟩ rfl (by decide) (fun _ _ => val_not hc hgate) hop hr hs
        | xor a b =>
          exact write_logic hwf ht (op := .xor) hgate ⟨a, b, .inr (.inl hgate)⟩ rfl (by decide) (fun _ _ => val_xor hc hgate) hop hr hs
        | and a b =>
          exact write_logic hwf ht (op := .and) hgate ⟨a, b, .inr (.inr (.inl hgate))⟩ rfl (by decide) (fun _ _ => val_and hc hgate) hop hr hs
        | or a b =>
          exact write_logic hwf ht (op := .or) hgate ⟨a, b, .inr (.inr (.inr hgate))⟩ rfl (by decide) (fun _ _ => val_or hc hgate) hop hr hs
        | module nIn nOut ids oi mid =>
          obtain ⟨mr, mc, h1, h2, h3, h4, h5⟩ := hcalls g nIn nOut ids oi mid hgate
          exact write_module (wgm := writeGate w fuel) hwf ht hc hgate h1 h2 (hw.circ mr mc h2) (by omega) h5
            (hF g (hwf.lt_of_some hgate) nIn nOut ids oi mid mr mc hgate h1 h2 fuel (by omega)) hop hr hs
    refine ⟨F + c.gateIndex, ?_⟩
    intro c' hc' fuel hf x hx
    rw [hc] at hc'; cases hc'
    have h2 := leadOf_le (c := c) x
    exact main c.gateIndex fuel hf x (by omega)

end CC.Bristol
