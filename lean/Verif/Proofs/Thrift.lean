import Verif.Proofs.Guard
import Verif.Proofs.TicksC

/-!
# Programs without constants in which every line is used: nothing in their circuits is in vain
-/

namespace CC.Thrift
open Spec Spec.Functions

/-- the counter of logic gates is exact, no circuit involved has constants, and all gates of all of them are needed -/
inductive Full (w : World) : Ref → Prop where
  | mk {r c} : w.circs[r]? = some c → c.numConst = 0 → (∀ g v, c.gateMap g ≠ some (.const v)) →
      sumTo c.gateIndex (weight gateCounter w c) = c.numGate →
      (∀ g gate, c.gateMap g = some gate → (∀ i, gate ≠ .input i) → Needed c g) →
      (∀ g nIn nOut ids oi mid, c.gateMap g = some (.module nIn nOut ids oi mid) → ∃ q, w.module? c mid = some q) →
      (∀ q, Calls w c q → Full w q) → Full w r

theorem Full.get {w : World} {r : Ref} (h : Full w r) : ∃ c, w.circs[r]? = some c := by
  cases h with
  | mk hc => exact ⟨_, hc⟩

theorem Full.keeps {P : Ref → Prop} {w w' : World} (h : Keeps P w w')
    (hcl : ∀ (x : Ref) c mr, P x → w.circs[x]? = some c → Calls w c mr → P mr) {x : Ref} (hf : Full w x) : P x → Full w' x := by
  induction hf with
  | @mk r c hc h1 h2 h3 h4 h5 h6 ih =>
    intro hx
    refine .mk (h.circ _ _ hx hc) h1 h2 ?_ h4 ?_ ?_
    · rw [← h3]
      refine sumTo_congr fun g _ => weight_congr rfl fun nIn nOut ids oi mid hg => ?_
      obtain ⟨q, hq⟩ := h5 g nIn nOut ids oi mid hg
      have hcall : Calls w c q := ⟨g, nIn, nOut, ids, oi, mid, hg, hq⟩
      obtain ⟨mc, hmc⟩ := (h6 q hcall).get
      exact ⟨q, mc, hq, hmc, h.module? hq, h.circ _ _ (hcl _ _ _ hx hc hcall) hmc⟩
    · intro g nIn nOut ids oi mid hg
      obtain ⟨q, hq⟩ := h5 g nIn nOut ids oi mid hg
      exact ⟨q, h.module? hq⟩
    · rintro q ⟨g, nIn, nOut, ids, oi, mid, hg, hm⟩
      obtain ⟨q', hq⟩ := h5 g nIn nOut ids oi mid hg
      have := h.module? hq
      rw [hm] at this; cases this
      have hcall : Calls w c q := ⟨g, nIn, nOut, ids, oi, mid, hg, hq⟩
      exact ih q hcall (hcl _ _ _ hx hc hcall)

open Classical in
/-- writing such a circuit takes as many lines as the counter says, and no constants -/
theorem Full.inlined {w : World} (hw : WFw w) {r : Ref} (hf : Full w r) : ∃ c, w.circs[r]? = some c ∧ c.numConst = 0 ∧ Inlined w r c.numGate [] := by
  induction hf with
  | @mk r c hc h1 h2 h3 h4 h5 h6 ih =>
    refine ⟨c, hc, h1, ?_⟩
    have hwf := hw.circ r c hc
    have hlt : ∀ g, (IsLogic c g ∨ ∃ mr, IsCall w c g mr) → g < c.gateIndex := by
      rintro g (h | ⟨mr, h⟩)
      · exact IsLogic.lt hwf h
      · exact IsCall.lt hwf h
    have hneed : ∀ g, (IsLogic c g ∨ ∃ mr, IsCall w c g mr) → Needed c g := by
      rintro g (⟨a, b, h | h | h | h⟩ | ⟨mr, _, _, _, _, h, _⟩) <;> exact h4 g _ h (by simp)
    let gs := (List.range c.gateIndex).filter fun g => decide (IsLogic c g ∨ ∃ mr, IsCall w c g mr)
    have hmem : ∀ g, g ∈ gs ↔ IsLogic c g ∨ ∃ mr, IsCall w c g mr := by
      intro g
      simp only [gs, List.mem_filter, List.mem_range, decide_eq_true_eq]
      exact ⟨fun h => h.2, fun h => ⟨hlt g h, h⟩⟩
    have hnd : gs.Nodup := List.nodup_range.sublist List.filter_sublist
    have hsum : (gs.map (weight gateCounter w c)).sum = c.numGate := by
      rw [← h3]
      refine (sumTo_list hnd (fun g hg => hlt g ((hmem g).mp hg)) fun g hg hn => ?_).symm
      obtain ⟨gate, he⟩ := hwf.some_of_lt hg
      rw [hmem] at hn
      cases gate with
      | input i => rw [weight_plain he (by simp)]; rfl
      | const v => exact absurd he (h2 g v)
      | not a => exact absurd (.inl ⟨a, a, .inl he⟩) hn
      | xor a b => exact absurd (.inl ⟨a, b, .inr (.inl he)⟩) hn
      | and a b => exact absurd (.inl ⟨a, b, .inr (.inr (.inl he))⟩) hn
      | or a b => exact absurd (.inl ⟨a, b, .inr (.inr (.inr he))⟩) hn
      | module nIn nOut ids oi mid =>
        by_cases h0 : oi = 0
        · subst h0
          obtain ⟨q, hq⟩ := h5 g _ _ _ _ _ he
          exact absurd (.inr ⟨q, nIn, nOut, ids, mid, he, hq⟩) hn
        · unfold weight
          rw [he]
          simp only [if_neg h0]
    have := Inlined.mk (w := w) (r := r) (c := c) (own := []) gs (weight gateCounter w c) (fun _ => []) hc
      ⟨[], .nil, fun g => by simp only [List.not_mem_nil, false_iff, not_exists]; exact h2 g, trivial⟩ hnd
      (fun g => by rw [hmem]; exact ⟨fun h => ⟨hneed g h, h⟩, fun h => h.2⟩)
      (fun g _ h => ⟨weight_logic h, rfl⟩)
      (fun g mr _ h => by
        obtain ⟨nIn, nOut, ids, mid, e1, e2⟩ := h
        obtain ⟨m, k1, _, k3⟩ := ih mr ⟨g, nIn, nOut, ids, 0, mid, e1, e2⟩
        rw [weight_call ⟨nIn, nOut, ids, mid, e1, e2⟩ k1]
        exact k3)
    have hnil : ∀ l : List GateId, (l.flatMap fun _ => ([] : List Bool)) = [] := fun l => by induction l <;> simp_all
    rw [hsum, hnil] at this
    exact this

/-! ### circuits under construction -/

/-- what is kept while a circuit is built -/
structure Trim (w : World) (c : Circuit) : Prop where
  consts : c.numConst = 0
  noConst : ∀ g v, c.gateMap g ≠ some (.const v)
  sum : sumTo c.gateIndex (weight gateCounter w c) = c.numGate
  mods : ∀ g nIn nOut ids oi mid, c.gateMap g = some (.module nIn nOut ids oi mid) → ∃ q, w.module? c mid = some q
  calls : ∀ q, Calls w c q → Full w q

theorem Trim.new (w : World) (st : StoreRef) : Trim w (Circuit.new st) := by
  refine ⟨rfl, ?_, rfl, ?_, ?_⟩
  · intro g v h; simp [Circuit.new, Map.empty] at h
  · intro g _ _ _ _ _ h; simp [Circuit.new, Map.empty] at h
  · rintro q ⟨g, _, _, _, _, _, h, _⟩; simp [Circuit.new, Map.empty] at h

theorem Trim.old {w : World} {c c' : Circuit} (t : Trim w c) {gs : List Gate} (ap : Appends c c' gs) :
    sumTo c.gateIndex (weight gateCounter w c') = c.numGate := by
  rw [← t.sum]
  refine sumTo_congr fun g hg => weight_congr (ap.old hg) fun nIn nOut ids oi mid h => ?_
  obtain ⟨q, hq⟩ := t.mods g nIn nOut ids oi mid h
  obtain ⟨mc, hmc⟩ := (t.calls q ⟨g, nIn, nOut, ids, oi, mid, h, hq⟩).get
  exact ⟨q, mc, hq, hmc, by rw [← hq]; exact World.module?_congr rfl ap.storage mid, hmc⟩

theorem Trim.adds {w : World} {c c' : Circuit} {gate : Gate} (t : Trim w c) (ha : AddsGate c c' gate) (hc : ∀ v, gate ≠ .const v) : Trim w c' := by
  have hm : ∀ mid, w.module? c' mid = w.module? c mid := World.module?_congr rfl ha.appends.storage
  have hget : ∀ {g x}, c'.gateMap g = some x → c.gateMap g = some x ∨ x = gate := by
    intro g x h
    rw [ha.appends.gate] at h
    split at h
    · exact .inl h
    · have := List.mem_of_getElem? h
      simp at this
      exact .inr this
  refine ⟨?_, ?_, ?_, ?_, ?_⟩
  · rw [ha.numConst, t.consts]
    cases gate <;> first | rfl | exact absurd rfl (hc _)
  · intro g v h
    rcases hget h with h | h
    · exact t.noConst g v h
    · exact hc v h.symm
  · rw [ha.appends.idx, List.length_singleton, ha.numGate]
    simp only [sumTo]
    have hg := ha.appends.new 0
    simp at hg
    rw [t.old ha.appends, weight_plain hg ha.plain]
    rfl
  · intro g nIn nOut ids oi mid h
    rcases hget h with h | h
    · rw [hm]; exact t.mods g nIn nOut ids oi mid h
    · exact absurd h.symm (ha.plain _ _ _ _ _)
  · rintro q ⟨g, nIn, nOut, ids, oi, mid, h, hq⟩
    rcases hget h with h | h
    · rw [hm] at hq; exact t.calls q ⟨g, nIn, nOut, ids, oi, mid, h, hq⟩
    · exact absurd h.symm (ha.plain _ _ _ _ _)

theorem Trim.module {w : World} {c c' m : Circuit} {mid : ModuleId} {ids outs : List GateId} (t : Trim w c) (he : ModuleEffect c m c' mid ids outs)
    {mr : Ref} (hm : w.module? c mid = some mr) (hmc : w.circs[mr]? = some m) (hf : Full w mr) (h0 : 0 < m.outputLen) : Trim w c' := by
  have hst : ∀ mid, w.module? c' mid = w.module? c mid := World.module?_congr rfl he.appends.storage
  have hget : ∀ {g x}, c'.gateMap g = some x → c.gateMap g = some x ∨ ∃ i, x = .module m.inputLen m.outputLen ids i mid := by
    intro g x h
    rw [he.appends.gate] at h
    split at h
    · exact .inl h
    · rw [moduleGates_get] at h
      split at h
      · exact .inr ⟨_, (Option.some.inj h).symm⟩
      · cases h
  have hmConst : m.numConst = 0 := by
    cases hf with
    | mk hc h1 => rw [hmc] at hc; cases hc; exact h1
  refine ⟨by rw [he.numConst, t.consts, hmConst], ?_, ?_, ?_, ?_⟩
  · intro g v h
    rcases hget h with h | ⟨_, h⟩
    · exact t.noConst g v h
    · cases h
  · have hlen : (moduleGates m.inputLen m.outputLen ids mid).length = m.outputLen := by simp [moduleGates]
    rw [he.appends.idx, sumTo_split, t.old he.appends, he.numGate, hlen]
    have hwt : ∀ i, i < m.outputLen → weight gateCounter w c' (c.gateIndex + i) = if i = 0 then m.numGate else 0 := by
      intro i hi
      have hg := he.appends.new i
      rw [moduleGates_get, if_pos hi] at hg
      unfold weight
      rw [hg]
      simp only
      rw [hst, hm, Option.bind_some, hmc]; rfl
    rw [sumTo_congr hwt, show m.outputLen = 1 + (m.outputLen - 1) by omega, sumTo_split,
      sumTo_zero (n := m.outputLen - 1) (by intro i _; rw [if_neg (by omega)])]
    simp [sumTo]
  · intro g nIn nOut ids' oi mid' h
    rcases hget h with h | ⟨_, h⟩
    · rw [hst]; exact t.mods g nIn nOut ids' oi mid' h
    · cases h; exact ⟨mr, by rw [hst]; exact hm⟩
  · rintro q ⟨g, nIn, nOut, ids', oi, mid', h, hq⟩
    rw [hst] at hq
    rcases hget h with h | ⟨_, h⟩
    · exact t.calls q ⟨g, nIn, nOut, ids', oi, mid', h, hq⟩
    · cases h
      rw [hm] at hq; cases hq; exact hf

theorem reach_trans {c : Circuit} {a b d : GateId} (h : Reach c a b) (k : Reach c b d) : Reach c a d := by
  induction k with
  | refl => exact h
  | operand _ h1 h2 ih => exact .operand ih h1 h2
  | sibling _ h1 h2 ih => exact .sibling ih h1 h2

theorem reach_ext {c c' : Circuit} (hx : ∀ g gate, c.gateMap g = some gate → c'.gateMap g = some gate) {a b : GateId} (h : Reach c a b) :
    Reach c' a b := by
  induction h with
  | refl => exact .refl
  | operand _ h1 h2 ih => exact .operand ih (hx _ _ h1) h2
  | sibling _ h1 h2 ih => exact .sibling ih (hx _ _ h1) h2

/-! ### one line -/

/-- the module is a circuit with property `P` -/
def Holds (P : World → Ref → Prop) (w : World) (st : StoreRef) (m : ModuleId) : Prop :=
  ∃ stor mr, w.stores[st]? = some stor ∧ stor.moduleMap m = some mr ∧ P w mr

/-- module `f` is a circuit with property `P f` -/
def Stock (P : Nat → World → Ref → Prop) (w : World) (st : StoreRef) (mods : List ModuleId) : Prop :=
  ∀ f m, mods[f]? = some m → Holds (P f) w st m

/-- property of the modules in `ok` -/
abbrev FullIf (ok : Nat → Prop) (f : Nat) (w : World) (r : Ref) : Prop := ok f → Full w r

/-- only functions in `ok` are called -/
def CallsOnly (ok : Nat → Prop) (p : List Line) : Prop := ∀ f args, Line.call f args ∈ p → ok f

/-- every result leads to all new gates and to all operands -/
structure Live (w : World) (c : Circuit) (ops gs : List GateId) (c' : Circuit) : Prop where
  trim : Trim w c'
  gates : ∀ q ∈ gs, ∀ g, c.gateIndex ≤ g → g < c'.gateIndex → Reach c' q g
  operands : ∀ q ∈ gs, ∀ x ∈ ops, Reach c' q x

theorem Live.one {w : World} {c c' : Circuit} {gate : Gate} (t : Trim w c) (ha : AddsGate c c' gate) (hc : ∀ v, gate ≠ .const v)
    {ops : List GateId} (ho : ∀ x ∈ ops, x ∈ gate.operands) : Live w c ops [c.gateIndex] c' := by
  have hg := ha.appends.new 0
  simp at hg
  have hi := ha.appends.idx
  refine ⟨t.adds ha hc, ?_, ?_⟩
  · intro q hq g h1 h2
    simp at hq hi
    have : g = q := by omega
    subst this; exact .refl
  · intro q hq x hx
    simp at hq
    subst hq
    exact .operand .refl hg (ho x hx)

theorem Live.two {w : World} {c c1 c' : Circuit} {gate gate' : Gate} (t : Trim w c) (ha : AddsGate c c1 gate) (hc : ∀ v, gate ≠ .const v)
    (ha' : AddsGate c1 c' gate') (hc' : ∀ v, gate' ≠ .const v) (hl : c.gateIndex ∈ gate'.operands)
    {ops : List GateId} (ho : ∀ x ∈ ops, x ∈ gate.operands) : Live w c ops [c.gateIndex + 1] c' := by
  have hg := ha.appends.new 0
  have hg' := ha'.appends.new 0
  have hi := ha.appends.idx
  have hi' := ha'.appends.idx
  simp at hg hg' hi hi'
  rw [hi] at hg'
  have hg2 : c'.gateMap c.gateIndex = some gate := by rw [ha'.appends.old (by omega)]; exact hg
  refine ⟨(t.adds ha hc).adds ha' hc', ?_, ?_⟩
  · intro q hq g h1 h2
    simp at hq
    subst hq
    by_cases e : g = c.gateIndex + 1
    · subst e; exact .refl
    · have : g = c.gateIndex := by omega
      subst this
      exact .operand .refl hg' hl
  · intro q hq x hx
    simp at hq
    subst hq
    exact .operand (.operand .refl hg' hl) hg2 (ho x hx)

theorem Live.call {w : World} {c c' m : Circuit} {mid : ModuleId} {ids outs : List GateId} (t : Trim w c) (he : ModuleEffect c m c' mid ids outs)
    {mr : Ref} (hm : w.module? c mid = some mr) (hmc : w.circs[mr]? = some m) (hf : Full w mr) (h0 : 0 < m.outputLen) : Live w c ids outs c' := by
  have hlen : (moduleGates m.inputLen m.outputLen ids mid).length = m.outputLen := by simp [moduleGates]
  have hi := he.appends.idx
  rw [hlen] at hi
  have hq : ∀ q ∈ outs, ∃ i, i < m.outputLen ∧ q = c.gateIndex + i ∧ c'.gateMap q = some (.module m.inputLen m.outputLen ids i mid) := by
    intro q hq
    rw [he.outs_eq, List.mem_range'_1] at hq
    have hg := he.appends.new (q - c.gateIndex)
    rw [moduleGates_get, if_pos (by omega), show c.gateIndex + (q - c.gateIndex) = q by omega] at hg
    exact ⟨q - c.gateIndex, by omega, by omega, hg⟩
  refine ⟨t.module he hm hmc hf h0, ?_, ?_⟩
  · intro q h g h1 h2
    obtain ⟨i, k1, k2, k3⟩ := hq q h
    have := Reach.sibling (k := g - c.gateIndex) (Reach.refl (c := c') (g := q)) k3 (by omega)
    rwa [show q - i + (g - c.gateIndex) = g by omega] at this
  · intro q h x hx
    obtain ⟨i, k1, k2, k3⟩ := hq q h
    exact .operand .refl k3 hx

theorem args_gates {env : List GateId} : ∀ {args : List Nat}, (∀ i ∈ args, i < env.length) →
    ∃ xs, (∀ w, M.mapList (fun i => M.idx env i) args w = (.ok xs, w)) ∧ All2 (fun i x => env[i]? = some x) args xs
  | [], _ => ⟨[], fun _ => rfl, trivial⟩
  | i :: args, h => by
    obtain ⟨xs, h1, h3⟩ := args_gates (args := args) fun j hj => h j (by simp [hj])
    have e := List.getElem?_eq_getElem (h i (by simp))
    refine ⟨env[i]'(h i (by simp)) :: xs, fun w => ?_, e, h3⟩
    have h2 : M.idx env i w = (.ok (env[i]'(h i (by simp))), w) := by
      unfold M.idx; rw [e]; rfl
    unfold M.mapList
    rw [bind_ok h2, bind_ok (h1 w)]; rfl

section
variable {w : World} {s : Ref} {K : Ctx} {c : Circuit} {ins : List Bool}

theorem line_live (hb : Bld w s K c) (t : Trim w c) {mods : List ModuleId} {sigs : List Sig} {fns : List Fn}
    (hlib : Funs.Lib (Funs.Here w s K) mods sigs fns) {ok : Nat → Prop} (hst : Stock (FullIf ok) w K.st mods) {env : List GateId} {l : Line} (hcalls : CallsOnly ok [l]) (hok : l.Ok sigs) (hroom : l.Room sigs)
    (hops : ∀ i ∈ l.operands, i < env.length) (hsrc : l.source = false) (hw0 : 0 < l.width sigs) :
    RunsC w s (l.build s mods env) c fun gs c' => ∃ xs, All2 (fun i x => env[i]? = some x) l.operands xs ∧ Live w c xs gs c' := by
  have hg := hb.get
  have hwf := hb.wfc
  have idx : ∀ {i : Nat}, i ∈ l.operands → ∃ x, env[i]? = some x := fun hi => ⟨_, List.getElem?_eq_getElem (hops _ hi)⟩
  cases l with
  | const b => cases hsrc
  | not i =>
    obtain ⟨x, e⟩ := idx (i := i) (by simp [Line.operands])
    exact RunsC.bind (RunsC.idx e ⟨_, _, by rw [bind_ok (not_eq hg x), setC_setC]; rfl, [x], ⟨e, trivial⟩,
      Live.one t (adds_not hwf x) (by simp) (by simp [Gate.operands])⟩)
  | and i j =>
    obtain ⟨x, e⟩ := idx (i := i) (by simp [Line.operands])
    obtain ⟨y, e'⟩ := idx (i := j) (by simp [Line.operands])
    exact RunsC.bind (RunsC.idx e (RunsC.bind (RunsC.idx e' ⟨_, _, by rw [bind_ok (and_eq hg x y), setC_setC]; rfl, [x, y], ⟨e, e', trivial⟩,
      Live.one t (adds_and hwf x y) (by simp) (by simp [Gate.operands])⟩)))
  | or i j =>
    obtain ⟨x, e⟩ := idx (i := i) (by simp [Line.operands])
    obtain ⟨y, e'⟩ := idx (i := j) (by simp [Line.operands])
    exact RunsC.bind (RunsC.idx e (RunsC.bind (RunsC.idx e' ⟨_, _, by rw [bind_ok (or_eq hg x y), setC_setC]; rfl, [x, y], ⟨e, e', trivial⟩,
      Live.one t (adds_or hwf x y) (by simp) (by simp [Gate.operands])⟩)))
  | xor i j =>
    obtain ⟨x, e⟩ := idx (i := i) (by simp [Line.operands])
    obtain ⟨y, e'⟩ := idx (i := j) (by simp [Line.operands])
    exact RunsC.bind (RunsC.idx e (RunsC.bind (RunsC.idx e' ⟨_, _, by rw [bind_ok (xor_eq hg x y), setC_setC]; rfl, [x, y], ⟨e, e', trivial⟩,
      Live.one t (adds_xor hwf x y) (by simp) (by simp [Gate.operands])⟩)))
  | same i j =>
    obtain ⟨x, e⟩ := idx (i := i) (by simp [Line.operands])
    obtain ⟨y, e'⟩ := idx (i := j) (by simp [Line.operands])
    exact RunsC.bind (RunsC.idx e (RunsC.bind (RunsC.idx e' ⟨_, _, by rw [bind_ok (equivalent_eq hg x y), setC_setC]; rfl, [x, y], ⟨e, e', trivial⟩,
      Live.two t (adds_xor hwf x y) (by simp) (adds_not (hwf.xor x y) c.gateIndex) (by simp) (by simp [Gate.operands]) (by simp [Gate.operands])⟩)))
  | copy i =>
    obtain ⟨x, e⟩ := idx (i := i) (by simp [Line.operands])
    exact RunsC.bind (RunsC.idx e ⟨_, _, by rw [bind_ok (identity_eq hg x), setC_setC]; rfl, [x], ⟨e, trivial⟩,
      Live.two t (adds_not hwf x) (by simp) (adds_not (hwf.not x) c.gateIndex) (by simp) (by simp [Gate.operands]) (by simp [Gate.operands])⟩)
  | call f args =>
    obtain ⟨σ, k1, k2⟩ := hok
    have k3 := hroom σ k1
    obtain ⟨l1, l2, l3⟩ := hlib
    have hf := lt_of_getElem? k1
    obtain ⟨m, hm⟩ : ∃ m, mods[f]? = some m := ⟨_, List.getElem?_eq_getElem (by omega)⟩
    obtain ⟨fn, hfn⟩ : ∃ fn, fns[f]? = some fn := ⟨_, List.getElem?_eq_getElem (by omega)⟩
    obtain ⟨mr, mc, stor, m1, m2, m3, m4, m5, m6, m7⟩ := (l3 f σ m fn k1 hm hfn).2.size
    obtain ⟨stor', mr', n1, n2, n3⟩ := hst f m hm
    have n3 := n3 (hcalls f args (by simp))
    rw [m1] at n1; cases n1
    rw [m2] at n2; cases n2
    obtain ⟨xs, hxs, hall⟩ := args_gates (args := args) hops
    have hmod : w.module? c m = some mr := by rw [hb.module?_eq, m1]; exact m2
    have hmc' : (w.setC s c).circs[mr]? = some mc := by rw [setC_get_ne _ m3]; exact m4
    have h1 : M.idx mods f (w.setC s c) = (.ok m, w.setC s c) := by unfold M.idx; rw [hm]; rfl
    obtain ⟨outs, e1, e2⟩ := Circuit.module_ok hwf m xs (m := mc) (by omega)
    refine ⟨outs, (c.module mc m xs).2, ?_, xs, hall, Live.call t e2 hmod m4 n3 ?_⟩
    · simp only [Line.build]
      rw [bind_ok h1, bind_ok (hxs _), module_eq hb.get hmod m3 hmc', setC_setC, e1]
    · simp only [Line.width, k1] at hw0
      omega

/-! ### bodies -/

/-- some result leads to gate `g` -/
def Hit (c : Circuit) (env : List GateId) (outs : List Nat) (g : GateId) : Prop := ∃ o ∈ outs, ∃ x, env[o]? = some x ∧ Reach c x g

theorem build_live {mods : List ModuleId} {sigs : List Sig} {fns : List Fn}
    (hlib : Funs.Lib (Funs.Here w s K) mods sigs fns) {ok : Nat → Prop} (hst : Stock (FullIf ok) w K.st mods) (outs : List Nat) :
    ∀ (p : List Line) {c : Circuit} (env : List GateId) (vals : List Bool), Bld w s K c → c.outputLen = 0 → Trim w c → All2 (V w s ins c) env vals →
      Functions.Scoped sigs env.length p → (∀ l ∈ p, l.Room sigs) → Thrifty sigs env.length p outs → CallsOnly ok p →
      RunsC w s (Functions.build s mods p env) c fun env' c' => Grew w s K c c' ∧ Trim w c' ∧ env'.length = env.length + values sigs p ∧
        (∃ vals', All2 (V w s ins c') env' vals') ∧ (∃ r, env' = env ++ r) ∧
        (∀ g, c.gateIndex ≤ g → g < c'.gateIndex → Hit c' env' outs g) ∧
        ∀ l ∈ p, ∀ i ∈ l.operands, ∀ x, env'[i]? = some x → Hit c' env' outs x
  | [], c, env, vals, hb, h0, t, henv, _, _, _, _ =>
    RunsC.pure ⟨hb.grew, t, rfl, ⟨vals, henv⟩, ⟨[], by simp⟩, fun g h1 h2 => by omega, by simp⟩
  | l :: p, c, env, vals, hb, h0, t, henv, hsc, hroom, ht, hon => by
    obtain ⟨s1, s2, s3⟩ := hsc
    obtain ⟨t1, ⟨i, i1, i2, i3⟩, t3⟩ := ht
    have hr1 := hroom l (by simp)
    refine RunsC.seq (RunsC.both hb.lt (Funs.line_ok (ins := ins) hb h0 hlib henv s1 hr1 s2)
      (line_live hb t hlib hst (fun f args h => hon f args (by simp at h; simp [h])) s1 hr1 s2 t1 (by omega))) ?_
    rintro gs c1 ⟨h1, xs, hxs, hl⟩
    obtain ⟨bs, v1, v2, v3⟩ := h1.val
    have hlen : gs.length = l.width sigs := by rw [v2.length, v3]
    have hbd := h1.grew.step.bld
    refine (build_live hlib hst outs p (env ++ gs) (vals ++ bs) hbd (h1.grew.out0 h0) hl.trim
      ((h1.grew.step.vs hb henv).append v2) (by simpa [hlen] using s3) (fun l' hl' => hroom l' (by simp [hl'])) (by simpa [hlen] using t3)
      fun f args h => hon f args (by simp [h])).mono ?_
    rintro env' c' ⟨k1, k2, k3, k4, ⟨r, k5⟩, k6, k7⟩
    have hx := k1.step.ext.gates
    obtain ⟨q, hq⟩ : ∃ q, gs[i - env.length]? = some q := ⟨_, List.getElem?_eq_getElem (by omega)⟩
    have hqm := List.mem_of_getElem? hq
    have hq' : env'[i]? = some q := by
      rw [k5, List.getElem?_append_left (by simp; omega), List.getElem?_append_right (by omega)]; exact hq
    have hit : Hit c' env' outs q := by
      rcases i3 with h | ⟨l', h, h'⟩
      · exact ⟨i, h, q, hq', .refl⟩
      · exact k7 l' h i h' q hq'
    have go : ∀ {g}, Reach c1 q g → Hit c' env' outs g := by
      intro g hg
      obtain ⟨o, a1, x, a2, a3⟩ := hit
      exact ⟨o, a1, x, a2, reach_trans a3 (reach_ext hx hg)⟩
    refine ⟨h1.grew.trans k1, k2, ?_, k4, ⟨gs ++ r, by rw [k5, List.append_assoc]⟩, ?_, ?_⟩
    · rw [k3]; simp [values, hlen]; omega
    · intro g a1 a2
      by_cases a3 : g < c1.gateIndex
      · exact go (hl.gates q hqm g a1 a3)
      · exact k6 g (by omega) a2
    · intro l' hl' j hj x hjx
      rcases List.mem_cons.mp hl' with rfl | hl'
      · obtain ⟨n, hn⟩ := List.getElem?_of_mem hj
        obtain ⟨j', y, e1, e2, e3⟩ := hxs.get (i := n) (lt_of_getElem? hn)
        rw [hn] at e1; cases e1
        have : env'[j]? = some y := by
          rw [k5, List.append_assoc, List.getElem?_append_left (lt_of_getElem? e3)]; exact e3
        rw [hjx] at this; cases this
        exact go (hl.operands q hqm x (List.mem_of_getElem? e2))
      · exact k7 l' hl' j hj x hjx

theorem inputs_live (hb : Bld w s K c) (h0 : c.outputLen = 0) (t : Trim w c) (hi : ∀ g gate, c.gateMap g = some gate → ∃ i, gate = .input i) (n : Nat) :
    RunsC w s (M.replicate (CC.input s) n) c fun _ c' => Trim w c' ∧ ∀ g gate, c'.gateMap g = some gate → ∃ i, gate = .input i := by
  refine (RunsC.replicate (I := fun _ c' => Step w s K c c' ∧ Trim w c' ∧ ∀ g gate, c'.gateMap g = some gate → ∃ i, gate = .input i) n []
    ⟨hb.refl, t, hi⟩ ?_).mono fun _ _ h => h.1.2
  rintro acc c1 _ ⟨h1, h2, h3⟩
  have hw : RunsC w s (CC.input s) c1 fun _ c' => AddsGate c1 c' (.input c1.inputLen) :=
    ⟨_, _, by rw [input_eq h1.bld.get, setC_setC], adds_input h1.bld.wfc⟩
  refine (RunsC.both hb.lt (RunsC.input (ins := []) h1.bld (h1.outputLen.trans h0)) hw).mono ?_
  rintro g c2 ⟨⟨hn, _⟩, ha⟩
  refine ⟨h1.trans hn, h2.adds ha (by simp), ?_⟩
  intro g gate hg
  rw [ha.appends.gate] at hg
  split at hg
  · exact h3 g gate hg
  · have := List.mem_of_getElem? hg
    simp at this
    exact ⟨_, this⟩

/-- a function in whose circuit nothing is in vain -/
theorem func_full {st : StoreRef} (hb : Bld w s K (Circuit.new st)) {mods : List ModuleId} {sigs : List Sig} {fns : List Fn}
    (hlib : Funs.Lib (Funs.Here w s K) mods sigs fns) {ok : Nat → Prop} (hst : Stock (FullIf ok) w K.st mods) {F : Func} (hF : F.Fine sigs) (hroom : ∀ l ∈ F.body, l.Room sigs)
    (hon : CallsOnly ok F.body) (ht : Thrifty sigs F.arity F.body F.outs) :
    RunsC w s (F.build s mods) (Circuit.new st) fun _ c2 => Full (w.setC s c2) s := by
  unfold Func.build
  let ins := List.replicate F.arity false
  refine RunsC.seq (RunsC.both hb.lt (RunsC.inputs (ins := ins) hb rfl F.arity (by simp [ins, Circuit.new]))
    (inputs_live hb rfl (Trim.new w st) (fun g gate h => by simp [Circuit.new, Map.empty] at h) F.arity)) ?_
  rintro args c1 ⟨⟨h1, h2, h3, h4, h5⟩, h6, h7⟩
  refine RunsC.seq (build_live (ins := ins) hlib hst F.outs F.body args _ h1.bld h1.outputLen h6 h5
    (by rw [h4]; exact hF.lines) hroom (by rw [h4]; exact ht) hon) ?_
  rintro env c2 ⟨k1, k2, k3, ⟨vals, k4⟩, -, k5, -⟩
  have hlt : ∀ i ∈ F.outs, i < env.length := fun i hi => by rw [k3, h4]; exact hF.outs i hi
  have hb2 := k1.step.bld
  obtain ⟨os, bs, o1, o2, o3, o4, o5⟩ := Funs.outputs_ok hb2 k4 F.outs [] hlt
  have h02 : c2.outputLen = 0 := k1.out0 h1.outputLen
  rw [withOutputs_nil hb2.wfc h02] at o5
  refine RunsC.seq o5 ?_
  rintro _ c3 rfl
  rw [List.nil_append]
  have hks : Keeps (· ≠ s) w (w.setC s (withOutputs c2 os)) := keeps_setC _
  have hne : ∀ {g nIn nOut ids oi mid q}, c2.gateMap g = some (.module nIn nOut ids oi mid) → w.module? c2 mid = some q → q ≠ s := by
    intro g nIn nOut ids oi mid q hg hq
    obtain ⟨mr, mc, a1, a2, _⟩ := hb2.calls g nIn nOut ids oi mid hg
    rw [hq] at a1; cases a1
    exact a2.ne
  refine RunsC.pure (.mk (get_of_lt hb.lt _) k2.consts k2.noConst ?_ ?_ ?_ ?_)
  · refine Eq.trans (sumTo_congr fun g _ => ?_) k2.sum
    refine weight_congr rfl fun nIn nOut ids oi mid hg => ?_
    obtain ⟨q, hq⟩ := k2.mods g nIn nOut ids oi mid hg
    obtain ⟨mc, hmc⟩ := (k2.calls q ⟨g, nIn, nOut, ids, oi, mid, hg, hq⟩).get
    exact ⟨q, mc, hq, hmc, hq, hks.circ _ _ (hne hg hq) hmc⟩
  · intro g gate hg hni
    have hg : c2.gateMap g = some gate := hg
    have hge : c1.gateIndex ≤ g := by
      apply Nat.le_of_not_lt
      intro hlt
      obtain ⟨gate', e⟩ := h1.bld.wfc.some_of_lt hlt
      obtain ⟨i, rfl⟩ := h7 g gate' e
      have := k1.step.ext.gates _ _ e
      rw [hg] at this
      exact hni i (Option.some.inj this)
    obtain ⟨o, a1, x, a2, a3⟩ := k5 g hge (hb2.wfc.lt_of_some hg)
    obtain ⟨n, hn⟩ := List.getElem?_of_mem a1
    obtain ⟨o', y, e1, e2, e3⟩ := o3.get (i := n) (lt_of_getElem? hn)
    rw [hn] at e1; cases e1
    rw [a2] at e3; cases e3
    exact ⟨n, x, e2, reach_ext (c := c2) (c' := withOutputs c2 os) (fun _ _ h => h) a3⟩
  · exact k2.mods
  · rintro q ⟨g, nIn, nOut, ids, oi, mid, hg, hq⟩
    exact (k2.calls q ⟨g, nIn, nOut, ids, oi, mid, hg, hq⟩).keeps hks (not_called_closed hb.base) (hne hg hq)

end

/-! ### libraries and programs -/

/-- a property of circuits that depends on called circuits only -/
def Kept (P : World → Ref → Prop) : Prop := ∀ w w' r, Keeps (fun _ => True) w w' → P w r → P w' r

theorem kept_full : Kept Full := fun _ _ _ h hf => hf.keeps h (fun _ _ _ _ _ _ => trivial) trivial

theorem Holds.keeps {P : World → Ref → Prop} (hP : Kept P) {w w' : World} {st : StoreRef} {m : ModuleId} (h : Holds P w st m) (hk : Keeps (fun _ => True) w w') :
    Holds P w' st m := by
  obtain ⟨stor, mr, h1, h2, h3⟩ := h
  obtain ⟨stor', k1, k2⟩ := hk.stores _ _ h1
  exact ⟨stor', mr, k1, k2 _ _ h2, hP _ _ _ hk h3⟩

section
variable {P : Nat → World → Ref → Prop}

theorem Stock.keeps (hP : ∀ f, Kept (P f)) {w w' : World} {st : StoreRef} {mods : List ModuleId} (h : Stock P w st mods)
    (hk : Keeps (fun _ => True) w w') : Stock P w' st mods :=
  fun f m hm => (h f m hm).keeps (hP f) hk

theorem Stock.push {w : World} {st : StoreRef} {mods : List ModuleId} (h : Stock P w st mods) {m : ModuleId}
    (hm : Holds (P mods.length) w st m) : Stock P w st (mods ++ [m]) := by
  intro f m' hf
  by_cases hlt : f < mods.length
  · rw [List.getElem?_append_left hlt] at hf
    exact h f m' hf
  · have hl := lt_of_getElem? hf
    simp at hl
    have : f = mods.length := by omega
    subst this
    simp at hf
    subst hf
    exact hm

/-- building a function that satisfies `Q k` gives a circuit with property `P k`, if this holds of the modules it may use -/
def Makes (P : Nat → World → Ref → Prop) (Q : Nat → List Sig → Func → Prop) : Prop :=
  ∀ w s K st mods sigs fns F k, Bld w s K (Circuit.new st) → Funs.Lib (Funs.Here w s K) mods sigs fns → Stock P w K.st mods → F.Fine sigs →
    (∀ l ∈ F.body, l.Room sigs) → Q k sigs F → RunsC w s (F.build s mods) (Circuit.new st) fun _ c2 => P k (w.setC s c2) s

/-- function `k` satisfies `Q k`; `k` functions exist before the first -/
def LibIf (Q : Nat → List Sig → Func → Prop) : Nat → List Sig → List Func → Prop
  | _, _, [] => True
  | k, sigs, F :: lib => Q k sigs F ∧ LibIf Q (k + 1) (sigs ++ [F.sig sigs]) lib

variable {Q : Nat → List Sig → Func → Prop}

theorem def1_makes (hP : ∀ f, Kept (P f)) (hM : Makes P Q) {w : World} {r : Ref} {N : Nat} {c0 : Circuit} (hw : WFw w) (hr : w.circs[r]? = some c0)
    {mods : List ModuleId} {sigs : List Sig} {fns : List Fn} (hlib : Funs.Lib (Funs.Modu w (· < N) (· < N) c0.storage) mods sigs fns)
    (hst : Stock P w c0.storage mods) {F : Func} (hF : F.Ok sigs) (hroom : ∀ l ∈ F.body, l.Room sigs) {k : Nat} (hQ : Q k sigs F) :
    ∃ mid w', (subCircuit r >>= fun x => F.build x.2 mods >>= fun _ => (pure x.1 : M ModuleId)) w = (.ok mid, w') ∧ Holds (P k) w' c0.storage mid := by
  obtain ⟨stor, w1, hs, he, hst1, hk, hbase, hself, hb, hlib1, hother⟩ := Funs.def1_start hw hr hlib
  obtain ⟨_, c2, hx, hfull⟩ := hM _ _ _ _ _ _ _ _ _ hb hlib1 (hst.keeps hP hk) hF.toFine hroom hQ
  rw [hself] at hx
  exact ⟨stor.numModule, w1.setC w.circs.length c2, by rw [bind_ok he, bind_ok hx]; rfl, _, w.circs.length, hst1, by simp [Storage.register], hfull⟩

theorem define_makes (hP : ∀ f, Kept (P f)) (hM : Makes P Q) {r : Ref} {N : Nat} {c0 : Circuit} : ∀ (lib : List Func) {w : World} (mods : List ModuleId)
    (sigs : List Sig) (fns : List Fn), WFw w → w.circs[r]? = some c0 → N ≤ w.circs.length →
    Funs.Lib (Funs.Modu w (· < N) (· < N) c0.storage) mods sigs fns → Stock P w c0.storage mods → LibOk sigs lib → LibRoom sigs lib →
    LibIf Q mods.length sigs lib → ∃ mods' w', define r lib mods w = (.ok mods', w') ∧ Stock P w' c0.storage mods'
  | [], w, mods, sigs, fns, _, _, _, _, hst, _, _, _ => ⟨mods, w, rfl, hst⟩
  | F :: lib, w, mods, sigs, fns, hw, hr, hN, hlib, hst, hok, hroom, ht => by
    obtain ⟨mid, w1, e, ha, h1, h2⟩ := Funs.def1_ok hw hr hN hlib hok.1 hroom.1
    have hlib1 := (hlib.mono fun _ _ _ hm => hm.after ha).push (m := mid) (σ := F.sig sigs) (fn := F.run fns) h1 h2
    have hst1 : Stock P w1 c0.storage (mods ++ [mid]) := by
      refine (hst.keeps hP ha.keeps).push ?_
      obtain ⟨mid', w1', e', h3⟩ := def1_makes hP hM hw hr hlib hst hok.1 hroom.1 ht.1
      rw [e] at e'
      cases e'
      exact h3
    obtain ⟨mods', w', e2, h4⟩ := define_makes hP hM lib (mods ++ [mid]) (sigs ++ [F.sig sigs]) (fns ++ [F.run fns]) ha.wf
      (ha.keeps.circ _ _ trivial hr) (Nat.le_trans hN ha.length) hlib1 hst1 hok.2 hroom.2 (by simpa using ht.2)
    exact ⟨mods', w', by rw [Funs.define_cons, bind_ok e]; exact e2, h4⟩

theorem program_makes (hP : ∀ f, Kept (P f)) (hM : Makes P Q) {w : World} (hw : Reachable w) {st : StoreRef} (hst : st < w.stores.length) {lib : List Func}
    {main : Func} (hlib : LibOk [] lib) (hmain : main.Fine (signatures lib [])) (hroom : Roomy lib main) (ht : LibIf Q 0 [] lib)
    {k : Nat} (htm : Q k (signatures lib []) main) :
    ∃ r w', Functions.compile st lib main w = (.ok r, w') ∧ P k w' r := by
  have hnil : ∀ {P}, Funs.Lib P [] [] [] := ⟨rfl, rfl, fun i σ m fn h => by simp at h⟩
  have hmk : Configures (fun r => define r lib []) fun w N st _ mods =>
      Funs.Lib (Funs.Modu w (· < N) (· < N) st) mods (signatures lib []) (meaning lib []) ∧ Stock P w st mods := by
    intro w r c0 N hwf hr hN
    obtain ⟨mods, w', e, h1, h2⟩ := Funs.define_ok lib [] [] [] hwf hr hN hnil hlib hroom.1
    obtain ⟨mods', w'', e', h3⟩ := define_makes hP hM (N := N) lib [] [] [] hwf hr hN hnil (by intro f m hm; simp at hm) hlib hroom.1 ht
    rw [e] at e'; cases e'
    exact ⟨mods, w', e, h1, h2, h3⟩
  obtain ⟨mods, w1, s, K, e, hs, hK, hc1, hb, hok, hcall, hval⟩ := start_any (mk := fun r => define r lib [])
    (Ok := fun w N st _ mods => Funs.Lib (Funs.Modu w (· < N) (· < N) st) mods (signatures lib []) (meaning lib []) ∧ Stock P w st mods) hmk hw hst
  rw [← hK] at hok
  obtain ⟨_, c2, hx, hfull⟩ := hM _ _ _ _ _ _ _ _ _ hb (hok.1.mono fun _ _ _ hm => hm.main hcall) hok.2 hmain hroom.2 htm
  rw [setC_self hc1] at hx
  refine ⟨s, w1.setC s c2, ?_, hfull⟩
  have e1 := newCircuit_ok hst
  unfold Functions.compile
  rw [bind_ok e1] at e ⊢
  rw [bind_ok e, ← hs, bind_ok hx]; rfl

end

theorem makes_full {ok : Nat → Prop} : Makes (FullIf ok) fun k sigs F => ok k → CallsOnly ok F.body ∧ Thrifty sigs F.arity F.body F.outs := by
  intro w s K st mods sigs fns F k hb hlib hst hF hroom hQ
  by_cases ho : ok k
  · exact (func_full hb hlib hst hF hroom (hQ ho).1 (hQ ho).2).mono fun _ _ h _ => h
  · exact (Funs.func_ok (ins := List.replicate F.arity false) hb ⟨rfl, rfl, rfl⟩ hlib hF hroom (by simp)).mono fun _ _ _ h => absurd h ho

/-! ### repaired programs -/

theorem thrifty_copies {sigs : List Sig} {outs : List Nat} : ∀ (os : List Nat) (m : Nat), (∀ i, m ≤ i → i < m + os.length → i ∈ outs) →
    Thrifty sigs m (os.map .copy) outs
  | [], _, _ => trivial
  | o :: os, m, h => by
    refine ⟨rfl, ⟨m, Nat.le_refl _, by simp [Line.width], .inl (h m (Nat.le_refl _) (by simp))⟩, ?_⟩
    exact thrifty_copies os (m + 1) fun i h1 h2 => h i (by omega) (by simp; omega)

theorem thrifty_append {sigs sigs' : List Sig} (hs : Guard.Shape sigs sigs') {os outs : List Nat} : ∀ {p : List Line} {m : Nat}, Thrifty sigs m p os →
    Thrifty sigs' (m + values sigs p) (os.map .copy) outs → Thrifty sigs' m (p ++ os.map .copy) outs
  | [], m, _, h => h
  | l :: p, m, ⟨h1, ⟨i, i1, i2, i3⟩, h3⟩, h => by
    rw [Guard.width_shape hs] at i2 h3
    refine ⟨h1, ⟨i, i1, i2, .inr ?_⟩, thrifty_append hs h3 ?_⟩
    · rcases i3 with h | ⟨l', h, h'⟩
      · exact ⟨.copy i, by simp [h], by simp [Line.operands]⟩
      · exact ⟨l', by simp [h], h'⟩
    · simp only [values, Guard.width_shape hs l] at h
      rwa [Nat.add_assoc]

theorem guarded_thrifty {sigs sigs' : List Sig} (hs : Guard.Shape sigs sigs') {F : Func} (h : Thrifty sigs F.arity F.body F.outs) :
    Thrifty sigs' (F.guarded sigs).arity (F.guarded sigs).body (F.guarded sigs).outs :=
  thrifty_append hs h (thrifty_copies _ _ fun i h1 h2 => by simp only [Func.guarded]; rw [List.mem_range'_1]; exact ⟨h1, h2⟩)

theorem only_guarded {ok : Nat → Prop} {sigs : List Sig} {F : Func} (h : CallsOnly ok F.body) : CallsOnly ok (F.guarded sigs).body := by
  intro f args hm
  rcases List.mem_append.mp hm with hm | hm
  · exact h f args hm
  · simp at hm

theorem signatures_append : ∀ (l l' : List Func) (sigs : List Sig), signatures (l ++ l') sigs = signatures l' (signatures l sigs)
  | [], _, _ => rfl
  | F :: l, l', sigs => by simp only [List.cons_append, signatures]; exact signatures_append l l' _

/-- what holds of every function of the library holds of every repaired function -/
theorem guard_if {Q : Nat → List Sig → Func → Prop} {lib : List Func} : ∀ (l2 l1 : List Func) (sigs' : List Sig), lib = l1 ++ l2 →
    Guard.Shape (signatures l1 []) sigs' →
    (∀ k F sigs', lib[k]? = some F → Guard.Shape (signatures (lib.take k) []) sigs' → Q k sigs' (F.guarded (signatures (lib.take k) []))) →
    LibIf Q l1.length sigs' (guard (signatures l1 []) l2)
  | [], _, _, _, _, _ => trivial
  | F :: l2, l1, sigs', e, hs, h => by
    have ht : lib.take l1.length = l1 := by rw [e]; simp
    refine ⟨?_, ?_⟩
    · have := h l1.length F sigs' (by rw [e]; simp) (by rw [ht]; exact hs)
      rwa [ht] at this
    · have := guard_if l2 (l1 ++ [F]) (sigs' ++ [(F.guarded (signatures l1 [])).sig sigs']) (by rw [e]; simp)
        (by rw [signatures_append]; exact hs.push rfl (by simp [Func.sig, Func.guarded])) h
      rw [signatures_append] at this
      simpa [signatures] using this

end CC.Thrift

namespace CC.Thrift
open Spec Spec.Functions

/-! ### constants are counted -/

section
variable {w : World} {s : Ref} {K : Ctx} {c : Circuit} {ins : List Bool}

theorem line_consts (hb : Bld w s K c) {mods : List ModuleId} {sigs : List Sig} {fns : List Fn}
    (hlib : Funs.Lib (Funs.Here w s K) mods sigs fns) {env : List GateId} {l : Line} (hok : l.Ok sigs) (hroom : l.Room sigs)
    (hops : ∀ i ∈ l.operands, i < env.length) :
    RunsC w s (l.build s mods env) c fun _ c' => c.numConst ≤ c'.numConst ∧ (l.source = true → c.numConst < c'.numConst) := by
  have hg := hb.get
  have idx : ∀ {i : Nat}, i ∈ l.operands → ∃ x, env[i]? = some x := fun hi => ⟨_, List.getElem?_eq_getElem (hops _ hi)⟩
  cases l with
  | const b =>
    exact ⟨_, _, by simp only [Line.build]; rw [bind_ok (constant_eq hg b), setC_setC]; rfl, Nat.le_succ _, fun _ => Nat.lt_succ_self _⟩
  | not i =>
    obtain ⟨x, e⟩ := idx (i := i) (by simp [Line.operands])
    exact RunsC.bind (RunsC.idx e ⟨_, _, by rw [bind_ok (not_eq hg x), setC_setC]; rfl, by simp [Circuit.not, Circuit.addGate], by simp [Line.source]⟩)
  | and i j =>
    obtain ⟨x, e⟩ := idx (i := i) (by simp [Line.operands])
    obtain ⟨y, e'⟩ := idx (i := j) (by simp [Line.operands])
    exact RunsC.bind (RunsC.idx e (RunsC.bind (RunsC.idx e' ⟨_, _, by rw [bind_ok (and_eq hg x y), setC_setC]; rfl, by simp [Circuit.and, Circuit.addGate], by simp [Line.source]⟩)))
  | or i j =>
    obtain ⟨x, e⟩ := idx (i := i) (by simp [Line.operands])
    obtain ⟨y, e'⟩ := idx (i := j) (by simp [Line.operands])
    exact RunsC.bind (RunsC.idx e (RunsC.bind (RunsC.idx e' ⟨_, _, by rw [bind_ok (or_eq hg x y), setC_setC]; rfl, by simp [Circuit.or, Circuit.addGate], by simp [Line.source]⟩)))
  | xor i j =>
    obtain ⟨x, e⟩ := idx (i := i) (by simp [Line.operands])
    obtain ⟨y, e'⟩ := idx (i := j) (by simp [Line.operands])
    exact RunsC.bind (RunsC.idx e (RunsC.bind (RunsC.idx e' ⟨_, _, by rw [bind_ok (xor_eq hg x y), setC_setC]; rfl, by simp [Circuit.xor, Circuit.addGate], by simp [Line.source]⟩)))
  | same i j =>
    obtain ⟨x, e⟩ := idx (i := i) (by simp [Line.operands])
    obtain ⟨y, e'⟩ := idx (i := j) (by simp [Line.operands])
    exact RunsC.bind (RunsC.idx e (RunsC.bind (RunsC.idx e' ⟨_, _, by rw [bind_ok (equivalent_eq hg x y), setC_setC]; rfl,
      by simp [Circuit.xor, Circuit.not, Circuit.addGate], by simp [Line.source]⟩)))
  | copy i =>
    obtain ⟨x, e⟩ := idx (i := i) (by simp [Line.operands])
    exact RunsC.bind (RunsC.idx e ⟨_, _, by rw [bind_ok (identity_eq hg x), setC_setC]; rfl, by simp [Circuit.not, Circuit.addGate], by simp [Line.source]⟩)
  | call f args =>
    obtain ⟨σ, mc, mid, xs, k1, m5, m6, m7, he⟩ := Funs.call_eq hb hlib hok hops
    have := hroom σ k1
    obtain ⟨outs, h1, h2⟩ := Circuit.module_ok hb.wfc mid xs (m := mc) (by omega)
    exact ⟨outs, _, by rw [he, h1], by have := h2.numConst; omega, by simp [Line.source]⟩

theorem build_consts {mods : List ModuleId} {sigs : List Sig} {fns : List Fn} (hlib : Funs.Lib (Funs.Here w s K) mods sigs fns) :
    ∀ (p : List Line) {c : Circuit} (env : List GateId) (vals : List Bool), Bld w s K c → c.outputLen = 0 → All2 (V w s ins c) env vals →
      Functions.Scoped sigs env.length p → (∀ l ∈ p, l.Room sigs) →
      RunsC w s (Functions.build s mods p env) c fun env' c' => Grew w s K c c' ∧ (∃ vals', All2 (V w s ins c') env' vals') ∧
        env'.length = env.length + values sigs p ∧ c.numConst ≤ c'.numConst ∧ ∀ l ∈ p, l.source = true → c.numConst < c'.numConst
  | [], c, env, vals, hb, _, henv, _, _ => RunsC.pure ⟨hb.grew, ⟨vals, henv⟩, rfl, Nat.le_refl _, by simp⟩
  | l :: p, c, env, vals, hb, h0, henv, hsc, hroom => by
    obtain ⟨s1, s2, s3⟩ := hsc
    have hr1 := hroom l (by simp)
    refine RunsC.seq (RunsC.both hb.lt (Funs.line_ok (ins := ins) hb h0 hlib henv s1 hr1 s2) (line_consts hb hlib s1 hr1 s2)) ?_
    rintro gs c1 ⟨h1, hle, hsrc⟩
    obtain ⟨bs, v1, v2, v3⟩ := h1.val
    have hlen : gs.length = l.width sigs := by rw [v2.length, v3]
    refine (build_consts hlib p (env ++ gs) (vals ++ bs) h1.grew.step.bld (h1.grew.out0 h0)
      ((h1.grew.step.vs hb henv).append v2) (by simpa [hlen] using s3) fun l' hl' => hroom l' (by simp [hl'])).mono ?_
    rintro env' c' ⟨k1, k2, k3, k4, k5⟩
    refine ⟨h1.grew.trans k1, k2, ?_, Nat.le_trans hle k4, ?_⟩
    · rw [k3]; simp [values, hlen]; omega
    intro l' hl' hs'
    rcases List.mem_cons.mp hl' with rfl | hl'
    · exact Nat.lt_of_lt_of_le (hsrc hs') k4
    · exact Nat.lt_of_le_of_lt hle (k5 l' hl' hs')

theorem func_consts (hb : Bld w s K c) (he : Empty c) {mods : List ModuleId} {sigs : List Sig} {fns : List Fn}
    (hlib : Funs.Lib (Funs.Here w s K) mods sigs fns) {F : Func} (hF : F.Fine sigs) (hroom : ∀ l ∈ F.body, l.Room sigs)
    {l : Line} (hl : l ∈ F.body) (hsrc : l.source = true) : RunsC w s (F.build s mods) c fun _ c2 => 1 ≤ c2.numConst := by
  have h0 := he.outputLen
  have hi0 := he.inputLen
  unfold Func.build
  let ins := List.replicate F.arity false
  refine RunsC.seq (RunsC.inputs (ins := ins) hb h0 F.arity (by simp [ins]; omega)) ?_
  rintro args c1 ⟨h1, h2, h3, h4, h5⟩
  refine RunsC.seq (build_consts (ins := ins) hlib F.body args _ h1.bld (h1.outputLen.trans h0) h5 (by rw [h4]; exact hF.lines) hroom) ?_
  rintro env c2 ⟨k1, ⟨vals, k2⟩, k3, k4, k5⟩
  obtain ⟨os, bs, o1, o2, o3, o4, o5⟩ := Funs.outputs_ok k1.step.bld k2 F.outs [] fun i hi => by rw [k3, h4]; exact hF.outs i hi
  rw [withOutputs_nil k1.step.bld.wfc (k1.out0 (h1.outputLen.trans h0))] at o5
  refine RunsC.seq o5 ?_
  rintro _ c3 rfl
  exact RunsC.pure (Nat.lt_of_le_of_lt (Nat.zero_le _) (k5 l hl hsrc))

end

end CC.Thrift
