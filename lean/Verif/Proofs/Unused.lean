import Verif.Proofs.Thrift

/-!
# Lines whose result nobody uses
-/

namespace CC.Unused
open Spec Spec.Functions

/-- new gates use operands of the line or new gates -/
structure News (c : Circuit) (ops gs : List GateId) (c' : Circuit) : Prop where
  old : ∀ g, g < c.gateIndex → c'.gateMap g = c.gateMap g
  le : c.gateIndex ≤ c'.gateIndex
  operands : ∀ g gate, c.gateIndex ≤ g → c'.gateMap g = some gate → ∀ x ∈ gate.operands, x ∈ ops ∨ c.gateIndex ≤ x
  siblings : ∀ g nIn nOut ids oi mid, c.gateIndex ≤ g → c'.gateMap g = some (.module nIn nOut ids oi mid) → c.gateIndex ≤ g - oi
  res : ∀ q ∈ gs, c.gateIndex ≤ q

theorem News.one {c c' : Circuit} {gate : Gate} (ha : AddsGate c c' gate) {ops : List GateId} (ho : ∀ x ∈ gate.operands, x ∈ ops) :
    News c ops [c.gateIndex] c' := by
  have hget : ∀ {g x}, c.gateIndex ≤ g → c'.gateMap g = some x → x = gate := by
    intro g x hle h
    rw [ha.appends.gate, if_neg (by omega)] at h
    have := List.mem_of_getElem? h
    simpa using this
  refine ⟨fun g hg => ha.appends.old hg, by have := ha.appends.idx; omega, ?_, ?_, by simp⟩
  · intro g x h1 h2 y hy
    rw [hget h1 h2] at hy
    exact .inl (ho y hy)
  · intro g nIn nOut ids oi mid h1 h2
    exact absurd (hget h1 h2).symm (ha.plain _ _ _ _ _)

theorem News.two {c c1 c' : Circuit} {gate gate' : Gate} (ha : AddsGate c c1 gate) (ha' : AddsGate c1 c' gate')
    {ops : List GateId} (ho : ∀ x ∈ gate.operands, x ∈ ops) (ho' : ∀ x ∈ gate'.operands, x = c.gateIndex) : News c ops [c.gateIndex + 1] c' := by
  have n1 := News.one ha ho
  have n2 := News.one ha' (ops := gate'.operands) fun _ h => h
  have hi := ha.appends.idx
  simp at hi
  have hget : ∀ {g x}, c1.gateIndex ≤ g → c'.gateMap g = some x → x = gate' := by
    intro g x hle h
    rw [ha'.appends.gate, if_neg (by omega)] at h
    have := List.mem_of_getElem? h
    simpa using this
  refine ⟨fun g hg => (n2.old g (by omega)).trans (n1.old g hg), Nat.le_trans n1.le n2.le, ?_, ?_, by simp⟩
  · intro g x h1 h2 y hy
    by_cases h : g < c1.gateIndex
    · rw [n2.old g h] at h2
      exact n1.operands g x h1 h2 y hy
    · rw [hget (by omega) h2] at hy
      exact .inr (by rw [ho' y hy])
  · intro g nIn nOut ids oi mid h1 h2
    by_cases h : g < c1.gateIndex
    · rw [n2.old g h] at h2
      exact n1.siblings g _ _ _ _ _ h1 h2
    · exact absurd (hget (by omega) h2).symm (ha'.plain _ _ _ _ _)

theorem News.call {c c' m : Circuit} {mid : ModuleId} {ids outs : List GateId} (he : ModuleEffect c m c' mid ids outs) : News c ids outs c' := by
  have hget : ∀ {g x}, c.gateIndex ≤ g → c'.gateMap g = some x → x = .module m.inputLen m.outputLen ids (g - c.gateIndex) mid := by
    intro g x hle h
    rw [he.appends.gate, if_neg (by omega), moduleGates_get] at h
    split at h
    · exact (Option.some.inj h).symm
    · cases h
  refine ⟨fun g hg => he.appends.old hg, by have := he.appends.idx; omega, ?_, ?_, ?_⟩
  · intro g x h1 h2 y hy
    rw [hget h1 h2] at hy
    exact .inl hy
  · intro g nIn nOut ids' oi mid' h1 h2
    cases hget h1 h2
    omega
  · intro q hq
    rw [he.outs_eq, List.mem_range'_1] at hq
    exact hq.1

/-- gate `g` is the first gate of line `l`, which is not a constant -/
structure Head (mods : List ModuleId) (l : Line) (c : Circuit) (g : GateId) : Prop where
  logic : l.logic = true → IsLogic c g
  call : ∀ f args, l = .call f args → ∃ m nIn nOut ids, mods[f]? = some m ∧ c.gateMap g = some (.module nIn nOut ids 0 m)

theorem Head.of_logic {mods : List ModuleId} {l : Line} {c : Circuit} {g : GateId} (hl : ∀ f args, l ≠ .call f args) (h : IsLogic c g) : Head mods l c g :=
  ⟨fun _ => h, fun f args e => absurd e (hl f args)⟩

theorem logic_ext {c c' : Circuit} (hx : ∀ g gate, c.gateMap g = some gate → c'.gateMap g = some gate) {g : GateId} (h : IsLogic c g) : IsLogic c' g := by
  obtain ⟨a, b, h⟩ := h
  exact ⟨a, b, h.imp (hx _ _) (.imp (hx _ _) (.imp (hx _ _) (hx _ _)))⟩

theorem Head.ext {mods : List ModuleId} {l : Line} {c c' : Circuit} (hx : ∀ g gate, c.gateMap g = some gate → c'.gateMap g = some gate) {g : GateId}
    (h : Head mods l c g) : Head mods l c' g := by
  refine ⟨fun hl => logic_ext hx (h.logic hl), fun f args e => ?_⟩
  obtain ⟨m, nIn, nOut, ids, h1, h2⟩ := h.call f args e
  exact ⟨m, nIn, nOut, ids, h1, hx _ _ h2⟩

theorem Head.lt {mods : List ModuleId} {l : Line} {c : Circuit} (hwf : WFc c) {g : GateId} (hs : l.source = false) (h : Head mods l c g) : g < c.gateIndex := by
  cases l with
  | const b => cases hs
  | call f args => obtain ⟨_, _, _, _, _, h⟩ := h.call f args rfl; exact hwf.lt_of_some h
  | _ => exact CC.IsLogic.lt hwf (h.logic rfl)

section
variable {w : World} {s : Ref} {K : Ctx} {c : Circuit} {ins : List Bool}

theorem line_news (hb : Bld w s K c) {mods : List ModuleId} {sigs : List Sig} {fns : List Fn}
    (hlib : Funs.Lib (Funs.Here w s K) mods sigs fns) {env : List GateId} {l : Line} (hok : l.Ok sigs) (hroom : l.Room sigs)
    (hops : ∀ i ∈ l.operands, i < env.length) :
    RunsC w s (l.build s mods env) c fun gs c' => (∃ xs, All2 (fun i x => env[i]? = some x) l.operands xs ∧ News c xs gs c') ∧
      (l.source = false → 0 < l.width sigs → Head mods l c' c.gateIndex) := by
  have hg := hb.get
  have hwf := hb.wfc
  have idx : ∀ {i : Nat}, i ∈ l.operands → ∃ x, env[i]? = some x := fun hi => ⟨_, List.getElem?_eq_getElem (hops _ hi)⟩
  have new : ∀ {c c' : Circuit} {gate : Gate}, AddsGate c c' gate → c'.gateMap c.gateIndex = some gate := by
    intro c c' gate ha
    have := ha.appends.new 0
    simpa using this
  have new2 : ∀ {c c1 c' : Circuit} {gate gate' : Gate}, AddsGate c c1 gate → AddsGate c1 c' gate' → c'.gateMap c.gateIndex = some gate := by
    intro c c1 c' gate gate' ha ha'
    have hi := ha.appends.idx
    simp at hi
    rw [ha'.appends.old (by omega)]
    exact new ha
  cases l with
  | const b =>
    exact ⟨_, _, by simp only [Line.build]; rw [bind_ok (constant_eq hg b), setC_setC]; rfl,
      ⟨[], trivial, News.one (adds_constant hwf b) (by simp [Gate.operands])⟩, by simp [Line.source]⟩
  | not i =>
    obtain ⟨x, e⟩ := idx (i := i) (by simp [Line.operands])
    exact RunsC.bind (RunsC.idx e ⟨_, _, by rw [bind_ok (not_eq hg x), setC_setC]; rfl, ⟨[x], ⟨e, trivial⟩,
      News.one (adds_not hwf x) (by simp [Gate.operands])⟩, fun _ _ => .of_logic (by simp) ⟨x, x, .inl (new (adds_not hwf x))⟩⟩)
  | and i j =>
    obtain ⟨x, e⟩ := idx (i := i) (by simp [Line.operands])
    obtain ⟨y, e'⟩ := idx (i := j) (by simp [Line.operands])
    exact RunsC.bind (RunsC.idx e (RunsC.bind (RunsC.idx e' ⟨_, _, by rw [bind_ok (and_eq hg x y), setC_setC]; rfl, ⟨[x, y], ⟨e, e', trivial⟩,
      News.one (adds_and hwf x y) (by simp [Gate.operands])⟩, fun _ _ => .of_logic (by simp) ⟨x, y, .inr (.inr (.inl (new (adds_and hwf x y))))⟩⟩)))
  | or i j =>
    obtain ⟨x, e⟩ := idx (i := i) (by simp [Line.operands])
    obtain ⟨y, e'⟩ := idx (i := j) (by simp [Line.operands])
    exact RunsC.bind (RunsC.idx e (RunsC.bind (RunsC.idx e' ⟨_, _, by rw [bind_ok (or_eq hg x y), setC_setC]; rfl, ⟨[x, y], ⟨e, e', trivial⟩,
      News.one (adds_or hwf x y) (by simp [Gate.operands])⟩, fun _ _ => .of_logic (by simp) ⟨x, y, .inr (.inr (.inr (new (adds_or hwf x y))))⟩⟩)))
  | xor i j =>
    obtain ⟨x, e⟩ := idx (i := i) (by simp [Line.operands])
    obtain ⟨y, e'⟩ := idx (i := j) (by simp [Line.operands])
    exact RunsC.bind (RunsC.idx e (RunsC.bind (RunsC.idx e' ⟨_, _, by rw [bind_ok (xor_eq hg x y), setC_setC]; rfl, ⟨[x, y], ⟨e, e', trivial⟩,
      News.one (adds_xor hwf x y) (by simp [Gate.operands])⟩, fun _ _ => .of_logic (by simp) ⟨x, y, .inr (.inl (new (adds_xor hwf x y)))⟩⟩)))
  | same i j =>
    obtain ⟨x, e⟩ := idx (i := i) (by simp [Line.operands])
    obtain ⟨y, e'⟩ := idx (i := j) (by simp [Line.operands])
    have h1 := adds_xor hwf x y
    have h2 := adds_not (hwf.xor x y) c.gateIndex
    exact RunsC.bind (RunsC.idx e (RunsC.bind (RunsC.idx e' ⟨_, _, by rw [bind_ok (equivalent_eq hg x y), setC_setC]; rfl, ⟨[x, y], ⟨e, e', trivial⟩,
      News.two h1 h2 (by simp [Gate.operands]) (by simp [Gate.operands])⟩, fun _ _ => .of_logic (by simp) ⟨x, y, .inr (.inl (new2 h1 h2))⟩⟩)))
  | copy i =>
    obtain ⟨x, e⟩ := idx (i := i) (by simp [Line.operands])
    have h1 := adds_not hwf x
    have h2 := adds_not (hwf.not x) c.gateIndex
    exact RunsC.bind (RunsC.idx e ⟨_, _, by rw [bind_ok (identity_eq hg x), setC_setC]; rfl, ⟨[x], ⟨e, trivial⟩,
      News.two h1 h2 (by simp [Gate.operands]) (by simp [Gate.operands])⟩, fun _ _ => .of_logic (by simp) ⟨x, x, .inl (new2 h1 h2)⟩⟩)
  | call f args =>
    obtain ⟨σ, k1, k2⟩ := hok
    have k3 := hroom σ k1
    obtain ⟨l1, l2, l3⟩ := hlib
    have hf := lt_of_getElem? k1
    obtain ⟨m, hm⟩ : ∃ m, mods[f]? = some m := ⟨_, List.getElem?_eq_getElem (by omega)⟩
    obtain ⟨fn, hfn⟩ : ∃ fn, fns[f]? = some fn := ⟨_, List.getElem?_eq_getElem (by omega)⟩
    obtain ⟨mr, mc, stor, m1, m2, m3, m4, m5, m6, m7⟩ := (l3 f σ m fn k1 hm hfn).2.size
    obtain ⟨xs, hxs, hall⟩ := Thrift.args_gates (args := args) hops
    have hmod : w.module? c m = some mr := by rw [hb.module?_eq, m1]; exact m2
    have hmc' : (w.setC s c).circs[mr]? = some mc := by rw [setC_get_ne _ m3]; exact m4
    have h1 : M.idx mods f (w.setC s c) = (.ok m, w.setC s c) := by unfold M.idx; rw [hm]; rfl
    obtain ⟨outs, e1, e2⟩ := Circuit.module_ok hwf m xs (m := mc) (by omega)
    refine ⟨outs, (c.module mc m xs).2, ?_, ⟨xs, hall, News.call e2⟩, fun _ h0 => ⟨by simp [Line.logic], fun f' args' e => ?_⟩⟩
    rotate_left
    · cases e
      have hg0 := e2.appends.new 0
      simp only [Line.width, k1] at h0
      rw [moduleGates_get, if_pos (by omega)] at hg0
      exact ⟨m, _, _, _, hm, hg0⟩
    simp only [Line.build]
    rw [bind_ok h1, bind_ok (hxs _), module_eq hb.get hmod m3 hmc', setC_setC, e1]

/-- nothing else uses the gates from `lo` to `hi` -/
def Apart (c : Circuit) (lo hi : Nat) : Prop :=
  ∀ g gate, c.gateMap g = some gate → ¬ (lo ≤ g ∧ g < hi) → (∀ x ∈ gate.operands, ¬ (lo ≤ x ∧ x < hi)) ∧
    ∀ nIn nOut ids oi mid, gate = .module nIn nOut ids oi mid → ∀ k < nOut, ¬ (lo ≤ g - oi + k ∧ g - oi + k < hi)

theorem Apart.reach {c : Circuit} {lo hi : Nat} (h : Apart c lo hi) {a b : GateId} (hr : Reach c a b) (ha : ¬ (lo ≤ a ∧ a < hi)) :
    ¬ (lo ≤ b ∧ b < hi) := by
  induction hr with
  | refl => exact ha
  | operand _ h1 h2 ih => exact (h _ _ h1 ih).1 _ h2
  | sibling _ h1 h2 ih => exact (h _ _ h1 ih).2 _ _ _ _ _ rfl _ h2

theorem Apart.news {c c' : Circuit} {lo hi : Nat} (h : Apart c lo hi) (hh : hi ≤ c.gateIndex) {ops gs : List GateId} (hn : News c ops gs c')
    (ho : ∀ x ∈ ops, ¬ (lo ≤ x ∧ x < hi)) : Apart c' lo hi := by
  intro g gate hg hni
  by_cases hlt : g < c.gateIndex
  · rw [hn.old g hlt] at hg
    exact h g gate hg hni
  · refine ⟨fun x hx => ?_, ?_⟩
    · rcases hn.operands g gate (by omega) hg x hx with k | k
      · exact ho x k
      · omega
    · rintro nIn nOut ids oi mid rfl k _
      have := hn.siblings g _ _ _ _ _ (by omega) hg
      omega

theorem Apart.start {c' : Circuit} (hb : Bld w s K c) (hwf : WFc c') {ops gs : List GateId} (hn : News c ops gs c') : Apart c' c.gateIndex c'.gateIndex := by
  intro g gate hg hni
  have := hwf.lt_of_some hg
  have hlt : g < c.gateIndex := by omega
  rw [hn.old g hlt] at hg
  refine ⟨fun x hx => ?_, ?_⟩
  · have h1 := hb.topo g gate hg x hx
    have h2 : lead g gate ≤ g := by cases gate <;> simp [lead]
    omega
  · rintro nIn nOut ids oi mid rfl k hk
    have := hb.wfc.lt_of_some ((hb.wfc.group _ _ _ _ _ _ hg).2.2 k hk)
    omega

theorem operand_mem {env : List GateId} {is : List Nat} {xs : List GateId} (h : All2 (fun i x => env[i]? = some x) is xs) {x : GateId} (hx : x ∈ xs) :
    ∃ i ∈ is, env[i]? = some x := by
  obtain ⟨n, hn⟩ := List.getElem?_of_mem hx
  obtain ⟨i, y, e1, e2, e3⟩ := h.get (i := n) (by rw [h.length]; exact lt_of_getElem? hn)
  rw [hn] at e2
  cases e2
  exact ⟨i, List.mem_of_getElem? e1, e3⟩

/-- lines that do not use value `d` do not use its gates -/
theorem build_apart {mods : List ModuleId} {sigs : List Sig} {fns : List Fn} (hlib : Funs.Lib (Funs.Here w s K) mods sigs fns) {lo hi d n : Nat} :
    ∀ (p : List Line) {c : Circuit} (env : List GateId) (vals : List Bool), Bld w s K c → c.outputLen = 0 → All2 (V w s ins c) env vals →
      Functions.Scoped sigs env.length p → (∀ l ∈ p, l.Room sigs) → Apart c lo hi → hi ≤ c.gateIndex → d + n ≤ env.length →
      (∀ j x, env[j]? = some x → ¬ (d ≤ j ∧ j < d + n) → ¬ (lo ≤ x ∧ x < hi)) → (∀ l ∈ p, ∀ j ∈ l.operands, ¬ (d ≤ j ∧ j < d + n)) →
      RunsC w s (Functions.build s mods p env) c fun env' c' => Grew w s K c c' ∧ (∃ vals', All2 (V w s ins c') env' vals') ∧
        env'.length = env.length + values sigs p ∧ Apart c' lo hi ∧ ∀ j x, env'[j]? = some x → ¬ (d ≤ j ∧ j < d + n) → ¬ (lo ≤ x ∧ x < hi)
  | [], c, env, vals, hb, _, henv, _, _, ha, _, _, he, _ => RunsC.pure ⟨hb.grew, ⟨vals, henv⟩, rfl, ha, he⟩
  | l :: p, c, env, vals, hb, h0, henv, hsc, hroom, ha, hh, hd, he, hp => by
    obtain ⟨s1, s2, s3⟩ := hsc
    have hr1 := hroom l (by simp)
    refine RunsC.seq (RunsC.both hb.lt (Funs.line_ok (ins := ins) hb h0 hlib henv s1 hr1 s2) (line_news hb hlib s1 hr1 s2)) ?_
    rintro gs c1 ⟨h1, ⟨xs, hxs, hn⟩, -⟩
    obtain ⟨bs, v1, v2, v3⟩ := h1.val
    have hlen : gs.length = l.width sigs := by rw [v2.length, v3]
    refine (build_apart hlib p (env ++ gs) (vals ++ bs) h1.grew.step.bld (h1.grew.out0 h0)
      ((h1.grew.step.vs hb henv).append v2) (by simpa [hlen] using s3) (fun l' hl' => hroom l' (by simp [hl'])) (ha.news hh hn ?_)
      (Nat.le_trans hh hn.le) (by simp; omega) ?_ fun l' hl' => hp l' (by simp [hl'])).mono ?_
    · intro x hx
      obtain ⟨i, i1, i2⟩ := operand_mem hxs hx
      exact he i x i2 (hp l (by simp) i i1)
    · intro j x hj hjd
      by_cases hlt : j < env.length
      · rw [List.getElem?_append_left hlt] at hj
        exact he j x hj hjd
      · rw [List.getElem?_append_right (by omega)] at hj
        have := hn.res x (List.mem_of_getElem? hj)
        omega
    · rintro env' c' ⟨k1, k2, k3, k4, k5⟩
      exact ⟨h1.grew.trans k1, k2, by rw [k3]; simp [values, hlen]; omega, k4, k5⟩

/-- a line whose results are not used later -/
theorem build_dead {mods : List ModuleId} {sigs : List Sig} {fns : List Fn} (hlib : Funs.Lib (Funs.Here w s K) mods sigs fns)
    {l : Line} (hs : l.source = false) (hl : 0 < l.width sigs) {q : List Line} :
    ∀ (p : List Line) {c : Circuit} (env : List GateId) (vals : List Bool), Bld w s K c → c.outputLen = 0 → All2 (V w s ins c) env vals →
      Functions.Scoped sigs env.length (p ++ l :: q) → (∀ l' ∈ p ++ l :: q, l'.Room sigs) →
      (∀ l' ∈ q, ∀ j ∈ l'.operands, ¬ (env.length + values sigs p ≤ j ∧ j < env.length + values sigs p + l.width sigs)) →
      RunsC w s (Functions.build s mods (p ++ l :: q) env) c fun env' c' => Grew w s K c c' ∧ (∃ vals', All2 (V w s ins c') env' vals') ∧
        env'.length = env.length + values sigs (p ++ l :: q) ∧ ∃ lo hi, lo < hi ∧ Head mods l c' lo ∧ Apart c' lo hi ∧
          ∀ j x, env'[j]? = some x → ¬ (env.length + values sigs p ≤ j ∧ j < env.length + values sigs p + l.width sigs) → ¬ (lo ≤ x ∧ x < hi)
  | [], c, env, vals, hb, h0, henv, hsc, hroom, hq => by
    obtain ⟨s1, s2, s3⟩ := hsc
    have hr1 := hroom l (by simp)
    refine RunsC.seq (RunsC.both hb.lt (Funs.line_ok (ins := ins) hb h0 hlib henv s1 hr1 s2) (line_news hb hlib s1 hr1 s2)) ?_
    rintro gs c1 ⟨h1, ⟨xs, hxs, hn⟩, hlog⟩
    have hlog := hlog hs hl
    obtain ⟨bs, v1, v2, v3⟩ := h1.val
    have hlen : gs.length = l.width sigs := by rw [v2.length, v3]
    have hb1 := h1.grew.step.bld
    refine (build_apart hlib (lo := c.gateIndex) (hi := c1.gateIndex) (d := env.length) (n := l.width sigs) q (env ++ gs) (vals ++ bs) hb1 (h1.grew.out0 h0)
      ((h1.grew.step.vs hb henv).append v2) (by simpa [hlen] using s3) (fun l' hl' => hroom l' (by simp [hl'])) (.start hb hb1.wfc hn)
      (Nat.le_refl _) (by simp; omega) ?_ (by simpa [values] using hq)).mono ?_
    · intro j x hj hjd
      have hjl := lt_of_getElem? hj
      simp at hjl
      have hlt : j < env.length := by omega
      rw [List.getElem?_append_left hlt] at hj
      obtain ⟨x', b, e1, _, e3⟩ := henv.get (i := j) hlt
      rw [hj] at e1
      cases e1
      have := e3.lt hb
      omega
    · rintro env' c' ⟨k1, k2, k3, k4, k5⟩
      refine ⟨h1.grew.trans k1, k2, by rw [k3]; simp [values, hlen]; omega, c.gateIndex, c1.gateIndex, hlog.lt hb1.wfc hs, hlog.ext k1.step.ext.gates, k4, by simpa [values] using k5⟩
  | l' :: p, c, env, vals, hb, h0, henv, hsc, hroom, hq => by
    obtain ⟨s1, s2, s3⟩ := hsc
    have hr1 := hroom l' (by simp)
    refine RunsC.seq (Funs.line_ok (ins := ins) hb h0 hlib henv s1 hr1 s2) ?_
    rintro gs c1 h1
    obtain ⟨bs, v1, v2, v3⟩ := h1.val
    have hlen : gs.length = l'.width sigs := by rw [v2.length, v3]
    have hv : (env ++ gs).length + values sigs p = env.length + values sigs (l' :: p) := by simp [values, hlen]; omega
    refine (build_dead hlib hs hl p (env ++ gs) (vals ++ bs) h1.grew.step.bld (h1.grew.out0 h0)
      ((h1.grew.step.vs hb henv).append v2) (by simpa [hlen] using s3) (fun l'' hl'' => hroom l'' (by simp at hl'' ⊢; tauto)) (by rw [hv]; exact hq)).mono ?_
    rintro env' c' ⟨k1, k2, k3, lo, hi, k4, k5, k6, k7⟩
    rw [hv] at k7
    exact ⟨h1.grew.trans k1, k2, by rw [k3]; simp [values, hlen]; omega, lo, hi, k4, k5, k6, k7⟩

/-- the line has results none of which is used by a later line or returned -/
structure Idle (sigs : List Sig) (F : Func) (p : List Line) (l : Line) (q : List Line) : Prop where
  body : F.body = p ++ l :: q
  source : l.source = false
  width : 0 < l.width sigs
  later : ∀ l' ∈ q, ∀ j ∈ l'.operands, ¬ (F.arity + values sigs p ≤ j ∧ j < F.arity + values sigs p + l.width sigs)
  outs : ∀ j ∈ F.outs, ¬ (F.arity + values sigs p ≤ j ∧ j < F.arity + values sigs p + l.width sigs)

/-- the first gate of such a line is not needed -/
theorem func_dead (hb : Bld w s K c) (he : Empty c) {mods : List ModuleId} {sigs : List Sig} {fns : List Fn}
    (hlib : Funs.Lib (Funs.Here w s K) mods sigs fns) {F : Func} (hF : F.Fine sigs) (hroom : ∀ l ∈ F.body, l.Room sigs)
    {p q : List Line} {l : Line} (hi : Idle sigs F p l q) :
    RunsC w s (F.build s mods) c fun _ c2 => ∃ d, Head mods l c2 d ∧ ¬ Needed c2 d := by
  obtain ⟨hbody, hsrc, hl, hq, ho⟩ := hi
  have h0 := he.outputLen
  have hi0 := he.inputLen
  unfold Func.build
  let ins := List.replicate F.arity false
  refine RunsC.seq (RunsC.inputs (ins := ins) hb h0 F.arity (by simp [ins]; omega)) ?_
  rintro args c1 ⟨h1, h2, h3, h4, h5⟩
  have hlines := hF.lines
  rw [hbody] at hlines hroom ⊢
  refine RunsC.seq (build_dead (ins := ins) hlib hsrc hl p args _ h1.bld (h1.outputLen.trans h0) h5 (by rw [h4]; exact hlines) hroom
    (by rw [h4]; exact hq)) ?_
  rintro env c2 ⟨k1, ⟨vals, k2⟩, k3, lo, hi, k4, k5, k6, k7⟩
  rw [h4] at k3 k7
  obtain ⟨os, bs, o1, o2, o3, o4, o5⟩ := Funs.outputs_ok k1.step.bld k2 F.outs [] fun i hi => by
    rw [k3, ← hbody]; exact hF.outs i hi
  rw [withOutputs_nil k1.step.bld.wfc (k1.out0 (h1.outputLen.trans h0))] at o5
  refine RunsC.seq o5 ?_
  rintro _ c3 rfl
  refine RunsC.pure ⟨lo, k5.ext (c := c2) (c' := withOutputs c2 ([] ++ os)) fun _ _ h => h, ?_⟩
  rw [List.nil_append]
  rintro ⟨i, x, hx, hr⟩
  have hx : os[i]? = some x := hx
  obtain ⟨o, y, e1, e2, e3⟩ := o3.get (i := i) (by rw [o3.length]; exact lt_of_getElem? hx)
  rw [hx] at e2
  cases e2
  have hne := ho o (List.mem_of_getElem? e1)
  have := k6.reach (Thrift.reach_ext (c := withOutputs c2 os) (c' := c2) (fun _ _ h => h) hr) (k7 o x e3 hne)
  omega

/-- every line has a first gate -/
theorem build_heads {mods : List ModuleId} {sigs : List Sig} {fns : List Fn} (hlib : Funs.Lib (Funs.Here w s K) mods sigs fns) :
    ∀ (p : List Line) {c : Circuit} (env : List GateId) (vals : List Bool), Bld w s K c → c.outputLen = 0 → All2 (V w s ins c) env vals →
      Functions.Scoped sigs env.length p → (∀ l ∈ p, l.Room sigs) →
      RunsC w s (Functions.build s mods p env) c fun env' c' => Grew w s K c c' ∧ (∃ vals', All2 (V w s ins c') env' vals') ∧
        env'.length = env.length + values sigs p ∧ ∀ l ∈ p, l.source = false → 0 < l.width sigs → ∃ g, Head mods l c' g
  | [], c, env, vals, hb, _, henv, _, _ => RunsC.pure ⟨hb.grew, ⟨vals, henv⟩, rfl, by simp⟩
  | l :: p, c, env, vals, hb, h0, henv, hsc, hroom => by
    obtain ⟨s1, s2, s3⟩ := hsc
    have hr1 := hroom l (by simp)
    refine RunsC.seq (RunsC.both hb.lt (Funs.line_ok (ins := ins) hb h0 hlib henv s1 hr1 s2) (line_news hb hlib s1 hr1 s2)) ?_
    rintro gs c1 ⟨h1, -, hh⟩
    obtain ⟨bs, v1, v2, v3⟩ := h1.val
    have hlen : gs.length = l.width sigs := by rw [v2.length, v3]
    refine (build_heads hlib p (env ++ gs) (vals ++ bs) h1.grew.step.bld (h1.grew.out0 h0)
      ((h1.grew.step.vs hb henv).append v2) (by simpa [hlen] using s3) fun l' hl' => hroom l' (by simp [hl'])).mono ?_
    rintro env' c' ⟨k1, k2, k3, k4⟩
    refine ⟨h1.grew.trans k1, k2, by rw [k3]; simp [values, hlen]; omega, ?_⟩
    intro l' hl' a b
    rcases List.mem_cons.mp hl' with rfl | hl'
    · exact ⟨_, (hh a b).ext k1.step.ext.gates⟩
    · exact k4 l' hl' a b

theorem func_heads (hb : Bld w s K c) (he : Empty c) {mods : List ModuleId} {sigs : List Sig} {fns : List Fn}
    (hlib : Funs.Lib (Funs.Here w s K) mods sigs fns) {F : Func} (hF : F.Fine sigs) (hroom : ∀ l ∈ F.body, l.Room sigs) :
    RunsC w s (F.build s mods) c fun _ c2 => c2.storage = K.st ∧ ∀ l ∈ F.body, l.source = false → 0 < l.width sigs → ∃ g, Head mods l c2 g := by
  have h0 := he.outputLen
  have hi0 := he.inputLen
  unfold Func.build
  let ins := List.replicate F.arity false
  refine RunsC.seq (RunsC.inputs (ins := ins) hb h0 F.arity (by simp [ins]; omega)) ?_
  rintro args c1 ⟨h1, h2, h3, h4, h5⟩
  refine RunsC.seq (build_heads (ins := ins) hlib F.body args _ h1.bld (h1.outputLen.trans h0) h5 (by rw [h4]; exact hF.lines) hroom) ?_
  rintro env c2 ⟨k1, ⟨vals, k2⟩, k3, k4⟩
  obtain ⟨os, bs, o1, o2, o3, o4, o5⟩ := Funs.outputs_ok k1.step.bld k2 F.outs [] fun i hi => by rw [k3, h4]; exact hF.outs i hi
  rw [withOutputs_nil k1.step.bld.wfc (k1.out0 (h1.outputLen.trans h0))] at o5
  refine RunsC.seq o5 ?_
  rintro _ c3 rfl
  refine RunsC.pure ⟨k1.step.bld.storage, fun l hl a b => ?_⟩
  obtain ⟨g, h⟩ := k4 l hl a b
  exact ⟨g, h.ext (c := c2) (c' := withOutputs c2 ([] ++ os)) fun _ _ h => h⟩

end

end CC.Unused
