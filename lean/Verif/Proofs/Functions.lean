import Verif.Spec.Functions
import Verif.Proofs.Mixed

/-!
# Programs with functions of their own
-/

namespace CC.Funs
open CC Spec Spec.Functions

section
variable {w : World} {s : Ref} {K : Ctx} {c : Circuit} {ins : List Bool}

/-- module `m` is a circuit of this size that none of `E` is, and if it can be called it computes `f` -/
structure Modu (w : World) (D E : Ref → Prop) (st : StoreRef) (m : ModuleId) (σ : Sig) (f : List Bool → List Bool) : Prop where
  good : σ.outs ≤ σ.wires → ModD w D st m σ.ins σ.outs f
  size : ∃ (mr : Ref) (mc : Circuit) (stor : Storage), w.stores[st]? = some stor ∧ stor.moduleMap m = some mr ∧ ¬ E mr ∧
    w.circs[mr]? = some mc ∧ mc.inputLen = σ.ins ∧ mc.outputLen = σ.outs ∧ mc.numWire = σ.ins + σ.wires

/-- the functions so far as modules -/
def Lib (P : ModuleId → Sig → (List Bool → List Bool) → Prop) (mods : List ModuleId) (sigs : List Sig) (fns : List Fn) : Prop :=
  mods.length = sigs.length ∧ fns.length = sigs.length ∧
  ∀ (i : Nat) σ m fn, sigs[i]? = some σ → mods[i]? = some m → fns[i]? = some fn →
    (∀ xs, xs.length = σ.ins → ∃ ys, fn xs = some ys ∧ ys.length = σ.outs) ∧ P m σ fun xs => (fn xs).getD []

theorem Lib.mono {P Q : ModuleId → Sig → (List Bool → List Bool) → Prop} (h : ∀ m σ f, P m σ f → Q m σ f)
    {mods sigs fns} (hl : Lib P mods sigs fns) : Lib Q mods sigs fns :=
  ⟨hl.1, hl.2.1, fun i σ m fn h1 h2 h3 => ⟨(hl.2.2 i σ m fn h1 h2 h3).1, h _ _ _ (hl.2.2 i σ m fn h1 h2 h3).2⟩⟩

theorem Lib.push {P : ModuleId → Sig → (List Bool → List Bool) → Prop} {mods sigs fns} (hl : Lib P mods sigs fns)
    {m : ModuleId} {σ : Sig} {fn : Fn} (h1 : ∀ xs, xs.length = σ.ins → ∃ ys, fn xs = some ys ∧ ys.length = σ.outs)
    (h2 : P m σ fun xs => (fn xs).getD []) :
    Lib P (mods ++ [m]) (sigs ++ [σ]) (fns ++ [fn]) := by
  obtain ⟨l1, l2, l3⟩ := hl
  refine ⟨by simp [l1], by simp [l2], fun i σ' m' fn' e1 e2 e3 => ?_⟩
  by_cases hi : i < sigs.length
  · rw [List.getElem?_append_left hi] at e1
    rw [List.getElem?_append_left (by omega)] at e2 e3
    exact l3 i σ' m' fn' e1 e2 e3
  · have : i = sigs.length := by
      have := lt_of_getElem? e1
      simp at this; omega
    subst this
    rw [show sigs.length = sigs.length from rfl, List.getElem?_concat_length] at e1
    rw [← l1, List.getElem?_concat_length] at e2
    rw [← l2, List.getElem?_concat_length] at e3
    cases e1; cases e2; cases e3
    exact ⟨h1, h2⟩

/-- what the body of circuit `s` knows about modules -/
abbrev Here (w : World) (s : Ref) (K : Ctx) : ModuleId → Sig → (List Bool → List Bool) → Prop :=
  Modu w (fun d => d < K.out ∨ d = s) (· = s) K.st

theorem get2 {gs : List GateId} {bs : List Bool} (h : All2 (V w s ins c) gs bs) {i : Nat} (hi : i < gs.length) :
    ∃ g b, gs[i]? = some g ∧ bs[i]? = some b ∧ V w s ins c g b := h.get hi

theorem args_ok {env : List GateId} {vals : List Bool} (henv : All2 (V w s ins c) env vals) :
    ∀ args : List Nat, (∀ i ∈ args, i < env.length) → ∃ xs bs, args.mapM (fun i => vals[i]?) = some bs ∧ All2 (V w s ins c) xs bs ∧
      bs.length = args.length ∧ (∀ x ∈ xs, x ∈ env) ∧ RunsC w s (M.mapList (fun i => M.idx env i) args) c fun ys c' => ys = xs ∧ c' = c
  | [], _ => ⟨[], [], rfl, trivial, rfl, by simp, RunsC.pure ⟨rfl, rfl⟩⟩
  | i :: args, h => by
    obtain ⟨g, b, e1, e2, e3⟩ := henv.get (h i (by simp))
    obtain ⟨xs, bs, h1, h2, h3, h4, h5⟩ := args_ok henv args fun j hj => h j (by simp [hj])
    refine ⟨g :: xs, b :: bs, by rw [List.mapM_cons, e2]; simp [h1], ⟨e3, h2⟩, by simp [h3], ?_, ?_⟩
    · intro x hx
      rcases List.mem_cons.mp hx with rfl | hx
      · exact List.mem_of_getElem? e1
      · exact h4 x hx
    · refine RunsC.seq (RunsC.idx (Q := fun a c' => a = g ∧ c' = c) e1 ⟨rfl, rfl⟩) ?_
      rintro _ _ ⟨rfl, rfl⟩
      refine RunsC.seq h5 ?_
      rintro _ _ ⟨rfl, rfl⟩
      exact RunsC.pure ⟨rfl, rfl⟩

/-! ### one line -/

/-- the state after a line -/
structure Post (w : World) (s : Ref) (K : Ctx) (ins : List Bool) (sigs : List Sig) (fns : List Fn) (vals : List Bool) (l : Line) (c : Circuit)
    (gs : List GateId) (c' : Circuit) : Prop where
  grew : Grew w s K c c'
  val : ∃ bs, l.run fns vals = some bs ∧ All2 (V w s ins c') gs bs ∧ bs.length = l.width sigs
  tag : ∃ lo hi, c.gateIndex ≤ lo ∧ Base c' lo hi l.source gs

theorem Post.of1 {sigs : List Sig} {fns : List Fn} {vals : List Bool} {l : Line} {g : GateId} {b : Bool} {c' : Circuit}
    (hv : l.run fns vals = some [b]) (hw : l.width sigs = 1) (h1 : Grew w s K c c') (h2 : c.gateIndex ≤ g) (h3 : V w s ins c' g b)
    (h5 : l.source = true → Source c' g) : Post w s K ins sigs fns vals l c [g] c' := by
  refine ⟨h1, ⟨[b], hv, ⟨h3, trivial⟩, hw.symm⟩, ?_⟩
  obtain ⟨gate, e⟩ := h3.gate h1.step.bld
  exact ⟨g, g, h2, base_one h1.step.bld e h5⟩

theorem line_ok (hb : Bld w s K c) (h0 : c.outputLen = 0) {mods : List ModuleId} {sigs : List Sig} {fns : List Fn}
    (hlib : Lib (Here w s K) mods sigs fns) {env : List GateId} {vals : List Bool}
    (henv : All2 (V w s ins c) env vals) {l : Line} (hok : l.Ok sigs) (hroom : l.Room sigs) (hops : ∀ i ∈ l.operands, i < env.length) :
    RunsC w s (l.build s mods env) c fun gs c' => Post w s K ins sigs fns vals l c gs c' := by
  have no := hb.notOut h0
  unfold Line.build
  cases l with
  | const b =>
    refine RunsC.seq (RunsC.both hb.lt (RunsC.constant (ins := ins) hb b) (RunsC.constant_src hb b)) ?_
    rintro g c' ⟨h1, h2, h3⟩
    exact RunsC.pure (.of1 rfl rfl h1.grew h2 h1.v fun _ => h3)
  | not i =>
    obtain ⟨x, a, e1, e2, e3⟩ := henv.get (hops i (by simp [Line.operands]))
    refine RunsC.bind (RunsC.idx e1 (RunsC.seq (RunsC.not hb e3 (no _)) ?_))
    intro g c' h1
    exact RunsC.pure (.of1 (by simp only [Line.run, e2]; rfl) rfl h1.grew (Nat.le_of_eq h1.id.symm) h1.v
      fun h => by cases h)
  | and i j =>
    obtain ⟨x, a, e1, e2, e3⟩ := henv.get (hops i (by simp [Line.operands]))
    obtain ⟨y, b, f1, f2, f3⟩ := henv.get (hops j (by simp [Line.operands]))
    refine RunsC.bind (RunsC.idx e1 (RunsC.bind (RunsC.idx f1 (RunsC.seq (RunsC.and hb e3 f3 (no _) (no _)) ?_))))
    intro g c' h1
    exact RunsC.pure (.of1 (by simp only [Line.run, e2, f2]; rfl) rfl h1.grew (Nat.le_of_eq h1.id.symm) h1.v
      fun h => by cases h)
  | or i j =>
    obtain ⟨x, a, e1, e2, e3⟩ := henv.get (hops i (by simp [Line.operands]))
    obtain ⟨y, b, f1, f2, f3⟩ := henv.get (hops j (by simp [Line.operands]))
    refine RunsC.bind (RunsC.idx e1 (RunsC.bind (RunsC.idx f1 (RunsC.seq (RunsC.or hb e3 f3 (no _) (no _)) ?_))))
    intro g c' h1
    exact RunsC.pure (.of1 (by simp only [Line.run, e2, f2]; rfl) rfl h1.grew (Nat.le_of_eq h1.id.symm) h1.v
      fun h => by cases h)
  | xor i j =>
    obtain ⟨x, a, e1, e2, e3⟩ := henv.get (hops i (by simp [Line.operands]))
    obtain ⟨y, b, f1, f2, f3⟩ := henv.get (hops j (by simp [Line.operands]))
    refine RunsC.bind (RunsC.idx e1 (RunsC.bind (RunsC.idx f1 (RunsC.seq (RunsC.xor hb e3 f3 (no _) (no _)) ?_))))
    intro g c' h1
    exact RunsC.pure (.of1 (by simp only [Line.run, e2, f2]; rfl) rfl h1.grew (Nat.le_of_eq h1.id.symm) h1.v
      fun h => by cases h)
  | same i j =>
    obtain ⟨x, a, e1, e2, e3⟩ := henv.get (hops i (by simp [Line.operands]))
    obtain ⟨y, b, f1, f2, f3⟩ := henv.get (hops j (by simp [Line.operands]))
    refine RunsC.bind (RunsC.idx e1 (RunsC.bind (RunsC.idx f1 (RunsC.seq (RunsC.equivalent hb e3 f3 (no _) (no _)) ?_))))
    rintro g c' ⟨h1, h2, h3, h4, h5, _⟩
    exact RunsC.pure (.of1 (by simp only [Line.run, e2, f2]; rfl) rfl ⟨h1, h2⟩ (by omega) h5
      fun h => by cases h)
  | copy i =>
    obtain ⟨x, a, e1, e2, e3⟩ := henv.get (hops i (by simp [Line.operands]))
    refine RunsC.bind (RunsC.idx e1 (RunsC.seq (RunsC.seq (RunsC.not hb e3 (no _))
      fun y c1 h1 => (RunsC.not h1.step.bld h1.v (h1.step.notOut0 h0 _)).mono
        (Q := fun g c' => Grew w s K c c' ∧ c.gateIndex + 2 = c'.gateIndex ∧ c.gateIndex ≤ g ∧ V w s ins c' g (!!a)) fun g c2 h2 =>
          ⟨h1.grew.trans h2.grew, by rw [h2.gateIndex, h1.gateIndex], by rw [h2.id, h1.gateIndex]; omega, h2.v⟩) ?_))
    rintro g c' ⟨h1, h2, h3, h4⟩
    rw [Bool.not_not] at h4
    exact RunsC.pure (.of1 (by simp only [Line.run, e2]; rfl) rfl h1 h3 h4 fun h => by cases h)
  | call f args =>
    obtain ⟨σ, k1, k2⟩ := hok
    have k3 := hroom σ k1
    obtain ⟨l1, l2, l3⟩ := hlib
    have hf := lt_of_getElem? k1
    obtain ⟨m, hm⟩ : ∃ m, mods[f]? = some m := ⟨_, List.getElem?_eq_getElem (by omega)⟩
    obtain ⟨fn, hfn⟩ : ∃ fn, fns[f]? = some fn := ⟨_, List.getElem?_eq_getElem (by omega)⟩
    obtain ⟨q1, q2⟩ := l3 f σ m fn k1 hm hfn
    obtain ⟨xs, bs, a1, a2, a3, a4, a5⟩ := args_ok henv args hops
    have hmod := q2.good k3
    obtain ⟨ys, y1, y2⟩ := q1 bs (by omega)
    refine RunsC.bind (RunsC.idx hm (RunsC.seq a5 ?_))
    rintro _ _ ⟨rfl, rfl⟩
    refine (RunsC.both hb.lt (RunsC.module (ins := ins) hb hmod a2 (by omega) fun x _ => no x) (RunsC.module_tidy hb hmod _)).mono ?_
    rintro gs c' ⟨⟨h1, h2⟩, h3⟩
    have hw' : (Line.call f args).width sigs = σ.outs := by simp only [Line.width, k1]
    have hv := h1.v
    have hgi := h1.gateIndex
    simp only [y1, Option.getD_some] at hv hgi
    refine ⟨h1.grew, ⟨ys, ?_, hv, by rw [hw', y2]⟩, _, _, Nat.le_refl _, h3.base h1.step.bld⟩
    simp only [Line.run, hfn, a1, Option.bind_eq_bind, Option.bind_some]; exact y1

theorem args_gates {env : List GateId} : ∀ {args : List Nat}, (∀ i ∈ args, i < env.length) →
    ∃ xs, ∀ w, M.mapList (fun i => M.idx env i) args w = (.ok xs, w)
  | [], _ => ⟨[], fun _ => rfl⟩
  | i :: args, h => by
    obtain ⟨xs, h1⟩ := args_gates (args := args) fun j hj => h j (by simp [hj])
    refine ⟨env[i]'(h i (by simp)) :: xs, fun w => ?_⟩
    have h2 : M.idx env i w = (.ok (env[i]'(h i (by simp))), w) := by
      unfold M.idx; rw [List.getElem?_eq_getElem (h i (by simp))]; rfl
    unfold M.mapList
    rw [bind_ok h2, bind_ok (h1 w)]; rfl

theorem call_eq (hb : Bld w s K c) {mods : List ModuleId} {sigs : List Sig} {fns : List Fn} (hlib : Lib (Here w s K) mods sigs fns)
    {env : List GateId} {f : Nat} {args : List Nat} (hok : (Line.call f args).Ok sigs)
    (hops : ∀ i ∈ (Line.call f args).operands, i < env.length) :
    ∃ σ mc mid xs, sigs[f]? = some σ ∧ mc.inputLen = σ.ins ∧ mc.outputLen = σ.outs ∧ mc.numWire = σ.ins + σ.wires ∧
      (Line.call f args).build s mods env (w.setC s c) = ((c.module mc mid xs).1, w.setC s (c.module mc mid xs).2) := by
  obtain ⟨σ, k1, k2⟩ := hok
  obtain ⟨l1, l2, l3⟩ := hlib
  have hf := lt_of_getElem? k1
  obtain ⟨m, hm⟩ : ∃ m, mods[f]? = some m := ⟨_, List.getElem?_eq_getElem (by omega)⟩
  obtain ⟨fn, hfn⟩ : ∃ fn, fns[f]? = some fn := ⟨_, List.getElem?_eq_getElem (by omega)⟩
  obtain ⟨mr, mc, stor, m1, m2, m3, m4, m5, m6, m7⟩ := (l3 f σ m fn k1 hm hfn).2.size
  obtain ⟨xs, hxs⟩ := args_gates (args := args) hops
  have hmod : (w.setC s c).module? c m = some mr := by
    show w.module? c m = _
    rw [hb.module?_eq, m1]; exact m2
  have hmc' : (w.setC s c).circs[mr]? = some mc := by rw [setC_get_ne _ m3]; exact m4
  refine ⟨σ, mc, m, xs, k1, m5, m6, m7, ?_⟩
  have h1 : M.idx mods f (w.setC s c) = (.ok m, w.setC s c) := by unfold M.idx; rw [hm]; rfl
  simp only [Line.build]
  rw [bind_ok h1, bind_ok (hxs _), module_eq hb.get hmod m3 hmc', setC_setC]

/-- how many wires a line adds -/
theorem line_wires (hb : Bld w s K c) {mods : List ModuleId} {sigs : List Sig} {fns : List Fn}
    (hlib : Lib (Here w s K) mods sigs fns) {env : List GateId} {l : Line} (hok : l.Ok sigs) (hroom : l.Room sigs)
    (hops : ∀ i ∈ l.operands, i < env.length) :
    RunsC w s (l.build s mods env) c fun _ c' => c'.numWire = c.numWire + l.wires sigs := by
  have hg := hb.get
  have idx : ∀ {i : Nat}, i ∈ l.operands → ∃ x, env[i]? = some x := fun hi => ⟨_, List.getElem?_eq_getElem (hops _ hi)⟩
  cases l with
  | const b => exact ⟨_, _, by simp only [Line.build]; rw [bind_ok (constant_eq hg b), setC_setC]; rfl, rfl⟩
  | not i =>
    obtain ⟨x, e⟩ := idx (i := i) (by simp [Line.operands])
    exact RunsC.bind (RunsC.idx e ⟨_, _, by rw [bind_ok (not_eq hg x), setC_setC]; rfl, by simp [Line.wires, Circuit.not, Circuit.addGate]⟩)
  | and i j =>
    obtain ⟨x, e⟩ := idx (i := i) (by simp [Line.operands])
    obtain ⟨y, e'⟩ := idx (i := j) (by simp [Line.operands])
    exact RunsC.bind (RunsC.idx e (RunsC.bind (RunsC.idx e' ⟨_, _, by rw [bind_ok (and_eq hg x y), setC_setC]; rfl, by simp [Line.wires, Circuit.and, Circuit.addGate]⟩)))
  | or i j =>
    obtain ⟨x, e⟩ := idx (i := i) (by simp [Line.operands])
    obtain ⟨y, e'⟩ := idx (i := j) (by simp [Line.operands])
    exact RunsC.bind (RunsC.idx e (RunsC.bind (RunsC.idx e' ⟨_, _, by rw [bind_ok (or_eq hg x y), setC_setC]; rfl, by simp [Line.wires, Circuit.or, Circuit.addGate]⟩)))
  | xor i j =>
    obtain ⟨x, e⟩ := idx (i := i) (by simp [Line.operands])
    obtain ⟨y, e'⟩ := idx (i := j) (by simp [Line.operands])
    exact RunsC.bind (RunsC.idx e (RunsC.bind (RunsC.idx e' ⟨_, _, by rw [bind_ok (xor_eq hg x y), setC_setC]; rfl, by simp [Line.wires, Circuit.xor, Circuit.addGate]⟩)))
  | same i j =>
    obtain ⟨x, e⟩ := idx (i := i) (by simp [Line.operands])
    obtain ⟨y, e'⟩ := idx (i := j) (by simp [Line.operands])
    exact RunsC.bind (RunsC.idx e (RunsC.bind (RunsC.idx e' ⟨_, _, by rw [bind_ok (equivalent_eq hg x y), setC_setC]; rfl, by simp [Line.wires, Circuit.xor, Circuit.not, Circuit.addGate]⟩)))
  | copy i =>
    obtain ⟨x, e⟩ := idx (i := i) (by simp [Line.operands])
    exact RunsC.bind (RunsC.idx e ⟨_, _, by rw [bind_ok (identity_eq hg x), setC_setC]; rfl, by simp [Line.wires, Circuit.not, Circuit.addGate]⟩)
  | call f args =>
    obtain ⟨σ, mc, mid, xs, k1, m5, m6, m7, he⟩ := call_eq hb hlib hok hops
    have := hroom σ k1
    obtain ⟨outs, h1, h2⟩ := Circuit.module_ok hb.wfc mid xs (m := mc) (by omega)
    refine ⟨outs, _, by rw [he, h1], ?_⟩
    have := h2.numWire
    simp only [Line.wires, k1]
    omega

/-- a call without room panics -/
theorem line_panics (hb : Bld w s K c) {mods : List ModuleId} {sigs : List Sig} {fns : List Fn}
    (hlib : Lib (Here w s K) mods sigs fns) {env : List GateId} {l : Line} (hok : l.Ok sigs) (hroom : ¬ l.Room sigs)
    (hops : ∀ i ∈ l.operands, i < env.length) : (l.build s mods env (w.setC s c)).1 = .error (.panic .underflow) := by
  cases l with
  | call f args =>
    obtain ⟨σ, mc, mid, xs, k1, m5, m6, m7, he⟩ := call_eq hb hlib hok hops
    have : ¬ σ.outs ≤ σ.wires := fun h => hroom fun σ' h' => by rw [k1] at h'; cases h'; exact h
    rw [he]
    unfold Circuit.module
    rw [if_neg (by omega), if_pos (by omega)]
  | _ => exact (hroom trivial).elim

/-! ### where the gates of the values lie -/

/-- positions of all values; `k` is the number of lines so far, arguments included -/
structure Spans (c : Circuit) (k : Nat) (ms : List (Nat × Bool)) (env : List GateId) (span : Nat → Nat × Nat) : Prop where
  len : ms.length = env.length
  lt : ∀ (i : Nat) m, ms[i]? = some m → m.1 < k
  hi_le : ∀ j, j < k → (span j).2 ≤ c.gateIndex
  mem : ∀ (i : Nat) g m, env[i]? = some g → ms[i]? = some m →
    (span m.1).1 ≤ g ∧ (Source c g ∨ (m.2 = false ∧ ∃ gate, c.gateMap g = some gate ∧ lead g gate ≤ (span m.1).2))
  cross : ∀ (i j : Nat) g h m m', env[i]? = some g → env[j]? = some h → ms[i]? = some m → ms[j]? = some m' → m.1 = m'.1 → Apart c g h
  mono : ∀ j j', j < j' → j' < k → (span j).2 ≤ (span j').1

theorem Spans.old {k : Nat} {ms : List (Nat × Bool)} {env : List GateId} {span : Nat → Nat × Nat} (h : Spans c k ms env span)
    (hb : Bld w s K c) {i : Nat} {g : GateId} {m : Nat × Bool} (h1 : env[i]? = some g) (h2 : ms[i]? = some m) : g < c.gateIndex := by
  rcases (h.mem i g m h1 h2).2 with h | ⟨_, gate, h, _⟩
  · exact source_lt hb.wfc h
  · exact hb.wfc.lt_of_some h

theorem Spans.fresh {k : Nat} {ms : List (Nat × Bool)} {env : List GateId} {span : Nat → Nat × Nat} (h : Spans c k ms env span)
    (hb : Bld w s K c) {c' : Circuit} (hx : ExtC c c') {gs : List GateId} {lo hi : Nat} {src : Bool} (hL : c.gateIndex ≤ lo)
    (ht : Base c' lo hi src gs) :
    ∃ span', Spans c' (k + 1) (ms ++ List.replicate gs.length (k, src)) (env ++ gs) span' := by
  have hsp : ∀ j, j < k → (if j = k then (lo, hi) else span j) = span j := fun j hj => if_neg (by omega)
  have split : ∀ (i : Nat) g m, (env ++ gs)[i]? = some g → (ms ++ List.replicate gs.length (k, src))[i]? = some m →
      (env[i]? = some g ∧ ms[i]? = some m ∧ m.1 < k) ∨ (g ∈ gs ∧ m = (k, src)) := by
    intro i g m h1 h2
    by_cases hi : i < env.length
    · rw [List.getElem?_append_left hi] at h1
      rw [List.getElem?_append_left (by rw [h.len]; exact hi)] at h2
      exact .inl ⟨h1, h2, h.lt i m h2⟩
    · rw [List.getElem?_append_right (by omega)] at h1
      rw [List.getElem?_append_right (by rw [h.len]; omega)] at h2
      exact .inr ⟨List.mem_of_getElem? h1, (List.mem_replicate.mp (List.mem_of_getElem? h2)).2⟩
  refine ⟨fun j => if j = k then (lo, hi) else span j, by simp [h.len], ?_, ?_, ?_, ?_, ?_⟩
  · intro i m hm
    rcases List.mem_append.mp (List.mem_of_getElem? hm) with hm | hm
    · obtain ⟨j, hj⟩ := List.getElem?_of_mem hm
      exact Nat.lt_succ_of_lt (h.lt j m hj)
    · rw [(List.mem_replicate.mp hm).2]; exact Nat.lt_succ_self k
  · intro j hj
    by_cases hjk : j = k
    · subst hjk; simp only [if_true]; exact ht.hi_le
    · simp only [if_neg hjk]
      exact Nat.le_trans (h.hi_le j (by omega)) hx.gateIndex
  · intro i g m h1 h2
    rcases split i g m h1 h2 with ⟨h3, h4, h5⟩ | ⟨h3, rfl⟩
    · simp only [hsp m.1 h5]
      obtain ⟨k1, k2⟩ := h.mem i g m h3 h4
      refine ⟨k1, ?_⟩
      rcases k2 with k2 | ⟨k2, gate, k3, k4⟩
      · exact .inl (k2.ext hx)
      · exact .inr ⟨k2, gate, hx.gates _ _ k3, k4⟩
    · simp only [if_true]
      exact ht.mem g h3
  · intro i j g g' m m' h1 h2 h3 h4 h5
    rcases split i g m h1 h3 with ⟨a1, a2, a3⟩ | ⟨a1, rfl⟩ <;> rcases split j g' m' h2 h4 with ⟨b1, b2, b3⟩ | ⟨b1, rfl⟩
    · exact (h.cross i j g g' m m' a1 b1 a2 b2 h5).ext hb hx (h.old hb a1 a2)
    · simp at h5; omega
    · simp at h5; omega
    · exact ht.cross g a1 g' b1
  · intro j j' h1 h2
    rw [if_neg (by omega)]
    by_cases hjk : j' = k
    · rw [if_pos hjk]; exact Nat.le_trans (h.hi_le j (by omega)) hL
    · rw [if_neg hjk]; exact h.mono j j' h1 (by omega)

/-! ### whole bodies -/

theorem build_ok {mods : List ModuleId} {sigs : List Sig} {fns : List Fn}
    (hlib : Lib (Here w s K) mods sigs fns) :
    ∀ (p : List Line) {c : Circuit} (env : List GateId) (vals : List Bool) (k : Nat) (ms : List (Nat × Bool)) (span : Nat → Nat × Nat),
      Bld w s K c → c.outputLen = 0 → All2 (V w s ins c) env vals → Spans c k ms env span → Scoped sigs env.length p →
      (∀ l ∈ p, l.Room sigs) → RunsC w s (Functions.build s mods p env) c fun env' c' => Grew w s K c c' ∧
        c'.numWire = c.numWire + wires sigs p ∧ env'.length = env.length + values sigs p ∧
        (∃ vals', run fns p vals = some vals' ∧ All2 (V w s ins c') env' vals') ∧
        ∃ k' span', Spans c' k' (ms ++ marks sigs k p) env' span'
  | [], c, env, vals, k, ms, span, hb, h0, henv, hsp, hsc, hroom =>
    RunsC.pure ⟨hb.grew, rfl, rfl, ⟨vals, rfl, henv⟩, k, span, by simpa [marks] using hsp⟩
  | l :: p, c, env, vals, k, ms, span, hb, h0, henv, hsp, hsc, hroom => by
    obtain ⟨s1, s2, s3⟩ := hsc
    have hr1 := hroom l (by simp)
    refine RunsC.seq (RunsC.both hb.lt (line_ok (ins := ins) hb h0 hlib henv s1 hr1 s2) (line_wires hb hlib s1 hr1 s2)) ?_
    rintro gs c1 ⟨h1, hg⟩
    obtain ⟨bs, v1, v2, v3⟩ := h1.val
    obtain ⟨lo, hi, t1, t2⟩ := h1.tag
    have hl : gs.length = l.width sigs := by rw [v2.length, v3]
    obtain ⟨span', hsp'⟩ := hsp.fresh hb h1.grew.step.ext t1 t2
    have hbd := h1.grew.step.bld
    refine (build_ok hlib p (env ++ gs) (vals ++ bs) (k + 1) _ span' hbd (h1.grew.out0 h0)
      ((h1.grew.step.vs hb henv).append v2) hsp' (by simpa [hl] using s3) fun l' hl' => hroom l' (by simp [hl'])).mono ?_
    rintro env' c' ⟨k1, k2, k3, ⟨vals', k4, k5⟩, k', sp', k6⟩
    refine ⟨h1.grew.trans k1, by simp only [wires]; omega, ?_, ⟨vals', ?_, k5⟩, k', sp', ?_⟩
    · rw [k3]; simp [values, hl]; omega
    · simp only [run, v1]; exact k4
    · rw [hl] at k6; simpa [marks] using k6

theorem build_panics {mods : List ModuleId} {sigs : List Sig} {fns : List Fn} (hlib : Lib (Here w s K) mods sigs fns) :
    ∀ (p : List Line) {c : Circuit} (env : List GateId) (vals : List Bool), Bld w s K c → c.outputLen = 0 → All2 (V w s ins c) env vals →
      Scoped sigs env.length p → ¬ (∀ l ∈ p, l.Room sigs) → (Functions.build s mods p env (w.setC s c)).1 = .error (.panic .underflow)
  | [], c, env, vals, hb, h0, henv, hsc, hroom => (hroom (by simp)).elim
  | l :: p, c, env, vals, hb, h0, henv, hsc, hroom => by
    obtain ⟨s1, s2, s3⟩ := hsc
    unfold Functions.build
    by_cases hr : l.Room sigs
    · obtain ⟨gs, c1, he, h1⟩ := line_ok (ins := ins) hb h0 hlib henv s1 hr s2
      obtain ⟨bs, v1, v2, v3⟩ := h1.val
      have hl : gs.length = l.width sigs := by rw [v2.length, v3]
      rw [bind_ok he]
      refine build_panics hlib p (env ++ gs) (vals ++ bs) h1.grew.step.bld (h1.grew.out0 h0) ((h1.grew.step.vs hb henv).append v2)
        (by simpa [hl] using s3) fun h => hroom ?_
      intro l' hl'
      rcases List.mem_cons.mp hl' with rfl | hl'
      · exact hr
      · exact h l' hl'
    · have := line_panics hb hlib s1 hr s2
      rw [M.bind_apply]
      generalize l.build s mods env (w.setC s c) = y at this
      obtain ⟨a, w'⟩ := y
      simp only at this
      subst this; rfl

theorem outputs_ok (hb : Bld w s K c) {env : List GateId} {vals : List Bool} (henv : All2 (V w s ins c) env vals) :
    ∀ (outs : List Nat) (gs : List GateId), (∀ i ∈ outs, i < env.length) → ∃ os bs, outs.mapM (fun i => vals[i]?) = some bs ∧
      bs.length = outs.length ∧
      All2 (fun i g => env[i]? = some g) outs os ∧ All2 (V w s ins c) os bs ∧
      RunsC w s (M.mapList (fun i => do let g ← M.idx env i; CC.output s g) outs) (withOutputs c gs) fun _ c' =>
        c' = withOutputs c (gs ++ os)
  | [], gs, _ => ⟨[], [], rfl, rfl, trivial, trivial, RunsC.pure (by simp)⟩
  | i :: outs, gs, h => by
    obtain ⟨g, b, e1, e2, e3⟩ := henv.get (h i (by simp))
    obtain ⟨gate, hg⟩ := e3.gate hb
    obtain ⟨os, bs, h1, h2, h3, h4, h5⟩ := outputs_ok hb henv outs (gs ++ [g]) fun j hj => h j (by simp [hj])
    refine ⟨g :: os, b :: bs, by rw [List.mapM_cons, e2]; simp [h1], by simp [h2], ⟨e1, h3⟩, ⟨e3, h4⟩, ?_⟩
    refine RunsC.seq (RunsC.bind (RunsC.idx e1 (RunsC.output1 hb.lt gs hg))) ?_
    rintro _ c1 rfl
    refine RunsC.seq h5 ?_
    rintro _ c2 rfl
    exact RunsC.pure (by simp)

theorem pairwise_ok (hb : Bld w s K c) {k : Nat} {ms : List (Nat × Bool)} {env : List GateId} {span : Nat → Nat × Nat}
    (ht : Spans c k ms env span) : ∀ {outs : List Nat} {os : List GateId}, All2 (fun i g => env[i]? = some g) outs os →
    (outs.Pairwise fun a b => ∀ k s k' s', ms[a]? = some (k, s) → ms[b]? = some (k', s') → s = true ∨ k ≤ k') → os.Pairwise (Apart c)
  | [], [], _, _ => .nil
  | i :: outs, g :: os, h, hp => by
    rw [List.pairwise_cons] at hp ⊢
    refine ⟨fun g' hg' => ?_, pairwise_ok hb ht h.2 hp.2⟩
    obtain ⟨n, hn⟩ := List.getElem?_of_mem hg'
    obtain ⟨j, g2, e1, e2, e3⟩ := h.2.get (i := n) (by rw [h.2.length]; exact lt_of_getElem? hn)
    rw [hn] at e2; cases e2
    have hi := lt_of_getElem? h.1
    have hj := lt_of_getElem? e3
    obtain ⟨m, hm⟩ : ∃ m, ms[i]? = some m := ⟨_, List.getElem?_eq_getElem (by rw [ht.len]; exact hi)⟩
    obtain ⟨m', hm'⟩ : ∃ m, ms[j]? = some m := ⟨_, List.getElem?_eq_getElem (by rw [ht.len]; exact hj)⟩
    have hord := hp.1 j (List.mem_of_getElem? e1) m.1 m.2 m'.1 m'.2 hm hm'
    rcases (ht.mem i g m h.1 hm).2 with hs | ⟨hf, gate, hg, hl⟩
    · exact Early.apart hb (.inl hs)
    · have hle := hord.resolve_left (by simp [hf])
      rcases Nat.lt_or_eq_of_le hle with hlt | heq
      · have h1 := ht.mono m.1 m'.1 hlt (ht.lt j m' hm')
        have h2 := (ht.mem j g' m' e3 hm').1
        exact Early.apart hb (.inr ⟨gate, hg, by omega⟩)
      · exact ht.cross i j g g' m m' h.1 e3 hm hm' heq
  | [], _ :: _, h, _ => h.elim
  | _ :: _, [], h, _ => h.elim

/-- what a whole function leaves in its circuit -/
def Made (w : World) (s : Ref) (K : Ctx) (c : Circuit) (sigs : List Sig) (F : Func) (ins outs : List Bool) (c2 : Circuit) : Prop :=
  ∃ c' gs, c2 = withOutputs c' gs ∧ Step w s K c c' ∧ c'.inputLen = F.arity ∧ (F.Ordered sigs → gs.Pairwise (Apart c')) ∧ All2 (V w s ins c') gs outs ∧
    outs.length = F.outs.length ∧ c'.numWire = c.numWire + F.arity + wires sigs F.body

theorem inputs_src (hb : Bld w s K c) (h0 : c.outputLen = 0) (n : Nat) :
    RunsC w s (M.replicate (CC.input s) n) c fun gs c' => (∀ g ∈ gs, c.gateIndex ≤ g ∧ Source c' g) ∧ c'.numWire = c.numWire + n := by
  refine (RunsC.replicate (I := fun acc c' => Step w s K c c' ∧ (∀ g ∈ acc, c.gateIndex ≤ g ∧ Source c' g) ∧
    c'.numWire = c.numWire + acc.length) n [] ⟨hb.refl, by simp, rfl⟩ ?_).mono ?_
  · rintro acc c1 _ ⟨h1, h2, h3⟩
    have hw : RunsC w s (CC.input s) c1 fun _ c' => c'.numWire = c1.numWire + 1 :=
      ⟨_, _, by rw [input_eq h1.bld.get, setC_setC], rfl⟩
    refine (RunsC.both hb.lt (RunsC.both hb.lt (RunsC.input (ins := []) h1.bld (h1.outputLen.trans h0)) (RunsC.input_src h1.bld)) hw).mono ?_
    rintro g c2 ⟨⟨⟨hn, _⟩, k1, k2⟩, k3⟩
    refine ⟨h1.trans hn, ?_, by simp; omega⟩
    intro g' hg'
    rcases List.mem_append.mp hg' with hg' | hg'
    · exact ⟨(h2 g' hg').1, (h2 g' hg').2.ext hn.ext⟩
    · simp at hg'; subst hg'; exact ⟨Nat.le_trans h1.ext.gateIndex k1, k2⟩
  · rintro gs c' ⟨⟨h1, h2, h3⟩, h4⟩
    exact ⟨by simpa using h2, by simpa [h4] using h3⟩

theorem func_ok (hb : Bld w s K c) (he : Empty c) {mods : List ModuleId} {sigs : List Sig} {fns : List Fn}
    (hlib : Lib (Here w s K) mods sigs fns) {F : Func} (hF : F.Fine sigs) (hroom : ∀ l ∈ F.body, l.Room sigs) (hins : ins.length = F.arity) :
    RunsC w s (F.build s mods) c fun _ c2 => ∃ outs, F.run fns ins = some outs ∧ Made w s K c sigs F ins outs c2 := by
  have hi0 := he.inputLen
  have h0 := he.outputLen
  unfold Func.build
  refine RunsC.seq (RunsC.both hb.lt (RunsC.inputs (ins := ins) hb h0 F.arity (by omega)) (inputs_src hb h0 F.arity)) ?_
  rintro args c1 ⟨⟨h1, h2, h3, h4, h5⟩, h6, h7⟩
  rw [hi0, List.drop_zero, List.take_of_length_le (by omega)] at h5
  have hsp0 : Spans c1 1 (List.replicate F.arity (0, true)) args fun _ => (c.gateIndex, c1.gateIndex) := by
    have hm0 : ∀ (i : Nat) m, (List.replicate F.arity (0, true))[i]? = some m → m = (0, true) := fun i m hm =>
      (List.mem_replicate.mp (List.mem_of_getElem? hm)).2
    refine ⟨by simp [h4], ?_, fun _ _ => Nat.le_refl _, ?_, ?_, fun j j' h1 h2 => by omega⟩
    · intro i m hm
      rw [hm0 i m hm]; exact Nat.zero_lt_one
    · intro i g m hg _
      obtain ⟨k1, k2⟩ := h6 g (List.mem_of_getElem? hg)
      exact ⟨k1, .inl k2⟩
    · intro i j g h _ _ hg _ _ _ _
      exact Early.apart h1.bld (.inl (h6 g (List.mem_of_getElem? hg)).2)
  refine RunsC.seq (build_ok (ins := ins) hlib F.body args ins 1 _ _ h1.bld (h1.outputLen.trans h0) h5 hsp0
    (by rw [h4]; exact hF.lines) hroom) ?_
  rintro env c2 ⟨k1, k2, k3, ⟨vals, k4, k5⟩, k', span, k6⟩
  have hlt : ∀ i ∈ F.outs, i < env.length := fun i hi => by rw [k3, h4]; exact hF.outs i hi
  obtain ⟨os, bs, o1, o2, o3, o4, o5⟩ := outputs_ok k1.step.bld k5 F.outs [] hlt
  have h02 : c2.outputLen = 0 := k1.out0 (h1.outputLen.trans h0)
  rw [withOutputs_nil k1.step.bld.wfc h02] at o5
  refine RunsC.seq o5 ?_
  rintro _ c3 rfl
  refine RunsC.pure ⟨bs, ?_, c2, os, by simp, h1.trans k1.step, by rw [k1.inputLen, h2, hi0]; simp, ?_, o4, o2, ?_⟩
  · simp only [Func.run, k4]; exact o1
  · exact pairwise_ok k1.step.bld k6 o3
  · omega

theorem func_panics (hb : Bld w s K c) (he : Empty c) {mods : List ModuleId} {sigs : List Sig} {fns : List Fn}
    (hlib : Lib (Here w s K) mods sigs fns) {F : Func} (hF : F.Fine sigs) (hroom : ¬ ∀ l ∈ F.body, l.Room sigs) :
    (F.build s mods (w.setC s c)).1 = .error (.panic .underflow) := by
  have hi0 := he.inputLen
  have h0 := he.outputLen
  unfold Func.build
  obtain ⟨args, c1, e1, h1, h2, h3, h4, h5⟩ := RunsC.inputs (ins := List.replicate F.arity false) hb h0 F.arity (by simp; omega)
  rw [bind_ok e1, M.bind_apply]
  have := build_panics (ins := List.replicate F.arity false) hlib F.body args _ h1.bld (h1.outputLen.trans h0) h5
    (by rw [h4]; exact hF.lines) hroom
  generalize Functions.build s mods F.body args (w.setC s c1) = y at this
  obtain ⟨a, w'⟩ := y
  simp only at this
  subst this; rfl

end

/-! ### functions are modules -/

/-- the bits a circuit with these outputs returns -/
theorem made_outputs {w : World} {s : Ref} {K : Ctx} {c : Circuit} {sigs : List Sig} {F : Func} {ins outs : List Bool} {c2 : Circuit}
    (h0 : c.outputLen = 0) (hins : ins.length = F.arity) (h : Made w s K c sigs F ins outs c2) : Outputs (w.setC s c2) s ins outs := by
  obtain ⟨c3, gs3, rfl, st3, in3, _, v3, _⟩ := h
  have h03 : c3.outputLen = 0 := st3.outputLen.trans h0
  refine ⟨withOutputs c3 gs3, get_of_lt st3.bld.lt _, by rw [hins]; exact in3.symm, v3.length.symm, ?_⟩
  intro i b hib
  obtain ⟨g, b', k1, k2, k3⟩ := v3.get (i := i) (by rw [v3.length]; exact lt_of_getElem? hib)
  rw [hib] at k2; cases k2
  exact ⟨g, k1, val_ext st3.bld (ext_withOutputs c3 gs3 st3.bld.wfc h03) k3⟩

theorem plays_line (r : Ref) (mods : List ModuleId) (env : List GateId) (l : Line) : Plays (l.build r mods env) := by
  cases l <;> unfold Line.build
  case call f args =>
    exact .bind (.idx _ _) fun _ => .bind (.mapList (fun _ => .idx _ _) _) fun _ => plays_module _ _ _
  all_goals plays

theorem plays_build (r : Ref) (mods : List ModuleId) : ∀ (p : List Line) (env : List GateId), Plays (Functions.build r mods p env)
  | [], _ => .pure _
  | l :: p, env => .bind (plays_line r mods env l) fun gs => plays_build r mods p (env ++ gs)

theorem plays_func (r : Ref) (mods : List ModuleId) (F : Func) : Plays (F.build r mods) :=
  .bind (.replicate (plays_input _) _) fun _ => .bind (plays_build r mods F.body _) fun _ =>
    .bind (.mapList (fun _ => .bind (.idx _ _) fun _ => plays_output _ _) _) fun _ => .pure _

theorem plays_define (r : Ref) : ∀ (lib : List Func) (mods : List ModuleId), Plays (define r lib mods)
  | [], _ => .pure _
  | F :: lib, mods => .bind (plays_subCircuit r) fun x => .bind (plays_func _ mods F) fun _ => plays_define r lib (mods ++ [x.1])

theorem plays_compile (st : StoreRef) (lib : List Func) (main : Func) : Plays (Functions.compile st lib main) :=
  .bind (plays_newCircuit _) fun r => .bind (plays_define r lib []) fun mods => .bind (plays_func r mods main) fun _ => .pure _

/-- a sub circuit, ready for its body -/
theorem def1_start {w : World} {r : Ref} {N : Nat} {c0 : Circuit} (hw : WFw w) (hr : w.circs[r]? = some c0)
    {mods : List ModuleId} {sigs : List Sig} {fns : List Fn} (hlib : Lib (Modu w (· < N) (· < N) c0.storage) mods sigs fns) :
    ∃ stor w1, w.stores[c0.storage]? = some stor ∧ subCircuit r w = (.ok (stor.numModule, w.circs.length), w1) ∧
      w1.stores[c0.storage]? = some (stor.register w.circs.length).2 ∧ Keeps (fun _ => True) w w1 ∧ ¬ Called w1 w.circs.length ∧
      w1.setC w.circs.length (Circuit.new c0.storage) = w1 ∧ Bld w1 w.circs.length ⟨c0.storage, N⟩ (Circuit.new c0.storage) ∧
      Lib (Here w1 w.circs.length ⟨c0.storage, N⟩) mods sigs fns ∧
      ∀ (x : StoreRef) st', x ≠ c0.storage → w1.stores[x]? = some st' → w.stores[x]? = some st' := by
  have hstl := hw.store r c0 hr
  obtain ⟨stor, hs⟩ : ∃ st, w.stores[c0.storage]? = some st := ⟨_, List.getElem?_eq_getElem hstl⟩
  have he := subCircuit_eq hr hs
  have hwf1 := (good_subCircuit r _ hw).1
  rw [he] at hwf1
  generalize hw1 : World.mk (w.circs ++ [Circuit.new c0.storage])
    (w.stores.set c0.storage (stor.register w.circs.length).2) = w1 at he hwf1
  have hg1 : w1.circs[w.circs.length]? = some (Circuit.new c0.storage) := by subst hw1; simp
  have hrl := lt_of_getElem? hr
  have hst1 : w1.stores[c0.storage]? = some (stor.register w.circs.length).2 := by
    subst hw1; simp [hstl]
  have hnum := hw.mods _ _ hs
  have hk : Keeps (fun _ => True) w w1 := by
    subst hw1
    refine ⟨fun x c _ hx => by simp only; rw [List.getElem?_append_left (lt_of_getElem? hx)]; exact hx, ?_⟩
    intro s st' hs'
    by_cases hse : s = c0.storage
    · subst hse
      rw [hs] at hs'; cases hs'
      refine ⟨_, by simpa using hst1, ?_⟩
      intro m q hq
      have hlt := (hnum m).mp (by simp [hq])
      simp only [Storage.register, Map.insert_apply]
      rw [if_neg (by omega)]; exact hq
    · refine ⟨st', ?_, fun _ _ h => h⟩
      simp only
      rw [List.getElem?_set_ne (fun e => hse e.symm)]; exact hs'
  have hbase : ¬ Called w1 w.circs.length := by
    rintro ⟨q, c, hq, g, nIn, nOut, ids, oi, mid, hg, hm⟩
    have hql := lt_of_getElem? hq
    by_cases hqe : q = w.circs.length
    · subst hqe
      rw [hg1] at hq; cases hq
      simp [Circuit.new, Map.empty] at hg
    · have hqw : w.circs[q]? = some c := by
        subst hw1
        simp only at hq hql
        simp at hql
        rw [List.getElem?_append_left (by omega)] at hq
        exact hq
      obtain ⟨mr, h1, h2⟩ := hw.calls q c hqw g nIn nOut ids oi mid hg
      have h3 := hk.module? h1
      rw [hm] at h3
      cases h3
      obtain ⟨st2, h4⟩ : ∃ st2, w.stores[c.storage]? = some st2 := ⟨_, List.getElem?_eq_getElem (hw.store q c hqw)⟩
      unfold World.module? at h1
      rw [h4] at h1
      have := hw.mods_ref _ _ h4 _ _ h1
      omega
  have hself : w1.setC w.circs.length (Circuit.new c0.storage) = w1 := setC_self hg1
  have hb : Bld w1 w.circs.length ⟨c0.storage, N⟩ (Circuit.new c0.storage) := by
    refine ⟨lt_of_getElem? hg1, hbase, rfl, by rw [hself]; exact hwf1, ?_, ?_, ?_, ?_, by simp [Circuit.new],
      fun h => by rw [hself]; exact h⟩
    · intro g gate hg; simp [Circuit.new, Map.empty] at hg
    · intro g _ _ _ _ _ hg; simp [Circuit.new, Map.empty] at hg
    · intro i o ho; simp [Circuit.new, Map.empty] at ho
    · intro i o ho; simp [Circuit.new, Map.empty] at ho
  have hlib1 : Lib (Here w1 w.circs.length ⟨c0.storage, N⟩) mods sigs fns := by
    refine hlib.mono fun mid σ f hm => ⟨fun h => ModD.keeps hk (fun _ _ _ _ _ _ => trivial) (hm.good h) (fun _ _ => trivial)
      (fun d hd => hd.imp id fun e => Nat.le_of_eq e.symm), ?_⟩
    obtain ⟨mr, mc, st1, m1, m2, m3, m4, m5⟩ := hm.size
    obtain ⟨st2, k1, k2⟩ := hk.stores _ _ m1
    exact ⟨mr, mc, st2, k1, k2 _ _ m2, Nat.ne_of_lt (lt_of_getElem? m4), hk.circ _ _ trivial m4, m5⟩
  refine ⟨stor, w1, hs, he, hst1, hk, hbase, hself, hb, hlib1, ?_⟩
  intro x st' hx h1
  subst hw1
  simp only at h1
  rw [List.getElem?_set_ne (fun e => hx e.symm)] at h1
  exact h1

theorem def1_panics {w : World} {r : Ref} {N : Nat} {c0 : Circuit} (hw : WFw w) (hr : w.circs[r]? = some c0)
    {mods : List ModuleId} {sigs : List Sig} {fns : List Fn} (hlib : Lib (Modu w (· < N) (· < N) c0.storage) mods sigs fns) {F : Func}
    (hF : F.Ok sigs) (hroom : ¬ ∀ l ∈ F.body, l.Room sigs) (lib : List Func) :
    (define r (F :: lib) mods w).1 = .error (.panic .underflow) := by
  obtain ⟨stor, w1, hs, he, hst1, hk, hbase, hself, hb, hlib1, hother⟩ := def1_start hw hr hlib
  have := func_panics hb ⟨rfl, rfl, rfl⟩ hlib1 hF.toFine hroom
  rw [hself] at this
  unfold define
  rw [bind_ok he]
  show (((F.build w.circs.length mods) >>= fun _ => define r lib (mods ++ [stor.numModule])) w1).1 = _
  rw [M.bind_apply]
  generalize F.build w.circs.length mods w1 = y at this
  obtain ⟨a, w'⟩ := y
  simp only at this
  subst this; rfl

/-- one function becomes one module -/
theorem def1_ok {w : World} {r : Ref} {N : Nat} {c0 : Circuit} (hw : WFw w) (hr : w.circs[r]? = some c0) (hN : N ≤ w.circs.length)
    {mods : List ModuleId} {sigs : List Sig} {fns : List Fn} (hlib : Lib (Modu w (· < N) (· < N) c0.storage) mods sigs fns) {F : Func}
    (hF : F.Ok sigs) (hroom : ∀ l ∈ F.body, l.Room sigs) :
    ∃ mid w', (subCircuit r >>= fun x => F.build x.2 mods >>= fun _ => (pure x.1 : M ModuleId)) w = (.ok mid, w') ∧ After w w' ∧
      (∀ xs, xs.length = F.arity → ∃ ys, F.run fns xs = some ys ∧ ys.length = F.outs.length) ∧
      Modu w' (· < N) (· < N) c0.storage mid (F.sig sigs) fun xs => (F.run fns xs).getD [] := by
  obtain ⟨stor, w1, hs, he, hst1, hk, hbase, hself, hb, hlib1, hother⟩ := def1_start hw hr hlib
  have hwf1 : WFw w1 := by
    have := (good_subCircuit r _ hw).1
    rw [he] at this; exact this
  have hemp : Empty (Circuit.new c0.storage) := ⟨rfl, rfl, rfl⟩
  let X := { ins : List Bool // ins.length = F.arity }
  have hinh : Inhabited X := ⟨⟨List.replicate F.arity false, by simp⟩⟩
  obtain ⟨_, c2, hx, hall⟩ := RunsC.forall hb.lt fun i : X => func_ok (ins := i.1) hb hemp hlib1 hF.toFine hroom i.2
  rw [hself] at hx
  obtain ⟨_, _, c', gs, rfl, hstep, hin, hpw, hv, hol, hnw⟩ := hall default
  have hb' := hstep.bld
  have hrun : (subCircuit r >>= fun x => F.build x.2 mods >>= fun _ => (pure x.1 : M ModuleId)) w =
      (.ok stor.numModule, w1.setC w.circs.length (withOutputs c' gs)) := by
    rw [bind_ok he, bind_ok hx]; rfl
  have hwf2 : WFw (w1.setC w.circs.length (withOutputs c' gs)) := by
    have := plays_func w.circs.length mods F w1
    rw [hx] at this
    exact (ext_of_later hwf1 this).1
  refine ⟨stor.numModule, _, hrun, ⟨hwf2, ?_, ?_, fun h => valid_outputs hb' hstep.outputLen (CC.ValidRun.subCircuit he h) gs fun g hg => ?_⟩, ?_, ?_⟩
  rotate_left 2
  · obtain ⟨b, hgb⟩ := hv.left hg
    exact hgb.lt hb'
  rotate_left 2
  · refine ⟨?_, hk.stores⟩
    intro y c _ hy
    have := lt_of_getElem? hy
    rw [setC_get_ne _ (by omega)]
    exact hk.circ y c trivial hy
  · intro s st' m q h1 h2 h3
    have h1 : w1.stores[s]? = some st' := h1
    by_cases hse : s = c0.storage
    · subst hse
      rw [hst1] at h1; cases h1
      simp only [Storage.register, Map.insert_apply] at h2
      split at h2
      · cases h2; omega
      · exact ⟨stor, hs, h2⟩
    · exact ⟨st', hother s st' hse h1, h2⟩
  · intro xs hxs
    obtain ⟨ys, h1, _, _, _, _, _, _, _, h2, _⟩ := hall ⟨xs, hxs⟩
    exact ⟨ys, h1, h2⟩
  · have hget : (w1.setC w.circs.length (withOutputs c' gs)).circs[w.circs.length]? = some (withOutputs c' gs) := get_of_lt hb.lt _
    have hnw : c'.numWire = F.arity + wires sigs F.body := by
      rw [hnw]; show 0 + _ + _ = _; omega
    refine ⟨fun hroom => ?_, w.circs.length, withOutputs c' gs, _, hst1, by simp [Storage.register], by omega, hget, hin,
      (show gs.length = F.outs.length by rw [hv.length, hol]), hnw⟩
    simp only [Func.sig] at hroom
    refine ⟨w.circs.length, withOutputs c' gs, _, hst1, ?_, ?_, hget, hin, ?_, ?_, evaluable_apart hb' (hpw hF.order), ?_⟩
    · simp [Storage.register]
    · intro d hd
      have hks : Keeps (· ≠ w.circs.length) w1 (w1.setC w.circs.length (withOutputs c' gs)) := keeps_setC _
      refine .mk (fun e => by omega) hget ?_ ?_
      · intro g nIn nOut ids oi mid hg
        obtain ⟨mr, mc, h1, _⟩ := hb'.calls g nIn nOut ids oi mid hg
        exact ⟨mr, hks.module? h1⟩
      · rintro q ⟨g, nIn, nOut, ids, oi, mid, hg, hm⟩
        obtain ⟨mr, mc, h1, h2, h3, _⟩ := hb'.calls g nIn nOut ids oi mid hg
        have := hks.module? h1
        rw [show (w1.setC w.circs.length (withOutputs c' gs)).module? c' mid = some q from hm] at this; cases this
        exact (h3 d hd).keeps hks (not_called_closed hbase) h2.ne
    · show gs.length = _
      rw [hv.length, hol]; rfl
    · show F.arity + F.outs.length ≤ c'.numWire
      omega
    · intro ins hl
      obtain ⟨ys, h1, h2⟩ := hall ⟨ins, hl⟩
      have := made_outputs rfl hl h2
      simp only at h1
      show Outputs _ _ _ ((F.run fns ins).getD [])
      rw [h1]; exact this

theorem Modu.after {w w' : World} {N : Nat} {st : StoreRef} {m : ModuleId} {σ : Sig} {f : List Bool → List Bool}
    (hm : Modu w (· < N) (· < N) st m σ f) (ha : After w w') : Modu w' (· < N) (· < N) st m σ f := by
  refine ⟨fun h => ha.modOk (hm.good h), ?_⟩
  obtain ⟨mr, mc, st1, m1, m2, m3, m4, m5⟩ := hm.size
  obtain ⟨st2, k1, k2⟩ := ha.keeps.stores _ _ m1
  exact ⟨mr, mc, st2, k1, k2 _ _ m2, m3, ha.keeps.circ _ _ trivial m4, m5⟩

theorem define_cons (r : Ref) (F : Func) (lib : List Func) (mods : List ModuleId) : define r (F :: lib) mods =
    (subCircuit r >>= fun x => F.build x.2 mods >>= fun _ => (pure x.1 : M ModuleId)) >>= fun m => define r lib (mods ++ [m]) := by
  simp only [define]
  funext w
  simp only [M.bind_apply]
  rcases subCircuit r w with ⟨a | ⟨m, s⟩, w'⟩
  · rfl
  · simp only
    rcases Func.build s mods F w' with ⟨b | b, w''⟩ <;> rfl

theorem define_panics {r : Ref} {N : Nat} {c0 : Circuit} : ∀ (lib : List Func) {w : World} (mods : List ModuleId) (sigs : List Sig)
    (fns : List Fn), WFw w → w.circs[r]? = some c0 → N ≤ w.circs.length → Lib (Modu w (· < N) (· < N) c0.storage) mods sigs fns →
    LibOk sigs lib → ¬ LibRoom sigs lib → (define r lib mods w).1 = .error (.panic .underflow)
  | [], w, mods, sigs, fns, hw, hr, hN, hlib, hok, hroom => (hroom trivial).elim
  | F :: lib, w, mods, sigs, fns, hw, hr, hN, hlib, hok, hroom => by
    by_cases hF : ∀ l ∈ F.body, l.Room sigs
    · obtain ⟨mid, w1, e, ha, h1, h2⟩ := def1_ok hw hr hN hlib hok.1 hF
      have hlib1 := (hlib.mono fun _ _ _ hm => hm.after ha).push (m := mid) (σ := F.sig sigs) (fn := F.run fns) h1 h2
      rw [define_cons, bind_ok e]
      exact define_panics lib (mods ++ [mid]) (sigs ++ [F.sig sigs]) (fns ++ [F.run fns]) ha.wf
        (ha.keeps.circ _ _ trivial hr) (Nat.le_trans hN ha.length) hlib1 hok.2 fun h => hroom ⟨hF, h⟩
    · exact def1_panics hw hr hlib hok.1 hF lib

theorem define_ok {r : Ref} {N : Nat} {c0 : Circuit} : ∀ (lib : List Func) {w : World} (mods : List ModuleId) (sigs : List Sig)
    (fns : List Fn), WFw w → w.circs[r]? = some c0 → N ≤ w.circs.length → Lib (Modu w (· < N) (· < N) c0.storage) mods sigs fns → LibOk sigs lib →
    LibRoom sigs lib → ∃ mods' w', define r lib mods w = (.ok mods', w') ∧ After w w' ∧
      Lib (Modu w' (· < N) (· < N) c0.storage) mods' (signatures lib sigs) (meaning lib fns)
  | [], w, mods, sigs, fns, hw, hr, hN, hlib, hok, hroom =>
    ⟨mods, w, rfl, ⟨hw, Keeps.refl _ _, fun _ st' _ _ h1 h2 _ => ⟨st', h1, h2⟩, id⟩, hlib⟩
  | F :: lib, w, mods, sigs, fns, hw, hr, hN, hlib, hok, hroom => by
    obtain ⟨mid, w1, e, ha, h1, h2⟩ := def1_ok hw hr hN hlib hok.1 hroom.1
    have hlib1 := (hlib.mono fun _ _ _ hm => hm.after ha).push (m := mid) (σ := F.sig sigs) (fn := F.run fns) h1 h2
    obtain ⟨mods', w', e2, ha2, h3⟩ := define_ok lib (mods ++ [mid]) (sigs ++ [F.sig sigs]) (fns ++ [F.run fns]) ha.wf
      (ha.keeps.circ _ _ trivial hr) (Nat.le_trans hN ha.length) hlib1 hok.2 hroom.2
    refine ⟨mods', w', ?_, ha.trans ha2, h3⟩
    rw [define_cons, bind_ok e]; exact e2

theorem Modu.main {w : World} {s : Ref} {K : Ctx} {m : ModuleId} {σ : Sig} {f : List Bool → List Bool}
    (hm : Modu w (· < s + 1) (· < s + 1) K.st m σ f) (hcall : Callable w s K) : Here w s K m σ f := by
  refine ⟨fun h => hcall _ _ _ _ (hm.good h), ?_⟩
  obtain ⟨mr, mc, st1, m1, m2, m3, m4, m5⟩ := hm.size
  exact ⟨mr, mc, st1, m1, m2, fun e => m3 (by omega), m4, m5⟩

/-- a program with a call that has no room panics -/
theorem program_panics {w : World} (hw : Reachable w) {st : StoreRef} (hst : st < w.stores.length) {lib : List Func} {main : Func}
    (hlib : LibOk [] lib) (hmain : main.Fine (signatures lib [])) (hroom : ¬ Roomy lib main) :
    (Functions.compile st lib main w).1 = .error (.panic .underflow) := by
  have hnil : ∀ {P}, Lib P [] [] [] := ⟨rfl, rfl, fun i σ m fn h => by simp at h⟩
  by_cases h1 : LibRoom [] lib
  · have hmk : Configures (fun r => define r lib []) fun w N st _ mods =>
        Lib (Modu w (· < N) (· < N) st) mods (signatures lib []) (meaning lib []) := by
      intro w r c0 N hwf hr hN
      exact define_ok lib [] [] [] hwf hr hN hnil hlib h1
    obtain ⟨mods, w1, s, K, e, hs, hK, hc1, hb, hok, hcall, hval⟩ := start_any (mk := fun r => define r lib [])
      (Ok := fun w N st _ mods => Lib (Modu w (· < N) (· < N) st) mods (signatures lib []) (meaning lib [])) hmk hw hst
    rw [← hK] at hok
    have := func_panics hb ⟨rfl, rfl, rfl⟩ (hok.mono fun _ _ _ hm => hm.main hcall) hmain fun h => hroom ⟨h1, h⟩
    rw [setC_self hc1] at this
    have e1 := newCircuit_ok hst
    unfold Functions.compile
    rw [bind_ok e1] at e ⊢
    rw [bind_ok e, ← hs, M.bind_apply]
    generalize main.build s mods w1 = y at this
    obtain ⟨a, w'⟩ := y
    simp only at this
    subst this; rfl
  · have e1 := newCircuit_ok hst
    have hr1 : Reachable { w with circs := w.circs ++ [Circuit.new st] } := by
      have := plays_newCircuit st w
      rw [e1] at this
      exact later_reachable hw this
    have := define_panics (r := w.circs.length) (N := 0) (c0 := Circuit.new st) lib
      (w := { w with circs := w.circs ++ [Circuit.new st] }) [] [] [] (WFw.of_reachable hr1) (by simp) (Nat.zero_le _) hnil hlib h1
    unfold Functions.compile
    rw [bind_ok e1, M.bind_apply]
    generalize define w.circs.length lib [] _ = y at this
    obtain ⟨a, w'⟩ := y
    simp only at this
    subst this; rfl

/-- also says about the main circuit what is known of every circuit in which the main function was built -/
theorem program_with {w : World} (hw : Reachable w) {st : StoreRef} (hst : st < w.stores.length) {lib : List Func} {main : Func}
    (hlib : LibOk [] lib) (hmain : main.Fine (signatures lib [])) (hroom : Roomy lib main) {P : Circuit → Prop}
    (hP : ∀ {w s K c mods}, Bld w s K c → Empty c → Lib (Here w s K) mods (signatures lib []) (meaning lib []) →
      RunsC w s (main.build s mods) c fun _ c2 => P c2) :
    ∃ r w', Functions.compile st lib main w = (.ok r, w') ∧ (ValidRun w → ValidRun w') ∧ (∃ c, w'.circs[r]? = some c ∧ P c ∧ c.inputLen = main.arity ∧
      c.outputLen = main.outs.length ∧ c.numWire = main.arity + wires (signatures lib []) main.body) ∧
      (∀ ins : List Bool, ins.length = main.arity →
        ∃ outs, main.run (meaning lib []) ins = some outs ∧ outs.length = main.outs.length ∧ Outputs w' r ins outs) ∧
      (main.Ordered (signatures lib []) → ∃ F, ∀ fuel ≥ F, ∀ ins : List Bool, ins.length = main.arity →
        ∃ outs, main.run (meaning lib []) ins = some outs ∧ outs.length = main.outs.length ∧ evalOutput w' fuel r ins = .ok outs) := by
  have hmk : Configures (fun r => define r lib []) fun w N st _ mods => Lib (Modu w (· < N) (· < N) st) mods (signatures lib []) (meaning lib []) := by
    intro w r c0 N hwf hr hN
    exact define_ok lib [] [] [] hwf hr hN ⟨rfl, rfl, fun i σ m fn h => by simp at h⟩ hlib hroom.1
  have hbody : ∀ {w s K c mods}, Bld w s K c → c.outputLen = 0 → c.inputLen = 0 → c.gateIndex = 0 →
      Lib (Modu w (· < s + 1) (· < s + 1) K.st) mods (signatures lib []) (meaning lib []) → Callable w s K →
      ∀ ins : List Bool, ins.length = main.arity → RunsC w s (main.build s mods >>= fun _ => (pure s : M Ref)) c fun a c2 => a = s ∧ P c2 ∧
        ∃ outs, main.run (meaning lib []) ins = some outs ∧ Made w s K c (signatures lib []) main ins outs c2 := by
    intro w s K c mods hb h0 hi hg hl hcall ins hins
    have hl' := hl.mono fun _ _ _ hm => hm.main hcall
    refine RunsC.seq (RunsC.both hb.lt (func_ok (ins := ins) hb ⟨hi, h0, hg⟩ hl' hmain hroom.2 hins) (hP hb ⟨hi, h0, hg⟩ hl')) ?_
    rintro _ c2 ⟨h, hp⟩
    exact RunsC.pure ⟨rfl, hp, h⟩
  obtain ⟨mods, w1, s, K, e, hs, hK, hc1, hb, hok, hcall, hval⟩ := start_any (mk := fun r => define r lib [])
    (Ok := fun w N st _ mods => Lib (Modu w (· < N) (· < N) st) mods (signatures lib []) (meaning lib [])) hmk hw hst
  rw [← hK] at hok
  let X := { xs : List Bool // xs.length = main.arity }
  have hX : Inhabited X := ⟨⟨List.replicate main.arity false, by simp⟩⟩
  obtain ⟨a, c2, hx, hall⟩ := RunsC.forall hb.lt fun ins : X => hbody (mods := mods) hb rfl rfl rfl hok hcall ins.1 ins.2
  rw [setC_self hc1] at hx
  obtain ⟨rfl, hPc, _, _, c', gs, rfl, hstep, hin, hpw, hv, hol, hnw⟩ := hall default
  have hrun : Functions.compile st lib main w = (.ok a, w1.setC a (withOutputs c' gs)) := by
    have e1 := newCircuit_ok hst
    unfold Functions.compile
    rw [bind_ok e1] at e ⊢
    rw [bind_ok e, ← hs]; exact hx
  have hreach := (plays_compile st lib main).reachable hw hrun
  have hget : (w1.setC a (withOutputs c' gs)).circs[a]? = some (withOutputs c' gs) := get_of_lt hb.lt _
  have hout : ∀ ins : List Bool, ins.length = main.arity → ∃ outs, main.run (meaning lib []) ins = some outs ∧
      outs.length = main.outs.length ∧ Outputs (w1.setC a (withOutputs c' gs)) a ins outs := by
    intro ins hins
    obtain ⟨_, _, outs, q1, q2⟩ := hall ⟨ins, hins⟩
    have hout := made_outputs rfl hins q2
    obtain ⟨_, _, _, _, _, _, _, q3, _⟩ := q2
    exact ⟨outs, q1, q3, hout⟩
  refine ⟨a, _, hrun, fun h => valid_outputs hstep.bld hstep.outputLen (hval h) gs fun g hg => ?_,
    ⟨_, hget, hPc, hin, (show gs.length = _ by rw [hv.length, hol]), ?_⟩, hout, fun hord => ?_⟩
  · obtain ⟨b, hgb⟩ := hv.left hg
    exact hgb.lt hstep.bld
  · show c'.numWire = _
    rw [hnw]; show 0 + _ + _ = _; omega
  obtain ⟨F, hF⟩ := Props.C11_local_partial hreach hget (evaluable_apart hstep.bld (hpw hord))
  refine ⟨F, fun fuel hf ins hins => ?_⟩
  obtain ⟨os, e1, e2⟩ := hF fuel hf ins (by rw [hins]; exact hin.symm)
  obtain ⟨outs, q1, q2, q3⟩ := hout ins hins
  exact ⟨outs, q1, q2, by rw [e1, e2.det q3]⟩

theorem program_ok {w : World} (hw : Reachable w) {st : StoreRef} (hst : st < w.stores.length) {lib : List Func} {main : Func}
    (hlib : LibOk [] lib) (hmain : main.Fine (signatures lib [])) (hroom : Roomy lib main) :
    ∃ r w', Functions.compile st lib main w = (.ok r, w') ∧ (ValidRun w → ValidRun w') ∧ (∃ c, w'.circs[r]? = some c ∧ c.inputLen = main.arity ∧
      c.outputLen = main.outs.length ∧ c.numWire = main.arity + wires (signatures lib []) main.body) ∧
      (∀ ins : List Bool, ins.length = main.arity →
        ∃ outs, main.run (meaning lib []) ins = some outs ∧ outs.length = main.outs.length ∧ Outputs w' r ins outs) ∧
      (main.Ordered (signatures lib []) → ∃ F, ∀ fuel ≥ F, ∀ ins : List Bool, ins.length = main.arity →
        ∃ outs, main.run (meaning lib []) ins = some outs ∧ outs.length = main.outs.length ∧ evalOutput w' fuel r ins = .ok outs) := by
  obtain ⟨r, w', h1, h2, ⟨c, hc, _, h3⟩, h4⟩ := program_with hw hst hlib hmain hroom (P := fun _ => True) fun hb he hl =>
    (func_ok (ins := List.replicate main.arity false) hb he hl hmain hroom.2 (by simp)).mono fun _ _ _ => trivial
  exact ⟨r, w', h1, h2, ⟨c, hc, h3⟩, h4⟩

end CC.Funs
