import Verif.Proofs.AIntC
import Verif.Proofs.EvalSound
import Verif.Spec.Program

/-!
# Straight-line programs over `AllocInt`
-/

namespace CC
open Spec Logic Arith

section
variable {w : World} {s : Ref} {K : Ctx} {c : Circuit} {ins : List Bool} {n : Nat}

/-- the value a statement gives, and the inputs that remain -/
def Gets (st : Stmt) (xs : List (BitVec n)) (vals : List (BitVec n)) (v : BitVec n) (xs' : List (BitVec n)) : Prop :=
  (st = .input ∧ xs = v :: xs') ∨ (st ≠ .input ∧ st.value vals = some v ∧ xs' = xs)

theorem Gets.exec {st : Stmt} {xs vals xs' : List (BitVec n)} {v} (h : Gets st xs vals v xs') (p : List Stmt) :
    exec (st :: p) xs vals = exec p xs' (vals ++ [v]) := by
  rcases h with ⟨rfl, rfl⟩ | ⟨h1, h2, rfl⟩
  · rfl
  · cases st <;> first
      | exact absurd rfl h1
      | (simp only [Spec.exec]; rw [h2]; rfl)

/-- how the gates of a new value relate to older gates -/
def NewTag (c c' : Circuit) (env : List AInt) (st : Stmt) (gs : List GateId) : Prop :=
  match st with
  | .shl i _ | .shr i _ => ∀ x L src, env[i]? = some x → Tidy c L src x.val → Tidy c' L src gs
  | _ => ∃ L, c.gateIndex ≤ L ∧ Tidy c' L st.source gs

theorem stmt_ok (hb : Bld w s K c) (h0 : c.outputLen = 0) (hn : 1 ≤ n) {cfg : IntConfig}
    (hi : IntD w (fun d => d < K.out ∨ d = s) K.st n cfg) (hcr : cfg.cref = s) {env : List AInt} {vals xs : List (BitVec n)}
    (henv : All2 (fun x v => IVal w s ins c x cfg v) env vals) {st : Stmt} (huse : ∀ i ∈ st.uses, i < env.length)
    (hfit : st.Fits n) (hin : ins.drop c.inputLen = xs.flatMap bvBits) (hil : c.inputLen ≤ ins.length)
    (hxs : st = .input → xs ≠ []) :
    RunsC w s (st.build cfg n env) c fun x c' => Step w s K c c' ∧ ∃ v xs', Gets st xs vals v xs' ∧
      IVal w s ins c' x cfg v ∧ ins.drop c'.inputLen = xs'.flatMap bvBits ∧ c'.inputLen ≤ ins.length ∧
      NewTag c c' env st x.val := by
  cases st with
  | input =>
    obtain ⟨v, xs', rfl⟩ : ∃ v xs', xs = v :: xs' := by
      cases xs with
      | nil => exact absurd rfl (hxs rfl)
      | cons v xs' => exact ⟨v, xs', rfl⟩
    have hlen := congrArg List.length hin
    simp [List.flatMap_cons] at hlen
    refine (RunsC.newI (ins := ins) hb h0 hcr (by omega)).mono ?_
    rintro x c' ⟨h1, h2, h3, h4⟩
    refine ⟨h1, v, xs', .inl ⟨rfl, rfl⟩, h4 v ?_, ?_, by omega, _, Nat.le_refl _, h3⟩
    · rw [hin]; simp [List.flatMap_cons]
    · rw [h2, ← List.drop_drop, hin]; simp [List.flatMap_cons]
  | const v =>
    obtain ⟨k, hk, hv, hkn⟩ := hfit
    have := (bytesLe_len v k hk).mpr hv
    refine (RunsC.biguint (ins := ins) (n := n) hb hcr (by omega)).mono ?_
    intro x c' h1
    exact ⟨h1.grew.step, _, xs, .inr ⟨by simp, rfl, rfl⟩, h1.val, by rw [h1.grew.inputLen]; exact hin,
      by rw [h1.grew.inputLen]; exact hil, h1.tidy⟩
  | zero =>
    refine (RunsC.zeroI (ins := ins) (n := n) hb hcr).mono ?_
    intro x c' h1
    exact ⟨h1.grew.step, _, xs, .inr ⟨by simp, rfl, rfl⟩, h1.val, by rw [h1.grew.inputLen]; exact hin,
      by rw [h1.grew.inputLen]; exact hil, h1.tidy⟩
  | one =>
    refine (RunsC.oneI (ins := ins) hb hn hcr).mono ?_
    intro x c' h1
    exact ⟨h1.grew.step, _, xs, .inr ⟨by simp, rfl, rfl⟩, h1.val, by rw [h1.grew.inputLen]; exact hin,
      by rw [h1.grew.inputLen]; exact hil, h1.tidy⟩
  | add i j =>
    obtain ⟨x, a, hx, ha, hxa⟩ := henv.get (huse i (by simp [Stmt.uses]))
    obtain ⟨y, b, hy, hb', hyb⟩ := henv.get (huse j (by simp [Stmt.uses]))
    refine RunsC.bind (RunsC.idx hx (RunsC.bind (RunsC.idx hy ?_)))
    refine (RunsC.add hb h0 hi hcr hxa hyb).mono ?_
    rintro z c' ⟨h1, _⟩
    exact ⟨h1.grew.step, _, xs, .inr ⟨by simp, by simp [Stmt.value, ha, hb'], rfl⟩, h1.val,
      by rw [h1.grew.inputLen]; exact hin, by rw [h1.grew.inputLen]; exact hil, h1.tidy⟩
  | sub i j =>
    obtain ⟨x, a, hx, ha, hxa⟩ := henv.get (huse i (by simp [Stmt.uses]))
    obtain ⟨y, b, hy, hb', hyb⟩ := henv.get (huse j (by simp [Stmt.uses]))
    refine RunsC.bind (RunsC.idx hx (RunsC.bind (RunsC.idx hy ?_)))
    refine (RunsC.sub hb h0 hi hcr hxa hyb).mono ?_
    rintro z c' ⟨h1, _⟩
    exact ⟨h1.grew.step, _, xs, .inr ⟨by simp, by simp [Stmt.value, ha, hb'], rfl⟩, h1.val,
      by rw [h1.grew.inputLen]; exact hin, by rw [h1.grew.inputLen]; exact hil, h1.tidy⟩
  | mul i j =>
    obtain ⟨x, a, hx, ha, hxa⟩ := henv.get (huse i (by simp [Stmt.uses]))
    obtain ⟨y, b, hy, hb', hyb⟩ := henv.get (huse j (by simp [Stmt.uses]))
    refine RunsC.bind (RunsC.idx hx (RunsC.bind (RunsC.idx hy ?_)))
    refine (RunsC.mul hb h0 hi hcr hxa hyb).mono ?_
    rintro z c' ⟨h1, _⟩
    exact ⟨h1.grew.step, _, xs, .inr ⟨by simp, by simp [Stmt.value, ha, hb'], rfl⟩, h1.val,
      by rw [h1.grew.inputLen]; exact hin, by rw [h1.grew.inputLen]; exact hil, h1.tidy⟩
  | neg i =>
    obtain ⟨x, a, hx, ha, hxa⟩ := henv.get (huse i (by simp [Stmt.uses]))
    refine RunsC.bind (RunsC.idx hx ?_)
    refine (RunsC.neg hb h0 hi hcr hxa).mono ?_
    rintro z c' ⟨h1, _⟩
    exact ⟨h1.grew.step, _, xs, .inr ⟨by simp, by simp [Stmt.value, ha], rfl⟩, h1.val,
      by rw [h1.grew.inputLen]; exact hin, by rw [h1.grew.inputLen]; exact hil, h1.tidy⟩
  | shl i k =>
    obtain ⟨x, a, hx, ha, hxa⟩ := henv.get (huse i (by simp [Stmt.uses]))
    refine RunsC.bind (RunsC.idx hx ?_)
    refine (RunsC.shl hb hcr hxa hfit).mono ?_
    rintro z c' ⟨h1, h2, h3⟩
    refine ⟨h1.step, _, xs, .inr ⟨by simp, by simp [Stmt.value, ha], rfl⟩, h2,
      by rw [h1.inputLen]; exact hin, by rw [h1.inputLen]; exact hil, ?_⟩
    intro x' L src hx' ht
    rw [hx] at hx'; cases hx'
    exact h3 L src ht
  | shr i k =>
    obtain ⟨x, a, hx, ha, hxa⟩ := henv.get (huse i (by simp [Stmt.uses]))
    refine RunsC.bind (RunsC.idx hx ?_)
    refine (RunsC.shr hn hxa hfit).mono ?_
    rintro z c' ⟨rfl, h2, h3⟩
    refine ⟨hb.refl, _, xs, .inr ⟨by simp, by simp [Stmt.value, ha], rfl⟩, h2, hin, hil, ?_⟩
    intro x' L src hx' ht
    rw [hx] at hx'; cases hx'
    exact h3 L src ht
  | eq i j =>
    obtain ⟨x, a, hx, ha, hxa⟩ := henv.get (huse i (by simp [Stmt.uses]))
    obtain ⟨y, b, hy, hb', hyb⟩ := henv.get (huse j (by simp [Stmt.uses]))
    refine RunsC.bind (RunsC.idx hx (RunsC.bind (RunsC.idx hy ?_)))
    refine RunsC.seq (RunsC.eqI hb h0 hi hcr hxa hyb) ?_
    intro g c1 h1
    refine (RunsC.ofBit h1.grew.step.bld hn hcr h1.v).mono ?_
    rintro z c' ⟨k1, k2, k3⟩
    obtain ⟨L, l1, l2, l3⟩ := h1.tidy
    have hil' : c'.inputLen = c.inputLen := k1.inputLen.trans h1.grew.inputLen
    refine ⟨(h1.grew.trans k1).step, _, xs, .inr ⟨by simp, ?_, rfl⟩, k2,
      by rw [hil']; exact hin, by rw [hil']; exact hil, L, l1, k3 L l2 l3⟩
    simp only [Stmt.value, ha, hb', Option.bind_eq_bind, Option.bind_some, Option.pure_def, Option.some.injEq]
    by_cases hab : a = b
    · simp [hab]
    · simp [hab, beq_eq_false_iff_ne.mpr hab]
  | neq i j =>
    obtain ⟨x, a, hx, ha, hxa⟩ := henv.get (huse i (by simp [Stmt.uses]))
    obtain ⟨y, b, hy, hb', hyb⟩ := henv.get (huse j (by simp [Stmt.uses]))
    refine RunsC.bind (RunsC.idx hx (RunsC.bind (RunsC.idx hy ?_)))
    refine RunsC.seq (RunsC.neqI hb h0 hi hcr hxa hyb) ?_
    intro g c1 h1
    refine (RunsC.ofBit h1.grew.step.bld hn hcr h1.v).mono ?_
    rintro z c' ⟨k1, k2, k3⟩
    obtain ⟨L, l1, l2, l3⟩ := h1.tidy
    have hil' : c'.inputLen = c.inputLen := k1.inputLen.trans h1.grew.inputLen
    refine ⟨(h1.grew.trans k1).step, _, xs, .inr ⟨by simp, ?_, rfl⟩, k2,
      by rw [hil']; exact hin, by rw [hil']; exact hil, L, l1, k3 L l2 l3⟩
    simp only [Stmt.value, ha, hb', Option.bind_eq_bind, Option.bind_some, Option.pure_def, Option.some.injEq]
    by_cases hab : a = b
    · simp [hab]
    · simp [hab, beq_eq_false_iff_ne.mpr hab]

/-- where the gates of a value come from: the statement, the position of its gates, whether it is made of inputs and
constants only -/
structure Tag where
  origin : Nat
  L : Nat
  src : Bool

/-- tags of all values after the statements `done` -/
structure Tags (c : Circuit) (done : List Stmt) (env : List AInt) (tags : List Tag) (os : List Nat) : Prop where
  os : tags.map (·.origin) = os
  len : done.length = env.length
  lt : ∀ t ∈ tags, t.origin < env.length
  src : ∀ t ∈ tags, done[t.origin]?.map (·.source) = some t.src
  tidy : All2 (fun t (x : AInt) => Tidy c t.L t.src x.val) tags env
  mono : ∀ t ∈ tags, ∀ t' ∈ tags, t.origin ≤ t'.origin → t.L ≤ t'.L

theorem Tags.ext {c' : Circuit} {done env tags os} (h : Tags c done env tags os) (hx : ExtC c c') :
    Tags c' done env tags os := { h with tidy := h.tidy.mono fun _ _ ht => ht.ext hx }

theorem Tags.fresh {c' : Circuit} {done env tags os} (h : Tags c done env tags os) (hx : ExtC c c') {st : Stmt}
    (x : AInt) {L : Nat} (hL : c.gateIndex ≤ L) (ht : Tidy c' L st.source x.val) :
    Tags c' (done ++ [st]) (env ++ [x]) (tags ++ [⟨env.length, L, st.source⟩]) (os ++ [os.length]) := by
  have hlen := h.tidy.length
  have hol : os.length = env.length := by rw [← h.os]; simpa using hlen
  have hbound : ∀ t ∈ tags, t.L ≤ c.gateIndex := by
    intro t htm
    obtain ⟨i, hi, e⟩ := List.getElem_of_mem htm
    obtain ⟨t', x', e1, e2, e3⟩ := h.tidy.get (i := i) (by omega)
    rw [List.getElem?_eq_getElem hi, e] at e1
    cases e1
    exact e3.1
  refine ⟨by simp [h.os, hol], by simp [h.len], ?_, ?_, ?_, ?_⟩
  · intro t htm
    simp at htm ⊢
    rcases htm with htm | rfl
    · have := h.lt t htm; omega
    · simp
  · intro t htm
    rcases List.mem_append.mp htm with htm | htm
    · rw [List.getElem?_append_left (by rw [h.len]; exact h.lt t htm)]
      exact h.src t htm
    · simp at htm; subst htm
      simp [← h.len]
  · exact (h.ext hx).tidy.append ⟨ht, trivial⟩
  · intro t htm t' htm' hle
    rcases List.mem_append.mp htm with htm | htm <;> rcases List.mem_append.mp htm' with htm' | htm'
    · exact h.mono t htm t' htm' hle
    · simp at htm'; subst htm'
      exact Nat.le_trans (hbound t htm) hL
    · simp at htm; subst htm
      have := h.lt t' htm'
      simp at hle; omega
    · simp at htm htm'; subst htm; subst htm'; exact Nat.le_refl _

theorem Tags.shift {c' : Circuit} {done env tags os} (h : Tags c done env tags os) (hx : ExtC c c') {st : Stmt}
    (x : AInt) {i : Nat} (hi : i < env.length)
    (ht : ∀ x' L src, env[i]? = some x' → Tidy c L src x'.val → Tidy c' L src x.val) :
    ∃ t, Tags c' (done ++ [st]) (env ++ [x]) (tags ++ [t]) (os ++ [os[i]?.getD 0]) := by
  have hlen := h.tidy.length
  obtain ⟨t, x', e1, e2, e3⟩ := h.tidy.get (i := i) (by omega)
  have htm0 : t ∈ tags := List.mem_of_getElem? e1
  have hos : os[i]? = some t.origin := by rw [← h.os]; simp [e1]
  have hcase : ∀ t', t' ∈ tags ++ [t] → t' ∈ tags := by
    intro t' h'
    rcases List.mem_append.mp h' with h' | h'
    · exact h'
    · simp at h'; subst h'; exact htm0
  refine ⟨t, by simp [h.os, hos], by simp [h.len], ?_, ?_, ?_, ?_⟩
  · intro t' htm
    have := h.lt t' (hcase t' htm)
    simp; omega
  · intro t' htm
    rw [List.getElem?_append_left (by rw [h.len]; exact h.lt t' (hcase t' htm))]
    exact h.src t' (hcase t' htm)
  · exact (h.ext hx).tidy.append ⟨ht x' _ _ e2 e3, trivial⟩
  · intro t1 h1 t2 h2 hle
    exact h.mono t1 (hcase _ h1) t2 (hcase _ h2) hle

/-- a whole list of statements -/
theorem build_ok (hn : 1 ≤ n) {cfg : IntConfig} (hi : IntD w (fun d => d < K.out ∨ d = s) K.st n cfg) (hcr : cfg.cref = s) :
    ∀ (p : List Stmt) {c : Circuit} (done : List Stmt) (env : List AInt) (vals xs : List (BitVec n)) (tags : List Tag)
      (os : List Nat), Bld w s K c → c.outputLen = 0 → All2 (fun x v => IVal w s ins c x cfg v) env vals →
      Tags c done env tags os → Scoped env.length p → (∀ st ∈ p, st.Fits n) →
      ins.drop c.inputLen = xs.flatMap bvBits → c.inputLen ≤ ins.length → xs.length = inputs p →
      RunsC w s (build cfg n p env) c fun env' c' => Step w s K c c' ∧ env'.length = env.length + p.length ∧
        c'.inputLen = ins.length ∧
        (∃ vals', exec p xs vals = some vals' ∧ All2 (fun x v => IVal w s ins c' x cfg v) env' vals') ∧
        ∃ tags', Tags c' (done ++ p) env' tags' (origins p os)
  | [], c, done, env, vals, xs, tags, os, hb, h0, henv, htag, hsc, hfit, hin, hil, hxs => by
    refine RunsC.pure ⟨hb.refl, by simp, ?_, ⟨vals, rfl, henv⟩, tags, by simpa [origins] using htag⟩
    simp [inputs] at hxs
    subst hxs
    have := congrArg List.length hin
    simp at this
    omega
  | st :: p, c, done, env, vals, xs, tags, os, hb, h0, henv, htag, hsc, hfit, hin, hil, hxs => by
    have hxs0 : st = .input → xs ≠ [] := by
      rintro rfl rfl
      simp [inputs] at hxs
    refine RunsC.seq (stmt_ok (ins := ins) hb h0 hn hi hcr henv hsc.1 (hfit st (by simp)) hin hil hxs0) ?_
    rintro x c1 ⟨h1, v, xs', h2, h3, h4, h5, h6⟩
    have henv1 : All2 (fun x v => IVal w s ins c1 x cfg v) (env ++ [x]) (vals ++ [v]) :=
      (henv.mono fun _ _ hx => hx.step hb h1).append ⟨h3, trivial⟩
    have hxs1 : xs'.length = inputs p := by
      rcases h2 with ⟨rfl, rfl⟩ | ⟨h2, _, rfl⟩
      · simpa [inputs] using hxs
      · cases st <;> first
          | exact absurd rfl h2
          | simpa [inputs] using hxs
    obtain ⟨tags1, os1, ht1, ho1⟩ : ∃ tags1 os1, Tags c1 (done ++ [st]) (env ++ [x]) tags1 os1 ∧
        origins (st :: p) os = origins p os1 := by
      cases st <;> first
        | (obtain ⟨L, l1, l2⟩ := h6; exact ⟨_, _, htag.fresh h1.ext x l1 l2, rfl⟩)
        | (obtain ⟨t, ht⟩ := htag.shift (st := _) h1.ext x (hsc.1 _ (by simp [Stmt.uses])) h6
           exact ⟨_, _, ht, rfl⟩)
    refine (build_ok hn hi hcr p (done ++ [st]) (env ++ [x]) (vals ++ [v]) xs' tags1 os1 h1.bld
      (h1.outputLen.trans h0) henv1 ht1 (by simpa using hsc.2) (fun q hq => hfit q (by simp [hq])) h4 h5 hxs1).mono ?_
    rintro env' c' ⟨k1, k2, k3, ⟨vals', k4, k5⟩, tags', k6⟩
    refine ⟨h1.trans k1, by rw [k2]; simp; omega, k3, ⟨vals', by rw [h2.exec]; exact k4, k5⟩, tags', ?_⟩
    rw [ho1]
    simpa using k6

/-! ### declaring the outputs -/

/-- `c` with these outputs -/
def withOutputs (c : Circuit) (gs : List GateId) : Circuit :=
  { c with outputMap := fun i => gs[i]?, outputLen := gs.length }

theorem withOutputs_nil (hwf : WFc c) (h0 : c.outputLen = 0) : withOutputs c [] = c := by
  unfold withOutputs
  have : (fun i : Nat => ([] : List GateId)[i]?) = c.outputMap := by
    funext i
    have := (hwf.output_dom i).not.mpr (by omega : ¬ i < c.outputLen)
    simp
    cases h : c.outputMap i with
    | none => rfl
    | some _ => simp [h] at this
  rw [this]
  simp [← h0]

theorem RunsC.output1 (hlt : s < w.circs.length) (gs : List GateId) {g : GateId} {gate : Gate} (hg : c.gateMap g = some gate) :
    RunsC w s (CC.output s g) (withOutputs c gs) fun _ c' => c' = withOutputs c (gs ++ [g]) := by
  have he := output_eq_ok (get_of_lt hlt (withOutputs c gs)) (g := g) (gate := gate) hg
  rw [setC_setC] at he
  refine ⟨_, _, he, ?_⟩
  unfold withOutputs
  simp only [List.length_append, List.length_cons, List.length_nil]
  congr 1
  funext i
  simp only [Map.insert_apply]
  by_cases hi : i = gs.length
  · subst hi; simp
  · rw [if_neg hi]
    by_cases hlt : i < gs.length
    · rw [List.getElem?_append_left hlt]
    · rw [List.getElem?_eq_none (by omega), List.getElem?_eq_none (by simp; omega)]

/-- declaring outputs is valid -/
theorem valid_more (hb : Bld w s K c) : ∀ (gs done : List GateId), ValidRun (w.setC s (withOutputs c done)) →
    (∀ g ∈ gs, g < c.gateIndex) → ValidRun (w.setC s (withOutputs c (done ++ gs)))
  | [], done, hv, _ => by rw [List.append_nil]; exact hv
  | g :: gs, done, hv, h => by
    obtain ⟨gate, hg⟩ := hb.wfc.some_of_lt (h g (by simp))
    obtain ⟨_, c', he, rfl⟩ := RunsC.output1 (w := w) (s := s) hb.lt done hg
    have h1 : ValidRun (w.setC s (withOutputs c (done ++ [g]))) := by
      refine Bld.op (.output s g) ?_ ((map_world _ _ _).trans (congrArg Prod.snd he)) hv
      rintro ⟨q, cq, hq, g', nIn, nOut, ids, oi, mid, hgq, hm⟩
      refine hb.notCalled ?_
      by_cases hqs : q = s
      · subst hqs
        rw [get_of_lt hb.lt] at hq; cases hq
        exact ⟨q, c, hb.get, g', nIn, nOut, ids, oi, mid, hgq, hm⟩
      · rw [setC_get_ne _ hqs] at hq
        exact ⟨q, cq, by rw [setC_get_ne _ hqs]; exact hq, g', nIn, nOut, ids, oi, mid, hgq, hm⟩
    have := valid_more hb gs (done ++ [g]) h1 fun x hx => h x (by simp [hx])
    simpa using this

theorem valid_outputs (hb : Bld w s K c) (h0 : c.outputLen = 0) (hv : ValidRun w) (gs : List GateId)
    (h : ∀ g ∈ gs, g < c.gateIndex) : ValidRun (w.setC s (withOutputs c gs)) :=
  valid_more hb gs [] (by rw [withOutputs_nil hb.wfc h0]; exact hb.valid hv) h

theorem RunsC.outputI (hlt : s < w.circs.length) (hcr : cfg.cref = s) (gs : List GateId) {x : AInt}
    (hx : x.config = cfg) (hl : x.val.length = n) (hg : ∀ g ∈ x.val, ∃ gate, c.gateMap g = some gate) :
    RunsC w s (x.output n) (withOutputs c gs) fun _ c' => c' = withOutputs c (gs ++ x.val) := by
  unfold AInt.output
  rw [hx, hcr]
  refine RunsC.seq (RunsC.mapRange (I := fun acc c' => c' = withOutputs c (gs ++ x.val.take acc.length)) n (by simp) ?_) ?_
  · rintro i acc c1 hi hacc rfl
    have hget : x.val[i]? = some (x.val[i]'(by omega)) := List.getElem?_eq_getElem _
    refine RunsC.bind (RunsC.idx hget ?_)
    obtain ⟨gate, hgate⟩ := hg _ (List.mem_of_getElem? hget)
    refine (RunsC.output1 hlt (gs ++ x.val.take acc.length) hgate).mono ?_
    rintro _ c' rfl
    rw [List.append_assoc, hacc, List.length_append, hacc]
    simp only [List.length_cons, List.length_nil]
    rw [List.take_add_one, hget]
    rfl
  · rintro ys c1 ⟨rfl, hys⟩
    refine RunsC.pure ?_
    rw [hys, List.take_of_length_le (by omega)]

theorem RunsC.outputAll (hlt : s < w.circs.length) (hcr : cfg.cref = s) (env : List AInt)
    (henv : ∀ x ∈ env, x.config = cfg ∧ x.val.length = n ∧ ∀ g ∈ x.val, ∃ gate, c.gateMap g = some gate) :
    ∀ (outs : List Nat) (gs : List GateId), (∀ i ∈ outs, i < env.length) →
    RunsC w s (M.mapList (fun i => do let z ← M.idx env i; z.output n) outs) (withOutputs c gs) fun _ c' =>
      c' = withOutputs c (gs ++ outs.flatMap fun i => (env[i]?.map (·.val)).getD [])
  | [], gs, _ => RunsC.pure (by simp)
  | i :: outs, gs, h => by
    have hget : env[i]? = some (env[i]'(h i (by simp))) := List.getElem?_eq_getElem _
    obtain ⟨h1, h2, h3⟩ := henv _ (List.mem_of_getElem? hget)
    refine RunsC.seq (RunsC.bind (RunsC.idx hget (RunsC.outputI hlt hcr gs h1 h2 h3))) ?_
    rintro _ c1 rfl
    refine RunsC.seq (RunsC.outputAll hlt hcr env henv outs (gs ++ (env[i]'(h i (by simp))).val)
      (fun j hj => h j (by simp [hj]))) ?_
    rintro _ c2 rfl
    refine RunsC.pure ?_
    rw [List.flatMap_cons, hget]
    simp

/-- `p` can be output before `o` -/
def Before (c : Circuit) (p o : GateId) : Prop :=
  ∃ L src gs L' src' gs', Tidy c L src gs ∧ Tidy c L' src' gs' ∧ (src = true ∨ L ≤ L') ∧ p ∈ gs ∧ o ∈ gs'

theorem evaluable_outputs (hb : Bld w s K c) {gs : List GateId}
    (hgs : ∀ i o, gs[i]? = some o → Readable (withOutputs c gs) i o) : Evaluable (w.setC s (withOutputs c gs)) s := by
  have hso : SameOn (· ≠ s) w (w.setC s (withOutputs c gs)) := sameOn_setC _ hb.base
  refine .mk (get_of_lt hb.lt _) hb.topo (fun i o ho => hgs i o ho) ?_ ?_
  · intro g nIn nOut ids oi mid hg
    obtain ⟨mr, mc, h1, h2, _, h3, h4, h5, h6, _⟩ := hb.calls g nIn nOut ids oi mid hg
    exact ⟨mr, mc, hso.mods _ _ _ h1, hso.circ _ _ h2.ne h3, h4, h5, h6⟩
  · rintro mr ⟨g, nIn, nOut, ids, oi, mid, hg, hm⟩
    obtain ⟨mr', mc, h1, h2, _, h3, _, _, _, h7⟩ := hb.calls g nIn nOut ids oi mid hg
    have := hso.mods _ _ _ h1
    rw [show (w.setC s (withOutputs c gs)).module? c mid = some mr from hm] at this; cases this
    exact h7.transfer hso h2.ne

theorem evaluable_withOutputs (hb : Bld w s K c) {gs : List GateId} (hgs : gs.Pairwise (Before c)) :
    Evaluable (w.setC s (withOutputs c gs)) s := by
  refine evaluable_outputs hb ?_
  intro i o ho
  by_cases hu : ∀ g gate, c.gateMap g = some gate → o ∉ gate.operands
  · exact .inl hu
  · simp only [not_forall, not_not] at hu
    obtain ⟨g, gate, hg, hm⟩ := hu
    refine .inr ⟨g, gate, hg, hm, .inl fun j p hj hp hr => ?_⟩
    have ho : gs[i]? = some o := ho
    have hp : gs[j]? = some p := hp
    have hreach : ∀ x, Reach (withOutputs c gs) p x → Reach c p x := by
      intro x hx
      induction hx with
      | refl => exact .refl
      | operand _ h1 h2 ih => exact .operand ih h1 h2
      | sibling _ h1 h2 ih => exact .sibling ih h1 h2
    obtain ⟨hi', e1⟩ := List.getElem?_eq_some_iff.mp ho
    obtain ⟨hj', e2⟩ := List.getElem?_eq_some_iff.mp hp
    have := (List.pairwise_iff_getElem.mp hgs) j i hj' hi' hj
    rw [e1, e2] at this
    obtain ⟨L, src, g1, L', src', g2, t1, t2, t3, t4, t5⟩ := this
    exact t1.unread hb.wfc hb.topo t2 t3 t4 t5 (hreach g hr) hg hm

theorem ext_withOutputs (c : Circuit) (gs : List GateId) (hwf : WFc c) (h0 : c.outputLen = 0) : ExtC c (withOutputs c gs) := by
  refine ⟨rfl, fun _ _ h => h, fun _ _ h => h, ?_, Nat.le_refl _, Nat.le_refl _, by rw [h0]; exact Nat.zero_le _,
    List.prefix_rfl⟩
  intro k g hk
  have := (hwf.output_dom k).mp (by simp [hk])
  omega

end

theorem newCircuit_ok {w : World} {st : StoreRef} (hst : st < w.stores.length) :
    newCircuit st w = (.ok w.circs.length, { w with circs := w.circs ++ [Circuit.new st] }) := by
  unfold newCircuit
  rw [List.getElem?_eq_getElem hst]

theorem ValidRun.newCircuit {w : World} {st : StoreRef} (hst : st < w.stores.length) (h : ValidRun w) :
    ValidRun { w with circs := w.circs ++ [Circuit.new st] } := by
  have h1 := ValidRun.step (.newCircuit st) h trivial
  have e : (Op.call (.newCircuit st) w).2 = { w with circs := w.circs ++ [Circuit.new st] } := by
    refine (map_world (CC.newCircuit st) Ret.circuit w).trans ?_
    rw [newCircuit_ok hst]
  rw [← e]; exact h1

/-- a new circuit with a new configuration is ready for building -/
theorem start_ok {w : World} (hw : Reachable w) {st : StoreRef} (hst : st < w.stores.length) {n : Nat} (hn : 1 ≤ n) :
    ∃ cfg w1 s K, (newCircuit st >>= fun r => IntConfig.new r n) w = (.ok cfg, w1) ∧ s = w.circs.length ∧ K.st = st ∧
      cfg.cref = s ∧ w1.circs[s]? = some (Circuit.new st) ∧
      Bld w1 s K (Circuit.new st) ∧ IntD w1 (fun d => d < K.out ∨ d = s) K.st n cfg ∧ (ValidRun w → ValidRun w1) := by
  have h1 := newCircuit_ok hst
  have hr1 : Reachable { w with circs := w.circs ++ [Circuit.new st] } := by
    have : Later w (Op.call (.newCircuit st) w).2 := .step _ (.refl w)
    have e : (Op.call (.newCircuit st) w).2 = { w with circs := w.circs ++ [Circuit.new st] } := by
      show ((newCircuit st >>= fun r => pure (Ret.circuit r)) w).2 = _
      rw [bind_ok h1]; rfl
    rw [e] at this
    exact later_reachable hw this
  have hc0 : ({ w with circs := w.circs ++ [Circuit.new st] } : World).circs[w.circs.length]? = some (Circuit.new st) := by
    simp
  obtain ⟨cfg, w1, e, ha, hcr, hok⟩ := intConfig_ok (N := w.circs.length + 1) (WFw.of_reachable hr1) hc0 (by simp) hn
  have hg := ha.keeps.circ _ _ trivial hc0
  have hbase : ¬ Called w1 w.circs.length := by
    rintro ⟨q, c, hq, g, nIn, nOut, ids, oi, mid, hg, hm⟩
    unfold World.module? at hm
    cases hs : w1.stores[c.storage]? with
    | none => rw [hs] at hm; cases hm
    | some st' =>
      rw [hs] at hm
      obtain ⟨st2, h3, h4⟩ := ha.reg _ _ _ _ hs hm (by simp)
      have := (WFw.of_reachable hw).mods_ref _ _ h3 _ _ h4
      omega
  refine ⟨cfg, w1, w.circs.length, ⟨st, 0⟩, by rw [bind_ok h1]; exact e, rfl, rfl, hcr, hg, ?_, ?_,
    fun h => ha.valid (ValidRun.newCircuit hst h)⟩
  · refine ⟨lt_of_getElem? hg, hbase, rfl, by rw [setC_self hg]; exact ha.wf, ?_, ?_, ?_, ?_, by simp [Circuit.new],
      fun h => by rw [setC_self hg]; exact h⟩
    · intro g gate hg; simp [Circuit.new, Map.empty] at hg
    · intro g _ _ _ _ _ hg; simp [Circuit.new, Map.empty] at hg
    · intro i o ho; simp [Circuit.new, Map.empty] at ho
    · intro i o ho; simp [Circuit.new, Map.empty] at ho
  · refine hok.toD fun mid nIn nOut f hm => ?_
    obtain ⟨mr, mc, stor, q1, q2, q3, q4⟩ := hm
    exact ⟨mr, mc, stor, q1, q2, fun d hd => q3 d (by
      show d < _ + 1
      rcases hd with hd | hd
      · exact absurd hd (Nat.not_lt_zero _)
      · rw [hd]; exact Nat.lt_succ_self _), q4⟩

theorem pairwise_outs {c : Circuit} {p : List Stmt} {env : List AInt} {tags : List Tag}
    (ht : Tags c p env tags (origins p [])) {outs : List Nat} (hord : Ordered p outs) :
    (outs.flatMap fun i => (env[i]?.map (·.val)).getD []).Pairwise (Before c) := by
  have hget : ∀ (i : Nat) (x : AInt), env[i]? = some x → ∃ t, tags[i]? = some t ∧ t ∈ tags ∧ Tidy c t.L t.src x.val := by
    intro i x hx
    obtain ⟨t, x', e1, e2, e3⟩ := ht.tidy.get (i := i) (by rw [ht.tidy.length]; exact lt_of_getElem? hx)
    rw [hx] at e2; cases e2
    exact ⟨t, e1, List.mem_of_getElem? e1, e3⟩
  have hmem : ∀ (i : Nat) (g : GateId), g ∈ (env[i]?.map (·.val)).getD [] → ∃ x, env[i]? = some x ∧ g ∈ x.val := by
    intro i g hg
    cases h : env[i]? with
    | none => simp [h] at hg
    | some x => exact ⟨x, rfl, by simpa [h] using hg⟩
  rw [List.pairwise_flatMap]
  constructor
  · intro i hi
    refine List.pairwise_iff_forall_sublist.mpr fun {a b} hab => ?_
    have ha := hab.subset (List.mem_cons_self ..)
    have hb := hab.subset (List.mem_cons_of_mem _ (List.mem_cons_self ..))
    obtain ⟨x, hx, hax⟩ := hmem i a ha
    obtain ⟨x', hx', hbx⟩ := hmem i b hb
    rw [hx] at hx'; cases hx'
    obtain ⟨t, _, _, htd⟩ := hget i x hx
    exact ⟨_, _, _, _, _, _, htd, htd, .inr (Nat.le_refl _), hax, hbx⟩
  · refine hord.imp ?_
    intro i j hij a ha b hb
    obtain ⟨x, hx, hax⟩ := hmem i a ha
    obtain ⟨y, hy, hby⟩ := hmem j b hb
    obtain ⟨t, e1, m1, h1⟩ := hget i x hx
    obtain ⟨t', e2, m2, h2⟩ := hget j y hy
    refine ⟨_, _, _, _, _, _, h1, h2, ?_, hax, hby⟩
    have := hij t.origin t'.origin (by rw [← ht.os]; simp [e1]) (by rw [← ht.os]; simp [e2])
    rcases this with h | h
    · left
      rw [ht.src t m1] at h
      exact Option.some.inj h
    · exact .inr (ht.mono t m1 t' m2 h)

/-! ### programs without comparisons only call modules with `n` outputs -/

/-- only inputs, constants and calls of the modules `S` -/
def Only (S : List ModuleId) (c : Circuit) : Prop := ∀ g gate, c.gateMap g = some gate →
  gate.operands = [] ∨ ∃ nIn nOut ids oi mid, gate = .module nIn nOut ids oi mid ∧ mid ∈ S

/-- `x` keeps this of circuit `s` -/
def Safe (S : List ModuleId) (s : Ref) {α} (x : M α) (Q : α → Prop) : Prop :=
  ∀ w c, WFw w → w.circs[s]? = some c → Only S c →
    WFw (x w).2 ∧ (∃ c', (x w).2.circs[s]? = some c' ∧ Only S c') ∧ ∀ a, (x w).1 = .ok a → Q a

section
variable {S : List ModuleId} {s : Ref}

theorem Safe.pure {α} {a : α} {Q : α → Prop} (h : Q a) : Safe S s (pure a) Q := fun _ c hw hc ho =>
  ⟨hw, ⟨c, hc, ho⟩, fun a' e => by cases e; exact h⟩

theorem Safe.throw {α} {e : Err} {Q : α → Prop} : Safe S s (M.throw e) Q := fun _ c hw hc ho =>
  ⟨hw, ⟨c, hc, ho⟩, fun a' e => by cases e⟩

theorem Safe.mono {α} {x : M α} {P Q : α → Prop} (h : Safe S s x P) (hq : ∀ a, P a → Q a) : Safe S s x Q :=
  fun w c hw hc ho => ⟨(h w c hw hc ho).1, (h w c hw hc ho).2.1, fun a e => hq a ((h w c hw hc ho).2.2 a e)⟩

theorem Safe.bind {α β} {x : M α} {f : α → M β} {P : α → Prop} {Q : β → Prop} (hx : Safe S s x P)
    (hf : ∀ a, P a → Safe S s (f a) Q) : Safe S s (x >>= f) Q := by
  intro w c hw hc ho
  rw [M.bind_apply]
  obtain ⟨h1, ⟨c', h2, h3⟩, h4⟩ := hx w c hw hc ho
  rcases h : x w with ⟨a | a, w'⟩
  · rw [h] at h1 h2
    exact ⟨h1, ⟨c', h2, h3⟩, fun a e => by cases e⟩
  · rw [h] at h1 h2 h4
    exact hf a (h4 a rfl) w' c' h1 h2 h3

theorem Safe.expect {α} {x : M α} {Q : α → Prop} (hx : Safe S s x Q) : Safe S s (M.expect x) Q := by
  intro w c hw hc ho
  have := hx w c hw hc ho
  unfold M.expect
  split <;> (rename_i h; rw [h] at this; first | exact this | exact ⟨this.1, this.2.1, fun a e => by cases e⟩)

theorem Safe.mapList {α β} {f : α → M β} (hf : ∀ a, Safe S s (f a) fun _ => True) : ∀ l, Safe S s (M.mapList f l) fun _ => True
  | [] => .pure trivial
  | a :: as => .bind (hf a) fun _ _ => .bind (Safe.mapList hf as) fun _ _ => .pure trivial

theorem Safe.replicate {α} {x : M α} (hx : Safe S s x fun _ => True) : ∀ n, Safe S s (M.replicate x n) fun _ => True
  | 0 => .pure trivial
  | n + 1 => .bind hx fun _ _ => .bind (Safe.replicate hx n) fun _ _ => .pure trivial

theorem Safe.idx {α} {l : List α} {i : Nat} {Q : α → Prop} (h : ∀ a ∈ l, Q a) : Safe S s (M.idx l i) Q := by
  unfold M.idx; split
  · exact .pure (h _ (List.mem_of_getElem? ‹_›))
  · exact .throw

theorem Safe.constant (v : Bool) : Safe S s (CC.constant s v) fun _ => True := by
  intro w c hw hc ho
  have he := constant_eq hc v
  have hg := (good_constant s v w hw).1
  rw [he] at hg ⊢
  refine ⟨hg, ⟨_, setC_get hc _, ?_⟩, fun _ _ => trivial⟩
  intro g gate hgate
  rw [(Circuit.constant_appends (hw.circ s c hc) v).gate] at hgate
  split at hgate
  · exact ho g gate hgate
  · match hk : g - c.gateIndex with
    | 0 => rw [hk] at hgate; simp at hgate; subst hgate; exact .inl rfl
    | k + 1 => rw [hk] at hgate; simp at hgate

theorem Safe.input : Safe S s (CC.input s) fun _ => True := by
  intro w c hw hc ho
  have he := input_eq hc
  have hg := (good_input s w hw).1
  rw [he] at hg ⊢
  refine ⟨hg, ⟨_, setC_get hc _, ?_⟩, fun _ _ => trivial⟩
  intro g gate hgate
  rw [(Circuit.input_appends (hw.circ s c hc)).gate] at hgate
  split at hgate
  · exact ho g gate hgate
  · match hk : g - c.gateIndex with
    | 0 => rw [hk] at hgate; simp at hgate; subst hgate; exact .inl rfl
    | k + 1 => rw [hk] at hgate; simp at hgate

theorem Safe.module {mid : ModuleId} (hm : mid ∈ S) (ids : List GateId) : Safe S s (CC.module s mid ids) fun _ => True := by
  intro w c hw hc ho
  refine ⟨(good_module s mid ids w hw).1, ?_, fun _ _ => trivial⟩
  unfold CC.module
  rw [hc]
  simp only []
  split
  · exact ⟨c, hc, ho⟩
  · split
    · exact ⟨c, hc, ho⟩
    · split
      · exact ⟨c, hc, ho⟩
      · next mr hmr hne _ m hmc =>
        refine ⟨_, setC_get hc _, ?_⟩
        by_cases hroom : m.inputLen + m.outputLen ≤ m.numWire
        · obtain ⟨outs, h1, h2⟩ := Circuit.module_ok (hw.circ s c hc) mid ids hroom
          intro g gate hgate
          rw [h2.appends.gate] at hgate
          split at hgate
          · exact ho g gate hgate
          · rw [moduleGates_get] at hgate
            split at hgate
            · cases hgate; exact .inr ⟨_, _, _, _, _, rfl, hm⟩
            · cases hgate
        · unfold Circuit.module
          split
          · exact ho
          · rw [if_pos (by omega)]; exact ho

theorem safe_fromGateIds {cfg : IntConfig} (hcr : cfg.cref = s) (n : Nat) (ids : List GateId) :
    Safe S s (AInt.fromGateIds cfg n ids) fun x => x.config = cfg := by
  unfold AInt.fromGateIds
  split
  · rw [hcr]; exact .bind (.replicate (.constant _) _) fun _ _ => .pure (by simp [hcr])
  · exact .throw

theorem safe_stmt {cfg : IntConfig} (hcr : cfg.cref = s) {n : Nat} {env : List AInt} (henv : ∀ x ∈ env, x.config = cfg)
    {st : Stmt} (hs : st.arith = true) :
    Safe [cfg.addMid, cfg.subMid, cfg.mulMid] s (st.build cfg n env) fun x => x.config = cfg := by
  cases st with
  | input => exact .bind (.replicate (by rw [hcr]; exact .input) _) fun _ _ => .pure rfl
  | const v =>
    show Safe _ _ (AInt.fromBiguint cfg n v) _
    unfold AInt.fromBiguint
    simp only []
    split
    · rw [hcr]
      exact .bind (.mapList (fun b => .constant b) _) fun _ _ => .bind (.replicate (.constant _) _) fun _ _ => .pure (by simp [hcr])
    · exact .throw
  | zero => exact safe_fromGateIds hcr _ _
  | one => exact .bind (by rw [hcr]; exact .constant _) fun _ _ => safe_fromGateIds hcr _ _
  | add i j =>
    refine .bind (.idx henv) fun x hx => .bind (.idx henv) fun y hy => ?_
    unfold AInt.add
    rw [hx, hcr]
    exact .bind (.expect (.module (by simp) _)) fun _ _ => .pure rfl
  | sub i j =>
    refine .bind (.idx henv) fun x hx => .bind (.idx henv) fun y hy => ?_
    unfold AInt.sub
    rw [hx, hcr]
    exact .bind (.expect (.module (by simp) _)) fun _ _ => .pure rfl
  | mul i j =>
    refine .bind (.idx henv) fun x hx => .bind (.idx henv) fun y hy => ?_
    unfold AInt.mul
    rw [hx, hcr]
    exact .bind (.expect (.module (by simp) _)) fun _ _ => .pure rfl
  | neg i =>
    refine .bind (.idx henv) fun x hx => ?_
    unfold AInt.neg AInt.zero
    rw [hx]
    refine .bind (.expect (safe_fromGateIds hcr _ _)) fun z hz => ?_
    unfold AInt.sub
    rw [hz, hcr]
    exact .bind (.expect (.module (by simp) _)) fun _ _ => .pure rfl
  | shl i k =>
    refine .bind (.idx henv) fun x hx => ?_
    unfold AInt.shiftLeft
    rw [hx, hcr]
    exact .bind (.replicate (.constant _) _) fun _ _ =>
      .bind (.mapList (fun _ => .idx fun _ _ => trivial) _) fun _ _ => .pure rfl
  | shr i k =>
    refine .bind (.idx henv) fun x hx => ?_
    unfold AInt.shiftRight
    have hrest : ∀ sign, Safe [cfg.addMid, cfg.subMid, cfg.mulMid] s (if n < k then M.throw (Err.panic Panic.underflow)
        else do
          let low ← M.mapList (fun i => M.idx x.val (i + k)) (List.range (n - k))
          pure ({ val := low ++ List.replicate k sign, config := x.config } : AInt)) fun x => x.config = cfg := by
      intro sign
      split
      · exact .throw
      · exact .bind (.mapList (fun _ => .idx fun _ _ => trivial) _) fun _ _ => .pure hx
    simp only []
    split
    · exact .bind (P := fun _ => True) .throw fun _ _ => hrest _
    · exact .bind (P := fun _ => True) (.idx fun _ _ => trivial) fun _ _ => hrest _
  | eq i j => cases hs
  | neq i j => cases hs

theorem safe_build {cfg : IntConfig} (hcr : cfg.cref = s) {n : Nat} : ∀ (p : List Stmt) {env : List AInt},
    (∀ x ∈ env, x.config = cfg) → (∀ st ∈ p, st.arith = true) →
    Safe [cfg.addMid, cfg.subMid, cfg.mulMid] s (build cfg n p env) fun _ => True
  | [], _, _, _ => .pure trivial
  | st :: p, env, he, hp => .bind (safe_stmt hcr he (hp st (by simp))) fun x hx =>
      safe_build hcr p (fun y hy => by
        rcases List.mem_append.mp hy with hy | hy
        · exact he y hy
        · simp at hy; subst hy; exact hx) (fun q hq => hp q (by simp [hq]))

end

theorem evaluable_wide {w : World} {s : Ref} {K : Ctx} {c : Circuit} {n : Nat} {cfg : IntConfig} (hb : Bld w s K c)
    (hi : IntD w (fun d => d < K.out ∨ d = s) K.st n cfg) (hn : 2 ≤ n)
    (ho : Only [cfg.addMid, cfg.subMid, cfg.mulMid] c) (gs : List GateId) : Evaluable (w.setC s (withOutputs c gs)) s := by
  refine evaluable_outputs hb ?_
  intro i o _
  by_cases hu : ∀ g gate, c.gateMap g = some gate → o ∉ gate.operands
  · exact .inl hu
  · simp only [not_forall, not_not] at hu
    obtain ⟨g, gate, hg, hm⟩ := hu
    refine .inr ⟨g, gate, hg, hm, .inr ?_⟩
    rcases ho g gate hg with h | ⟨nIn, nOut, ids, oi, mid, rfl, hmid⟩
    · rw [h] at hm; cases hm
    · refine ⟨nIn, nOut, ids, oi, mid, rfl, ?_⟩
      obtain ⟨mr, mc, h1, _, _, h3, _, _, h6, _⟩ := hb.calls g nIn nOut ids oi mid hg
      have key : ∀ {f}, ModD w (fun d => d < K.out ∨ d = s) K.st mid (2 * n) n f → nOut = n := by
        rintro f ⟨mr', mc', stor, q1, q2, _, q4, _, q6, _⟩
        have : w.module? c mid = some mr' := by rw [hb.module?_eq, q1]; exact q2
        rw [h1] at this; cases this
        rw [h3] at q4; cases q4
        omega
      have : nOut = n := by
        simp only [List.mem_cons, List.not_mem_nil, or_false] at hmid
        rcases hmid with rfl | rfl | rfl
        · exact key hi.add
        · exact key hi.sub
        · exact key hi.mul
      omega

theorem compile_ok {w : World} (hw : Reachable w) {st : StoreRef} (hst : st < w.stores.length) {n : Nat} (hn : 1 ≤ n)
    {p : List Stmt} {outs : List Nat} (hsc : Scoped 0 p) (hfit : ∀ s ∈ p, s.Fits n) (houts : ∀ i ∈ outs, i < p.length) :
    ∃ r w' c, compile st n p outs w = (.ok r, w') ∧ w'.circs[r]? = some c ∧
      (Ordered p outs ∨ (2 ≤ n ∧ ∀ st ∈ p, st.arith = true) → Evaluable w' r) ∧ (ValidRun w → ValidRun w') ∧
      c.inputLen = inputs p * n ∧
      ∀ xs : List (BitVec n), xs.length = inputs p → ∃ vs, runProgram p outs xs = some vs ∧
        Outputs w' r (xs.flatMap fun x => bitsOf n x.toNat) (vs.flatMap fun v => bitsOf n v.toNat) := by
  obtain ⟨cfg, w1, s, K, e, hs, hK, hcr, hc1, hb, hi, hval⟩ := start_ok hw hst hn
  let X := { xs : List (BitVec n) // xs.length = inputs p }
  have hX : Inhabited X := ⟨⟨List.replicate (inputs p) 0, by simp⟩⟩
  have hlen : ∀ xs : List (BitVec n), (xs.flatMap bvBits).length = xs.length * n := by
    intro xs; induction xs with
    | nil => simp
    | cons x xs ih => rw [List.flatMap_cons, List.length_append, ih]; simp; rw [Nat.add_mul]; omega
  have h0 : (Circuit.new st).outputLen = 0 := rfl
  have hrun := fun xs : X => build_ok (ins := xs.1.flatMap bvBits) hn hi hcr p [] [] [] xs.1 [] [] hb h0 trivial
    ⟨rfl, rfl, by simp, by simp, trivial, by simp⟩ hsc hfit (by simp [Circuit.new]) (by simp [Circuit.new]) xs.2
  obtain ⟨env, c, hx, hall⟩ := RunsC.forall hb.lt hrun
  rw [setC_self hc1] at hx
  obtain ⟨h1, h2, h3, ⟨vals, _, h4⟩, tags, h5⟩ := hall default
  have hb' := h1.bld
  have h0' : c.outputLen = 0 := h1.outputLen
  simp only [List.nil_append, List.length_nil, Nat.zero_add] at h2 h5
  have henv : ∀ x ∈ env, x.config = cfg ∧ x.val.length = n ∧ ∀ g ∈ x.val, ∃ gate, c.gateMap g = some gate := by
    intro x hx
    obtain ⟨i, hi, e⟩ := List.getElem_of_mem hx
    obtain ⟨x', v, e1, e2, e3⟩ := h4.get hi
    rw [List.getElem?_eq_getElem hi, e] at e1
    cases e1
    refine ⟨e3.config, e3.len, fun g hg => ?_⟩
    obtain ⟨j, hj, e⟩ := List.getElem_of_mem hg
    obtain ⟨g', b, k1, k2, k3⟩ := e3.vals.get hj
    rw [List.getElem?_eq_getElem hj, e] at k1
    cases k1
    exact hb'.wfc.some_of_lt (k3.lt hb')
  obtain ⟨_, c', ho, rfl⟩ := RunsC.outputAll (w := w1) (s := s) hb.lt hcr env henv outs [] (by rw [h2]; exact houts)
  rw [withOutputs_nil hb'.wfc h0'] at ho
  simp only [List.nil_append] at ho
  generalize hgs : (outs.flatMap fun i => (env[i]?.map (·.val)).getD []) = gs at ho
  have hr : w.circs.length = s := hs.symm
  refine ⟨s, w1.setC s (withOutputs c gs), withOutputs c gs, ?_, get_of_lt hb.lt _, ?_, ?_, ?_, ?_⟩
  · unfold compile
    have e1 := newCircuit_ok hst
    rw [bind_ok e1] at e ⊢
    rw [bind_ok e, bind_ok hx, bind_ok ho, hr]; rfl
  · rintro (hord | ⟨hn2, har⟩)
    · refine evaluable_withOutputs hb' ?_
      rw [← hgs]
      exact pairwise_outs h5 hord
    · have hsafe := safe_build hcr (n := n) p (env := []) (by simp) har w1 (Circuit.new st)
        (by have := hb.wf; rwa [setC_self hc1] at this) hc1 (by intro g gate hg; simp [Circuit.new, Map.empty] at hg)
      rw [hx] at hsafe
      obtain ⟨_, ⟨c2, hc2, hon⟩, _⟩ := hsafe
      rw [get_of_lt hb.lt] at hc2; cases hc2
      exact evaluable_wide hb' hi hn2 hon gs
  · intro hv
    refine valid_outputs hb' h0' (hval hv) gs fun g hg => ?_
    rw [← hgs] at hg
    obtain ⟨i, hi, hg⟩ := List.mem_flatMap.mp hg
    have hget : env[i]? = some (env[i]'(by rw [h2]; exact houts i hi)) := List.getElem?_eq_getElem _
    rw [hget] at hg
    obtain ⟨gate, hgate⟩ := (henv _ (List.mem_of_getElem? hget)).2.2 g hg
    exact hb'.wfc.lt_of_some hgate
  · show c.inputLen = _
    rw [h3, hlen, (default : X).2]
  · intro xs hxs
    obtain ⟨_, _, k3, ⟨vals, k4, k5⟩, _⟩ := hall ⟨xs, hxs⟩
    have hvl : env.length = vals.length := k5.length
    have hsel : ∀ (l : List Nat), (∀ i ∈ l, i < p.length) → ∃ vs, l.mapM (fun i => vals[i]?) = some vs ∧
        All2 (V w1 s (xs.flatMap bvBits) c) (l.flatMap fun i => (env[i]?.map (·.val)).getD []) (vs.flatMap bvBits) := by
      intro l
      induction l with
      | nil => intro _; exact ⟨[], rfl, trivial⟩
      | cons i l ih =>
        intro hl
        obtain ⟨vs, q1, q2⟩ := ih fun j hj => hl j (by simp [hj])
        obtain ⟨x, v, e1, e2, e3⟩ := k5.get (i := i) (by rw [h2]; exact hl i (by simp))
        refine ⟨v :: vs, by simp [List.mapM_cons, e2, q1], ?_⟩
        rw [List.flatMap_cons, List.flatMap_cons, e1]
        exact e3.vals.append q2
    obtain ⟨vs, q1, q2⟩ := hsel outs houts
    refine ⟨vs, by unfold runProgram; rw [k4]; exact q1, withOutputs c gs, get_of_lt hb.lt _, ?_, ?_, ?_⟩
    · exact k3.symm
    · have := q2.length
      rw [hgs] at this
      exact this.symm
    · intro i b hib
      rw [hgs] at q2
      obtain ⟨g, b', e1, e2, e3⟩ := q2.get (i := i) (by rw [q2.length]; exact lt_of_getElem? hib)
      rw [show (vs.flatMap bvBits)[i]? = some b from hib] at e2
      cases e2
      exact ⟨g, e1, val_ext hb' (ext_withOutputs c gs hb'.wfc h0') e3⟩

/-! ### programs only make API calls -/

theorem plays_newCircuit (st : StoreRef) : Plays (newCircuit st) := .op (.newCircuit st) (map_world _ _)

theorem plays_fromGateIds (cfg : IntConfig) (n : Nat) (ids : List GateId) : Plays (AInt.fromGateIds cfg n ids) := by
  unfold AInt.fromGateIds; plays

theorem plays_compare (m : ModuleId) (x y : AInt) (n : Nat) : Plays (AInt.compareWith m x y n) := by
  unfold AInt.compareWith AInt.slices; plays

theorem plays_stmt (cfg : IntConfig) (n : Nat) (env : List AInt) (st : Stmt) : Plays (st.build cfg n env) := by
  cases st with
  | input => unfold Stmt.build AInt.new; plays
  | const v =>
    show Plays (AInt.fromBiguint cfg n v)
    unfold AInt.fromBiguint
    simp only []
    plays
  | zero => exact plays_fromGateIds _ _ _
  | one => unfold Stmt.build AInt.one; exact .bind (plays_constant _ _) fun _ => plays_fromGateIds _ _ _
  | add i j => unfold Stmt.build AInt.add; plays
  | sub i j => unfold Stmt.build AInt.sub; plays
  | mul i j => unfold Stmt.build AInt.mul; plays
  | neg i =>
    unfold Stmt.build AInt.neg AInt.sub
    exact .bind (.idx _ _) fun _ => .bind (.expect (plays_fromGateIds _ _ _)) fun _ => by plays
  | shl i k => unfold Stmt.build AInt.shiftLeft; plays
  | shr i k => unfold Stmt.build AInt.shiftRight; plays
  | eq i j =>
    unfold Stmt.build
    exact .bind (.idx _ _) fun _ => .bind (.idx _ _) fun _ => .bind (plays_compare _ _ _ _) fun _ => plays_fromGateIds _ _ _
  | neq i j =>
    unfold Stmt.build
    exact .bind (.idx _ _) fun _ => .bind (.idx _ _) fun _ => .bind (plays_compare _ _ _ _) fun _ => plays_fromGateIds _ _ _

theorem plays_build (cfg : IntConfig) (n : Nat) : ∀ (p : List Stmt) (env : List AInt), Plays (build cfg n p env)
  | [], _ => .pure _
  | st :: p, env => .bind (plays_stmt cfg n env st) fun x => plays_build cfg n p (env ++ [x])

theorem plays_compile (st : StoreRef) (n : Nat) (p : List Stmt) (outs : List Nat) : Plays (compile st n p outs) := by
  refine .bind (plays_newCircuit st) fun r => .bind (plays_intConfig r n) fun cfg => .bind (plays_build cfg n p []) fun env =>
    .bind (.mapList (fun i => .bind (.idx _ _) fun z => ?_) _) fun _ => .pure _
  unfold AInt.output; plays

end CC
