import Verif.Proofs.Functions
import Verif.Spec.Guard
import Verif.Spec.Writer
import Verif.Proofs.BrSums

/-!
# Programs that return copies of their results: order, room and meaning
-/

namespace CC.Guard
open Spec Spec.Functions

/-- the same numbers of arguments and results -/
def Shape (sigs sigs' : List Sig) : Prop := sigs.map (fun σ => (σ.ins, σ.outs)) = sigs'.map (fun σ => (σ.ins, σ.outs))

theorem Shape.get {sigs sigs' : List Sig} (h : Shape sigs sigs') (f : Nat) :
    (sigs[f]?).map (fun σ => (σ.ins, σ.outs)) = (sigs'[f]?).map (fun σ => (σ.ins, σ.outs)) := by
  rw [← List.getElem?_map, ← List.getElem?_map, h]

theorem Shape.some {sigs sigs' : List Sig} (h : Shape sigs sigs') {f : Nat} {σ : Sig} (hs : sigs[f]? = some σ) :
    ∃ σ', sigs'[f]? = some σ' ∧ σ'.ins = σ.ins ∧ σ'.outs = σ.outs := by
  have := h.get f
  rw [hs] at this
  cases h' : sigs'[f]? with
  | none => rw [h'] at this; cases this
  | some σ' =>
    rw [h'] at this
    have := Option.some.inj this
    exact ⟨σ', rfl, (Prod.mk.inj this).1.symm, (Prod.mk.inj this).2.symm⟩

theorem Shape.push {sigs sigs' : List Sig} (h : Shape sigs sigs') {σ σ' : Sig} (h1 : σ.ins = σ'.ins) (h2 : σ.outs = σ'.outs) :
    Shape (sigs ++ [σ]) (sigs' ++ [σ']) := by
  unfold Shape at *
  rw [List.map_append, List.map_append, h]
  simp [h1, h2]

theorem width_shape {sigs sigs' : List Sig} (h : Shape sigs sigs') (l : Line) : l.width sigs = l.width sigs' := by
  cases l <;> try rfl
  rename_i f args
  have := h.get f
  simp only [Line.width]
  cases h1 : sigs[f]? <;> cases h2 : sigs'[f]? <;> rw [h1, h2] at this <;> simp at this
  exact this.2

theorem values_shape {sigs sigs' : List Sig} (h : Shape sigs sigs') : ∀ p, values sigs p = values sigs' p
  | [] => rfl
  | l :: p => by simp only [values]; rw [width_shape h, values_shape h p]

theorem scoped_shape {sigs sigs' : List Sig} (h : Shape sigs sigs') : ∀ {p m}, Functions.Scoped sigs m p → Functions.Scoped sigs' m p
  | [], _, _ => trivial
  | l :: p, m, ⟨h1, h2, h3⟩ => by
    refine ⟨?_, h2, by rw [← width_shape h]; exact scoped_shape h h3⟩
    cases l <;> try trivial
    obtain ⟨σ, k1, k2⟩ := h1
    obtain ⟨σ', q1, q2, _⟩ := h.some k1
    exact ⟨σ', q1, by rw [q2]; exact k2⟩

theorem values_append (sigs : List Sig) : ∀ p q, values sigs (p ++ q) = values sigs p + values sigs q
  | [], q => by simp [values]
  | l :: p, q => by simp only [List.cons_append, values]; rw [values_append sigs p q]; omega

theorem wires_append (sigs : List Sig) : ∀ p q, wires sigs (p ++ q) = wires sigs p + wires sigs q
  | [], q => by simp [wires]
  | l :: p, q => by simp only [List.cons_append, wires]; rw [wires_append sigs p q]; omega

theorem scoped_append {sigs : List Sig} : ∀ {p q : List Line} {m}, Functions.Scoped sigs m p → Functions.Scoped sigs (m + values sigs p) q →
    Functions.Scoped sigs m (p ++ q)
  | [], q, m, _, h => by simpa [values] using h
  | l :: p, q, m, ⟨h1, h2, h3⟩, h => ⟨h1, h2, scoped_append h3 (by
      simp only [values] at h
      rw [Nat.add_assoc]; exact h)⟩

theorem marks_append (sigs : List Sig) : ∀ p q k, marks sigs k (p ++ q) = marks sigs k p ++ marks sigs (k + p.length) q
  | [], q, k => rfl
  | l :: p, q, k => by
    simp only [List.cons_append, marks, List.append_assoc]
    rw [marks_append sigs p q (k + 1), List.length_cons, show k + 1 + p.length = k + (p.length + 1) by omega]

theorem marks_length (sigs : List Sig) : ∀ p k, (marks sigs k p).length = values sigs p
  | [], k => rfl
  | l :: p, k => by simp [marks, values, marks_length sigs p]

/-! ### the copies -/

theorem scoped_copies (sigs : List Sig) : ∀ (os : List Nat) m, (∀ o ∈ os, o < m) → Functions.Scoped sigs m (os.map .copy)
  | [], _, _ => trivial
  | o :: os, m, h => by
    refine ⟨trivial, ?_, scoped_copies sigs os (m + 1) fun i hi => ?_⟩
    · intro i hi
      simp only [Line.operands, List.mem_singleton] at hi
      rw [hi]; exact h o (by simp)
    · have := h i (by simp [hi]); omega

theorem values_copies (sigs : List Sig) : ∀ os : List Nat, values sigs (os.map .copy) = os.length
  | [] => rfl
  | o :: os => by simp only [List.map_cons, values, values_copies sigs os, Line.width, List.length_cons]; omega

theorem wires_copies (sigs : List Sig) : ∀ os : List Nat, wires sigs (os.map .copy) = 2 * os.length
  | [] => rfl
  | o :: os => by simp only [List.map_cons, wires, wires_copies sigs os, Line.wires, List.length_cons]; omega

theorem marks_copies (sigs : List Sig) : ∀ (os : List Nat) k j, j < os.length → (marks sigs k (os.map .copy))[j]? = some (k + j, false)
  | [], _, _, h => by simp at h
  | o :: os, k, 0, _ => rfl
  | o :: os, k, j + 1, h => by
    have := marks_copies sigs os (k + 1) j (by simp only [List.length_cons] at h; omega)
    simp only [List.map_cons, marks, Line.width, List.replicate_one, List.singleton_append, List.getElem?_cons_succ]
    rw [this, show k + 1 + j = k + (j + 1) by omega]

/-- results in the order of computation -/
theorem guarded_ok {sigs sigs' : List Sig} (hs : Shape sigs sigs') {F : Func} (h : F.Fine sigs) : (F.guarded sigs).Ok sigs' := by
  have hv := values_shape hs F.body
  refine ⟨⟨?_, ?_⟩, ?_⟩
  · refine scoped_append (scoped_shape hs h.lines) ?_
    show Functions.Scoped sigs' (F.arity + values sigs' F.body) (F.outs.map .copy)
    exact scoped_copies sigs' _ _ (by rw [← hv]; exact h.outs)
  · intro i hi
    have := List.mem_range'_1.mp hi
    show _ < F.arity + values sigs' (F.body ++ F.outs.map .copy)
    rw [values_append, values_copies, ← hv]
    omega
  · have hm : ∀ i, F.arity + values sigs F.body ≤ i → i < F.arity + values sigs F.body + F.outs.length →
        ((F.guarded sigs).marks sigs')[i]? = some (1 + F.body.length + (i - F.arity - values sigs F.body), false) := by
      intro i h1 h2
      unfold Func.marks Func.guarded
      simp only
      rw [marks_append, List.getElem?_append_right (by simp; omega), List.getElem?_append_right (by
        rw [marks_length, ← hv]; simp; omega), marks_length, ← hv, List.length_replicate]
      exact marks_copies _ _ _ _ (by omega)
    unfold Func.Ordered
    refine List.Pairwise.imp_of_mem ?_ (List.pairwise_lt_range' (s := F.arity + values sigs F.body) (n := F.outs.length))
    intro a b ha hb hab k s k' s' h1 h2
    have ha := List.mem_range'_1.mp ha
    have hb := List.mem_range'_1.mp hb
    rw [hm a ha.1 ha.2] at h1
    rw [hm b hb.1 hb.2] at h2
    cases h1
    cases h2
    exact .inr (by omega)

theorem guarded_room {sigs sigs' : List Sig} (hr : ∀ σ ∈ sigs', σ.outs ≤ σ.wires) {F : Func} : ∀ l ∈ (F.guarded sigs).body, l.Room sigs' := by
  intro l _
  cases l <;> try trivial
  intro σ hσ
  exact hr σ (List.mem_of_getElem? hσ)

theorem guarded_wires {sigs sigs' : List Sig} {F : Func} : wires sigs' (F.guarded sigs).body = wires sigs' F.body + 2 * F.outs.length := by
  show wires sigs' (F.body ++ _) = _
  rw [wires_append, wires_copies]

/-! ### meaning -/

/-- on the right number of arguments the functions return the right number of results, and both the same -/
def Agree (sigs : List Sig) (fns fns' : List Fn) : Prop :=
  ∀ (f : Nat) (σ : Sig), sigs[f]? = some σ → ∃ fn fn', fns[f]? = some fn ∧ fns'[f]? = some fn' ∧ ∀ xs : List Bool, xs.length = σ.ins →
    ∃ ys, fn xs = some ys ∧ fn' xs = some ys ∧ ys.length = σ.outs

theorem mapM_get {env : List Bool} : ∀ {args : List Nat}, (∀ i ∈ args, i < env.length) →
    ∃ xs, args.mapM (fun i => env[i]?) = some xs ∧ xs.length = args.length
  | [], _ => ⟨[], rfl, rfl⟩
  | i :: args, h => by
    obtain ⟨xs, h1, h2⟩ := mapM_get (env := env) (args := args) fun j hj => h j (by simp [hj])
    refine ⟨env[i]'(h i (by simp)) :: xs, ?_, by simp [h2]⟩
    rw [List.mapM_cons, List.getElem?_eq_getElem (h i (by simp)), h1]; rfl

theorem line_agree {sigs : List Sig} {fns fns' : List Fn} (ha : Agree sigs fns fns') {env : List Bool} {l : Line} (h1 : l.Ok sigs)
    (h2 : ∀ i ∈ l.operands, i < env.length) : ∃ bs, l.run fns env = some bs ∧ l.run fns' env = some bs ∧ bs.length = l.width sigs := by
  cases l with
  | const b => exact ⟨[b], rfl, rfl, rfl⟩
  | not i =>
    have hi := h2 i (by simp [Line.operands])
    exact ⟨[!env[i]], by simp [Line.run, hi], by simp [Line.run, hi], rfl⟩
  | copy i =>
    have hi := h2 i (by simp [Line.operands])
    exact ⟨[env[i]], by simp [Line.run, hi], by simp [Line.run, hi], rfl⟩
  | and i j =>
    have hi := h2 i (by simp [Line.operands])
    have hj := h2 j (by simp [Line.operands])
    exact ⟨[env[i] && env[j]], by simp [Line.run, hi, hj], by simp [Line.run, hi, hj], rfl⟩
  | or i j =>
    have hi := h2 i (by simp [Line.operands])
    have hj := h2 j (by simp [Line.operands])
    exact ⟨[env[i] || env[j]], by simp [Line.run, hi, hj], by simp [Line.run, hi, hj], rfl⟩
  | xor i j =>
    have hi := h2 i (by simp [Line.operands])
    have hj := h2 j (by simp [Line.operands])
    exact ⟨[env[i] != env[j]], by simp [Line.run, hi, hj], by simp [Line.run, hi, hj], rfl⟩
  | same i j =>
    have hi := h2 i (by simp [Line.operands])
    have hj := h2 j (by simp [Line.operands])
    exact ⟨[env[i] == env[j]], by simp [Line.run, hi, hj], by simp [Line.run, hi, hj], rfl⟩
  | call f args =>
    obtain ⟨σ, k1, k2⟩ := h1
    obtain ⟨fn, fn', q1, q2, q3⟩ := ha f σ k1
    obtain ⟨xs, r1, r2⟩ := mapM_get (env := env) (args := args) h2
    obtain ⟨ys, y1, y2, y3⟩ := q3 xs (r2.trans k2)
    refine ⟨ys, ?_, ?_, ?_⟩
    · simp [Line.run, q1, r1, y1]
    · simp [Line.run, q2, r1, y2]
    · simp [Line.width, k1, y3]

theorem run_agree {sigs : List Sig} {fns fns' : List Fn} (ha : Agree sigs fns fns') : ∀ {p : List Line} {env : List Bool},
    Functions.Scoped sigs env.length p → ∃ env', Functions.run fns p env = some env' ∧ Functions.run fns' p env = some env' ∧
      env'.length = env.length + values sigs p
  | [], env, _ => ⟨env, rfl, rfl, rfl⟩
  | l :: p, env, ⟨h1, h2, h3⟩ => by
    obtain ⟨bs, k1, k2, k3⟩ := line_agree ha h1 h2
    obtain ⟨env', q1, q2, q3⟩ := run_agree ha (p := p) (env := env ++ bs) (by rw [List.length_append, k3]; exact h3)
    refine ⟨env', ?_, ?_, ?_⟩
    · simp [Functions.run, k1, q1]
    · simp [Functions.run, k2, q2]
    · rw [q3, List.length_append, k3]; simp only [values]; omega

theorem run_append (fns : List Fn) : ∀ p q env, Functions.run fns (p ++ q) env = (Functions.run fns p env).bind (Functions.run fns q)
  | [], q, env => rfl
  | l :: p, q, env => by
    simp only [List.cons_append, Functions.run]
    cases l.run fns env with
    | none => rfl
    | some bs => exact run_append fns p q (env ++ bs)

theorem run_copies (fns : List Fn) : ∀ (os : List Nat) (env : List Bool), (∀ o ∈ os, o < env.length) →
    ∃ ext, Functions.run fns (os.map .copy) env = some (env ++ ext) ∧ ∀ (i o : Nat), os[i]? = some o → ext[i]? = env[o]?
  | [], env, _ => ⟨[], by simp [Functions.run], fun i o h => by simp at h⟩
  | o :: os, env, h => by
    have ho := h o (by simp)
    obtain ⟨ext, h1, h2⟩ := run_copies fns os (env ++ [env[o]]) fun i hi => by
      have := h i (by simp [hi])
      simp; omega
    refine ⟨env[o] :: ext, ?_, ?_⟩
    · simp only [List.map_cons, Functions.run, Line.run, List.getElem?_eq_getElem ho]
      simp only [Option.bind_eq_bind, Option.bind_some, Option.pure_def]
      rw [h1]
      simp
    · intro i o' hi
      cases i with
      | zero =>
        simp only [List.getElem?_cons_zero, Option.some.injEq] at hi
        subst hi
        simp [ho]
      | succ i =>
        rw [List.getElem?_cons_succ] at hi
        have hlt := h o' (List.mem_cons_of_mem _ (List.mem_of_getElem? hi))
        rw [List.getElem?_cons_succ, h2 i o' hi, List.getElem?_append_left hlt]

theorem mapM_congr {α β γ : Type} {f : α → Option γ} {g : β → Option γ} : ∀ {l : List α} {l' : List β}, l.length = l'.length →
    (∀ (i : Nat) a b, l[i]? = some a → l'[i]? = some b → f a = g b) → l.mapM f = l'.mapM g
  | [], [], _, _ => rfl
  | [], _ :: _, h, _ => by simp at h
  | _ :: _, [], h, _ => by simp at h
  | a :: l, b :: l', h, hf => by
    rw [List.mapM_cons, List.mapM_cons, hf 0 a b rfl rfl, mapM_congr (by simpa using h) fun i a b ha hb => hf (i + 1) a b
      (by simpa using ha) (by simpa using hb)]

theorem guarded_run {sigs : List Sig} {fns fns' : List Fn} (ha : Agree sigs fns fns') {F : Func} (h : F.Fine sigs) {args : List Bool}
    (hl : args.length = F.arity) : ∃ ys, F.run fns args = some ys ∧ (F.guarded sigs).run fns' args = some ys ∧ ys.length = F.outs.length := by
  obtain ⟨env, h1, h2, h3⟩ := run_agree ha (p := F.body) (env := args) (by rw [hl]; exact h.lines)
  rw [hl] at h3
  have hlt : ∀ o ∈ F.outs, o < env.length := fun o ho => by rw [h3]; exact h.outs o ho
  obtain ⟨ys, k1, k2⟩ := mapM_get (env := env) hlt
  obtain ⟨ext, q1, q2⟩ := run_copies fns' F.outs env hlt
  refine ⟨ys, ?_, ?_, k2⟩
  · simp [Func.run, h1, k1]
  · have e : Functions.run fns' (F.guarded sigs).body args = some (env ++ ext) := by
      show Functions.run fns' (F.body ++ F.outs.map .copy) args = _
      rw [run_append, h2]
      exact q1
    unfold Func.run
    rw [e, ← k1]
    simp only [Option.bind_eq_bind, Option.bind_some]
    refine mapM_congr (by simp [Func.guarded]) fun i a b hi hb => ?_
    have hlen := (List.getElem?_eq_some_iff.mp hb).1
    simp only [Func.guarded, List.getElem?_range' hlen, Option.some.injEq, Nat.one_mul] at hi
    subst hi
    rw [← h3, List.getElem?_append_right (by omega), show env.length + i - env.length = i by omega]
    exact q2 i b hb

/-! ### libraries -/

structure Same (sigs sigs' : List Sig) (fns fns' : List Fn) : Prop where
  shape : Shape sigs sigs'
  room : ∀ σ ∈ sigs', σ.outs ≤ σ.wires
  agree : Agree sigs fns fns'
  len : fns.length = sigs.length
  len' : fns'.length = sigs.length

theorem Same.push {sigs sigs' : List Sig} {fns fns' : List Fn} (hs : Same sigs sigs' fns fns') {F : Func} (h : F.Fine sigs) :
    Same (sigs ++ [F.sig sigs]) (sigs' ++ [(F.guarded sigs).sig sigs']) (fns ++ [F.run fns]) (fns' ++ [(F.guarded sigs).run fns']) := by
  refine ⟨hs.shape.push rfl (by simp [Func.sig, Func.guarded]), ?_, ?_, by simp [hs.len], by simp [hs.len']⟩
  · intro σ hσ
    rcases List.mem_append.mp hσ with h | h
    · exact hs.room σ h
    · rw [List.mem_singleton.mp h]
      show (F.guarded sigs).outs.length ≤ wires sigs' (F.guarded sigs).body
      rw [guarded_wires]
      simp only [Func.guarded, List.length_range']
      omega
  · intro f σ hf
    by_cases hlt : f < sigs.length
    · rw [List.getElem?_append_left hlt] at hf
      rw [List.getElem?_append_left (by rw [hs.len]; exact hlt), List.getElem?_append_left (by rw [hs.len']; exact hlt)]
      exact hs.agree f σ hf
    · have hfl := (List.getElem?_eq_some_iff.mp hf).1
      simp only [List.length_append, List.length_singleton] at hfl
      obtain rfl : f = sigs.length := by omega
      simp at hf
      subst hf
      refine ⟨F.run fns, (F.guarded sigs).run fns', ?_, ?_, fun xs hx => guarded_run hs.agree h hx⟩
      · rw [← hs.len]; simp
      · rw [← hs.len']; simp

theorem guard_ok : ∀ {lib : List Func} {sigs sigs' : List Sig} {fns fns' : List Fn}, Same sigs sigs' fns fns' → LibFine sigs lib →
    LibOk sigs' (guard sigs lib) ∧ LibRoom sigs' (guard sigs lib) ∧
      Same (signatures lib sigs) (signatures (guard sigs lib) sigs') (meaning lib fns) (meaning (guard sigs lib) fns')
  | [], _, _, _, _, hs, _ => ⟨trivial, trivial, hs⟩
  | F :: lib, sigs, sigs', fns, fns', hs, ⟨h1, h2⟩ => by
    obtain ⟨k1, k2, k3⟩ := guard_ok (hs.push h1) h2
    exact ⟨⟨guarded_ok hs.shape h1, k1⟩, ⟨guarded_room hs.room, k2⟩, k3⟩

theorem same_nil : Same [] [] [] [] := ⟨rfl, by simp, fun f σ h => by simp at h, rfl, rfl⟩

/-! ### the gates of the results -/

/-- the last gates are pairs of negations (copies), the second ones are the outputs -/
structure Capped (c : Circuit) (G n : Nat) : Prop where
  first : ∀ i, i < n → ∃ x, x < G ∧ c.gateMap (G + 2 * i) = some (.not x)
  second : ∀ i, i < n → c.gateMap (G + 2 * i + 1) = some (.not (G + 2 * i))
  idx : c.gateIndex = G + 2 * n
  out : ∀ i o, c.outputMap i = some o → i < n ∧ o = G + 2 * i + 1

theorem Capped.low {c : Circuit} {G n : Nat} (h : Capped c G n) {c0 : Circuit} (hwf : WFc c0) (e : c.gateMap = c0.gateMap)
    (ei : c.gateIndex = c0.gateIndex) {g : GateId} {nIn nOut ids oi mid}
    (hg : c.gateMap g = some (.module nIn nOut ids oi mid)) : g < G := by
  have hlt : g < G + 2 * n := by rw [← h.idx, ei]; rw [e] at hg; exact hwf.lt_of_some hg
  apply Classical.byContradiction
  intro hge
  obtain ⟨i, hi, e' | e'⟩ : ∃ i, i < n ∧ (g = G + 2 * i ∨ g = G + 2 * i + 1) := ⟨(g - G) / 2, by omega, by omega⟩
  · obtain ⟨x, _, k⟩ := h.first i hi
    rw [e', k] at hg; cases hg
  · rw [e', h.second i hi] at hg; cases hg

theorem Capped.reach {c : Circuit} {G n : Nat} (h : Capped c G n) {c0 : Circuit} (hwf : WFc c0) (e : c.gateMap = c0.gateMap)
    (ei : c.gateIndex = c0.gateIndex) (ht : Topo c) {j : Nat} (hj : j < n) {y : GateId}
    (hr : Reach c (G + 2 * j) y) : y < G ∨ y = G + 2 * j := by
  induction hr with
  | refl => exact .inr rfl
  | @operand y gate x _ hg hx ih =>
    refine .inl ?_
    rcases ih with ih | rfl
    · have h1 := ht y gate hg x hx
      have h2 : lead y gate ≤ y := by cases gate <;> simp [lead]
      omega
    · obtain ⟨z, hz, e'⟩ := h.first j hj
      rw [e'] at hg
      cases hg
      simp [Gate.operands] at hx
      omega
  | @sibling y nIn nOut ids oi mid k _ hg hk ih =>
    rw [e] at hg
    exact .inl (h.low hwf e ei (by rw [e]; exact (hwf.group _ _ _ _ _ _ hg).2.2 k hk))

theorem Capped.tidy {c : Circuit} {G n : Nat} (h : Capped c G n) {c0 : Circuit} (hwf : WFc c0) (e : c.gateMap = c0.gateMap)
    (ei : c.gateIndex = c0.gateIndex) (ht : Topo c) : TidyOutputs c := by
  refine ⟨fun i o ho => ?_, fun i j o hi hj => ?_, fun i j o p gate x ho hp hg hx hr => ?_⟩
  · obtain ⟨hi, rfl⟩ := h.out i o ho
    exact ⟨_, 0, .inl (h.second i hi)⟩
  · have h1 := (h.out i o hi).2
    have h2 := (h.out j o hj).2
    omega
  · obtain ⟨hi, rfl⟩ := h.out i o ho
    obtain ⟨hj, rfl⟩ := h.out j p hp
    rw [h.second j hj] at hg
    cases hg
    simp only [Gate.operands, List.mem_singleton] at hx
    subst hx
    rcases h.reach hwf e ei ht hj hr with h | h <;> omega

theorem build_append (r : Ref) (mods : List ModuleId) : ∀ p q env, Functions.build r mods (p ++ q) env =
    Functions.build r mods p env >>= Functions.build r mods q
  | [], q, env => rfl
  | l :: p, q, env => by
    simp only [List.cons_append, Functions.build]
    funext w
    simp only [M.bind_apply]
    cases h : l.build r mods env w with
    | mk a w1 =>
      cases a with
      | error e => rfl
      | ok gs => simp only [build_append r mods p q (env ++ gs), M.bind_apply]

section
variable {w : World} {s : Ref} {K : Ctx} {ins : List Bool}

theorem not_runs {c : Circuit} (hb : Bld w s K c) (h0 : c.outputLen = 0) {x : GateId} {b : Bool} (hx : V w s ins c x b) :
    RunsC w s (CC.not s x) c fun g c' => New1 w s K ins c g (!b) c' ∧ c'.gateMap c.gateIndex = some (.not x) := by
  refine RunsC.both hb.lt (RunsC.not hb hx (hb.notOut h0 x)) ⟨_, _, by rw [not_eq hb.get, setC_setC], ?_⟩
  have := (Circuit.not_appends hb.wfc x).new 0
  simpa using this

theorem copies_runs {mods : List ModuleId} {G : Nat} : ∀ (os : List Nat) {c : Circuit} {env : List GateId} {vals : List Bool}, Bld w s K c →
    c.outputLen = 0 → All2 (V w s ins c) env vals → (∀ o ∈ os, ∃ x, env[o]? = some x ∧ x < G) →
    RunsC w s (Functions.build s mods (os.map .copy) env) c fun env' c' => Grew w s K c c' ∧
      env' = env ++ (List.range os.length).map (fun i => c.gateIndex + 2 * i + 1) ∧ c'.gateIndex = c.gateIndex + 2 * os.length ∧
      (∃ vals', All2 (V w s ins c') env' vals') ∧
      ∀ i, i < os.length → (∃ x, x < G ∧ c'.gateMap (c.gateIndex + 2 * i) = some (.not x)) ∧
        c'.gateMap (c.gateIndex + 2 * i + 1) = some (.not (c.gateIndex + 2 * i))
  | [], c, env, vals, hb, h0, henv, _ => RunsC.pure ⟨hb.grew, by simp, rfl, ⟨vals, henv⟩, fun i hi => by simp at hi⟩
  | o :: os, c, env, vals, hb, h0, henv, hos => by
    obtain ⟨x, hx, hxG⟩ := hos o (by simp)
    obtain ⟨x', b, e1, _, e3⟩ := henv.get (lt_of_getElem? hx)
    rw [hx] at e1
    cases e1
    simp only [List.map_cons, Functions.build, Line.build]
    refine RunsC.seq (P := fun gs c2 => ∃ c1, gs = [c1.gateIndex] ∧ New1 w s K ins c c.gateIndex (!b) c1 ∧ c1.gateMap c.gateIndex = some (.not x) ∧
        New1 w s K ins c1 c1.gateIndex (!!b) c2 ∧ c2.gateMap c1.gateIndex = some (.not c.gateIndex))
      (RunsC.bind (RunsC.idx hx (RunsC.seq (P := fun g c2 => ∃ c1, g = c1.gateIndex ∧ New1 w s K ins c c.gateIndex (!b) c1 ∧
          c1.gateMap c.gateIndex = some (.not x) ∧ New1 w s K ins c1 c1.gateIndex (!!b) c2 ∧ c2.gateMap c1.gateIndex = some (.not c.gateIndex))
        (RunsC.seq (not_runs hb h0 e3) ?_) ?_))) ?_
    · rintro g c1 ⟨n1, m1⟩
      obtain rfl := n1.id
      refine (not_runs n1.step.bld (n1.grew.out0 h0) n1.v).mono ?_
      rintro g c2 ⟨n2, m2⟩
      obtain rfl := n2.id
      exact ⟨c1, rfl, n1, m1, n2, m2⟩
    · rintro g c2 ⟨c1, rfl, h⟩
      exact RunsC.pure ⟨c1, rfl, h⟩
    rintro _ c2 ⟨c1, rfl, n1, m1, n2, m2⟩
    have h01 := n1.grew.out0 h0
    have hb1 := n1.step.bld
    have h02 := n2.grew.out0 h01
    have hb2 := n2.step.bld
    have henv2 : All2 (V w s ins c2) (env ++ [c1.gateIndex]) (vals ++ [!!b]) :=
      (n2.step.vs hb1 (n1.step.vs hb henv)).append ⟨n2.v, trivial⟩
    have i1 := n1.gateIndex
    have i2 := n2.gateIndex
    refine (copies_runs (mods := mods) (G := G) os hb2 h02 henv2 fun o' ho' => ?_).mono ?_
    · obtain ⟨x', k1, k2⟩ := hos o' (by simp [ho'])
      exact ⟨x', by rw [List.getElem?_append_left (lt_of_getElem? k1)]; exact k1, k2⟩
    rintro env' c' ⟨k1, k2, k3, k4, k5⟩
    refine ⟨n1.grew.trans (n2.grew.trans k1), ?_, ?_, k4, ?_⟩
    · rw [k2, i2, i1, List.append_assoc, List.length_cons, List.range_succ_eq_map]
      simp only [List.map_cons, List.map_map, List.singleton_append, Nat.mul_zero, Nat.add_zero]
      congr 2
      refine List.map_congr_left fun i _ => ?_
      simp only [Function.comp_apply]
      omega
    · rw [k3, List.length_cons]; omega
    · intro i hi
      cases i with
      | zero =>
        refine ⟨⟨x, hxG, ?_⟩, ?_⟩
        · exact k1.step.ext.gates _ _ (n2.step.ext.gates _ _ m1)
        · have := k1.step.ext.gates _ _ m2
          rw [i1] at this; exact this
      | succ i =>
        have := k5 i (by simp at hi; omega)
        rw [show c2.gateIndex + 2 * i = c.gateIndex + 2 * (i + 1) by omega] at this
        exact this

/-- the outputs of a function that returns copies -/
theorem guarded_tidy {c : Circuit} (hb : Bld w s K c) (he : Empty c) {mods : List ModuleId} {sigs sigs' : List Sig} {fns : List Fn}
    (hs : Shape sigs sigs') (hlib : Funs.Lib (Funs.Here w s K) mods sigs' fns) {F : Func} (hF : F.Fine sigs)
    (hroom : ∀ l ∈ F.body, l.Room sigs') : RunsC w s ((F.guarded sigs).build s mods) c fun _ c2 => TidyOutputs c2 := by
  have h0 := he.outputLen
  unfold Func.build
  let ins := List.replicate F.arity false
  have hi0 := he.inputLen
  refine RunsC.seq (RunsC.both hb.lt (RunsC.inputs (ins := ins) hb h0 F.arity (by simp [ins]; omega)) (Funs.inputs_src hb h0 F.arity)) ?_
  rintro args c1 ⟨⟨h1, h2, h3, h4, h5⟩, h6, h7⟩
  have hsp0 : Funs.Spans c1 1 (List.replicate F.arity (0, true)) args fun _ => (c.gateIndex, c1.gateIndex) := by
    have hm0 : ∀ (i : Nat) m, (List.replicate F.arity (0, true))[i]? = some m → m = (0, true) := fun i m hm =>
      (List.mem_replicate.mp (List.mem_of_getElem? hm)).2
    refine ⟨by simp [h4], ?_, fun _ _ => Nat.le_refl _, ?_, ?_, fun j j' h1 h2 => by omega⟩
    · intro i m hm
      rw [hm0 i m hm]; exact Nat.zero_lt_one
    · intro i g m hg _
      obtain ⟨k1, k2⟩ := h6 g (List.mem_of_getElem? hg)
      exact ⟨k1, .inl k2⟩
    · intro i j g h _ _ hg _ _ _ _
      exact Early.apart h1.bld (.inl (h6 g (List.mem_of_getElem? hg)).2)
  show RunsC w s (Functions.build s mods (F.body ++ F.outs.map .copy) args >>= _) c1 _
  rw [build_append, Bristol.m_assoc]
  refine RunsC.seq (Funs.build_ok (ins := ins) hlib F.body args _ 1 _ _ h1.bld (h1.outputLen.trans h0) h5 hsp0
    (by rw [h4]; exact scoped_shape hs hF.lines) hroom) ?_
  rintro env c2 ⟨k1, k2, k3, ⟨vals, k4, k5⟩, -⟩
  have h02 : c2.outputLen = 0 := k1.out0 (h1.outputLen.trans h0)
  have hlen : env.length = F.arity + values sigs F.body := by rw [k3, h4, values_shape hs]
  have hlt : ∀ o ∈ F.outs, ∃ x, env[o]? = some x ∧ x < c2.gateIndex := fun o ho => by
    obtain ⟨x, b, e1, _, e3⟩ := k5.get (i := o) (by rw [hlen]; exact hF.outs o ho)
    exact ⟨x, e1, e3.lt k1.step.bld⟩
  refine RunsC.seq (copies_runs (mods := mods) F.outs k1.step.bld h02 k5 hlt) ?_
  rintro env' c3 ⟨q1, q2, q3, ⟨vals', q4⟩, q5⟩
  have hlt' : ∀ i ∈ (F.guarded sigs).outs, i < env'.length := by
    intro i hi
    have := List.mem_range'_1.mp hi
    rw [q2, List.length_append, List.length_map, List.length_range, hlen]
    omega
  obtain ⟨os, bs, o1, o2, o3, o4, o5⟩ := Funs.outputs_ok q1.step.bld q4 (F.guarded sigs).outs [] hlt'
  have h03 : c3.outputLen = 0 := q1.out0 h02
  rw [withOutputs_nil q1.step.bld.wfc h03] at o5
  refine RunsC.seq o5 ?_
  rintro _ c4 rfl
  refine RunsC.pure ?_
  rw [List.nil_append]
  have hlo : os.length = F.outs.length := by rw [← o3.length]; simp [Func.guarded]
  have hcap : Capped (withOutputs c3 os) c2.gateIndex F.outs.length := by
    refine ⟨fun i hi => (q5 i hi).1, fun i hi => (q5 i hi).2, q3, fun i o ho => ?_⟩
    have hi : i < F.outs.length := by rw [← hlo]; exact lt_of_getElem? ho
    refine ⟨hi, ?_⟩
    obtain ⟨j, g, e1, e2, e3⟩ := o3.get (i := i) (by simpa [Func.guarded] using hi)
    have ho' : os[i]? = some o := ho
    rw [ho'] at e2
    cases e2
    simp only [Func.guarded, List.getElem?_range' hi, Option.some.injEq, Nat.one_mul] at e1
    subst e1
    rw [q2, ← hlen, List.getElem?_append_right (by omega), show env.length + i - env.length = i by omega, List.getElem?_map,
      List.getElem?_range hi] at e3
    simpa using e3.symm
  exact hcap.tidy q1.step.bld.wfc rfl rfl q1.step.bld.topo
end

end CC.Guard
