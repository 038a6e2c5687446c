import Verif.Spec.Repair

/-!
# Proofs about programs repaired by copying their outputs
-/

namespace CC.Repair
open Spec

/-! ### programs over numbers -/

theorem inputs_append (p q : List Stmt) : inputs (p ++ q) = inputs p + inputs q := by
  induction p with
  | nil => simp [inputs]
  | cons s p ih => cases s <;> simp [inputs, ih] <;> omega

theorem inputs_copying (outs : List Nat) (m : Nat) : inputs (copying m outs) = 0 := by
  induction outs generalizing m with
  | nil => rfl
  | cons i outs ih => simp [copying, inputs, ih]

theorem scoped_append {m : Nat} {p q : List Stmt} (h : Scoped m p) (h' : Scoped (m + p.length) q) : Scoped m (p ++ q) := by
  induction p generalizing m with
  | nil => simpa using h'
  | cons s p ih =>
    refine ⟨h.1, ih h.2 ?_⟩
    have e : m + (s :: p).length = m + 1 + p.length := by simp; omega
    rw [e] at h'
    exact h'

theorem scoped_copying {outs : List Nat} {m : Nat} (h : ∀ i ∈ outs, i < m) : Scoped m (copying m outs) := by
  induction outs generalizing m with
  | nil => trivial
  | cons i outs ih =>
    refine ⟨by simpa [Stmt.uses] using h i (by simp), by simp [Stmt.uses], ih fun j hj => ?_⟩
    have := h j (by simp [hj])
    omega

theorem fits_copying {n : Nat} (outs : List Nat) (m : Nat) : ∀ s ∈ copying m outs, s.Fits n := by
  induction outs generalizing m with
  | nil => simp [copying]
  | cons i outs ih =>
    intro s hs
    simp only [copying, List.mem_cons] at hs
    rcases hs with rfl | rfl | hs
    · trivial
    · trivial
    · exact ih _ s hs

theorem length_copying (outs : List Nat) (m : Nat) : (copying m outs).length = 2 * outs.length := by
  induction outs generalizing m with
  | nil => rfl
  | cons i outs ih => simp [copying, ih]; omega

theorem places_range {outs : List Nat} {m : Nat} : ∀ i ∈ places m outs, m < i ∧ i < m + 2 * outs.length := by
  induction outs generalizing m with
  | nil => simp [places]
  | cons i outs ih =>
    intro j hj
    simp only [places, List.mem_cons] at hj
    rcases hj with rfl | hj
    · simp; omega
    · have := ih j hj
      simp; omega

theorem origins_append (p q : List Stmt) (os : List Nat) : origins (p ++ q) os = origins q (origins p os) := by
  induction p generalizing os with
  | nil => rfl
  | cons s p ih => cases s <;> simp [origins, ih]

theorem origins_length (p : List Stmt) (os : List Nat) : (origins p os).length = os.length + p.length := by
  induction p generalizing os with
  | nil => rfl
  | cons s p ih => cases s <;> simp [origins, ih] <;> omega

/-- every copy was made by its own last statement -/
theorem origins_copying {outs : List Nat} {m : Nat} {os : List Nat} (hl : os.length = m) :
    os <+: origins (copying m outs) os ∧ ∀ i ∈ places m outs, (origins (copying m outs) os)[i]? = some i := by
  induction outs generalizing m os with
  | nil => simp [copying, places, origins]
  | cons j outs ih =>
    obtain ⟨h1, h2⟩ := ih (m := m + 2) (os := os ++ [os.length] ++ [(os ++ [os.length]).length]) (by simp; omega)
    simp only [copying, places, origins]
    refine ⟨(by simp : os <+: os ++ [os.length] ++ [(os ++ [os.length]).length]).trans h1, fun i hi => ?_⟩
    rcases List.mem_cons.1 hi with rfl | hi
    · obtain ⟨t, ht⟩ := h1
      rw [← ht]
      subst hl
      simp
    · exact h2 i hi

theorem places_sorted (outs : List Nat) (m : Nat) : (places m outs).Pairwise (· < ·) := by
  induction outs generalizing m with
  | nil => simp [places]
  | cons i outs ih =>
    refine List.pairwise_cons.2 ⟨fun j hj => ?_, ih _⟩
    have := (places_range j hj).1
    omega

theorem ordered (p : List Stmt) (outs : List Nat) : Ordered (p ++ copying p.length outs) (places p.length outs) := by
  obtain ⟨_, h⟩ := origins_copying (outs := outs) (m := p.length) (os := origins p []) (by simp [origins_length])
  refine List.Pairwise.imp_of_mem ?_ (places_sorted outs p.length)
  intro a b ha hb hab i j hi hj
  rw [origins_append, h a ha] at hi
  rw [origins_append, h b hb] at hj
  cases hi; cases hj
  exact .inr (by omega)

theorem exec_append {n : Nat} (p q : List Stmt) (xs env : List (BitVec n)) :
    (exec (p ++ q) xs env).isSome → ∃ env' ys, exec p xs env = some env' ∧ exec (p ++ q) xs env = exec q ys env' := by
  induction p generalizing xs env with
  | nil => exact fun _ => ⟨env, xs, rfl, rfl⟩
  | cons s p ih =>
    intro h
    cases s with
    | input =>
      cases xs with
      | nil => simp [exec] at h
      | cons x xs =>
        simp only [List.cons_append, exec] at h ⊢
        exact ih _ _ h
    | _ =>
      simp only [List.cons_append, exec] at h ⊢
      revert h
      cases Stmt.value env _ with
      | none => simp
      | some v => exact fun h => ih _ _ h

/-- the copies have the values of the originals -/
theorem exec_copying {n : Nat} {outs : List Nat} {xs env env0 env' : List (BitVec n)} (hp : env0 <+: env)
    (hi : ∀ i ∈ outs, i < env0.length) (h : exec (copying env.length outs) xs env = some env') :
    env <+: env' ∧ (places env.length outs).map (fun i => env'[i]?) = outs.map (fun i => env0[i]?) := by
  induction outs generalizing env with
  | nil => simp [copying, exec] at h; subst h; simp [places]
  | cons i outs ih =>
    have hi0 := hi i (by simp)
    obtain ⟨t, rfl⟩ := hp
    have e : (env0 ++ t)[i]? = some env0[i] := by simp [List.getElem?_append_left hi0]
    simp only [copying, exec, Stmt.value, e, Option.bind_eq_bind, Option.bind_some, Option.pure_def] at h
    have e2 : (env0 ++ t ++ [-env0[i]])[(env0 ++ t).length]? = some (-env0[i]) := by simp
    rw [e2] at h
    simp only [Option.bind_some, BitVec.neg_neg] at h
    have hl : (env0 ++ t).length + 2 = (env0 ++ t ++ [-env0[i]] ++ [env0[i]]).length := by simp; omega
    rw [hl] at h
    obtain ⟨h1, h2⟩ := ih (env := env0 ++ t ++ [-env0[i]] ++ [env0[i]]) ⟨t ++ [-env0[i]] ++ [env0[i]], by simp⟩
      (fun j hj => hi j (by simp [hj])) h
    refine ⟨(by simp : env0 ++ t <+: env0 ++ t ++ [-env0[i]] ++ [env0[i]]).trans h1, ?_⟩
    simp only [places, List.map_cons]
    rw [hl, h2]
    congr 1
    obtain ⟨u, rfl⟩ := h1
    rw [List.getElem?_append_left (by simp; omega), List.getElem?_append_right (by simp; omega)]
    have : (env0 ++ t).length + 1 - (env0 ++ t ++ [-env0[i]]).length = 0 := by simp; omega
    rw [this]
    simp [hi0]

theorem mapM_eq {α β γ : Type} {f : α → Option γ} {g : β → Option γ} {xs : List α} {ys : List β} (h : xs.map f = ys.map g) :
    xs.mapM f = ys.mapM g := by
  have e1 := List.mapM_map (m := Option) (f := f) (g := id) (l := xs)
  have e2 := List.mapM_map (m := Option) (f := g) (g := id) (l := ys)
  rw [h] at e1
  exact e1.symm.trans e2

theorem run {n : Nat} {p : List Stmt} {outs : List Nat} (hi : ∀ i ∈ outs, i < p.length) {xs vs : List (BitVec n)}
    (h : runProgram (p ++ copying p.length outs) (places p.length outs) xs = some vs) : runProgram p outs xs = some vs := by
  unfold runProgram at h ⊢
  cases he : exec (p ++ copying p.length outs) xs [] with
  | none => simp [he] at h
  | some env' =>
    obtain ⟨env, ys, k1, k2⟩ := exec_append p (copying p.length outs) xs [] (by simp [he])
    have hl : env.length = p.length := by
      have : ∀ (p : List Stmt) (xs e e' : List (BitVec n)), exec p xs e = some e' → e'.length = e.length + p.length := by
        intro p
        induction p with
        | nil => intro xs e e' h; simp only [exec, Option.some.injEq] at h; simp [h]
        | cons s p ih =>
          intro xs e e' h
          cases s with
          | input =>
            cases xs with
            | nil => simp [exec] at h
            | cons x xs =>
              simp only [exec] at h
              have := ih _ _ _ h
              simp only [List.length_append, List.length_cons, List.length_nil] at this ⊢
              omega
          | _ =>
            simp only [exec] at h
            revert h
            cases Stmt.value e _ with
            | none => simp
            | some v =>
              intro h
              have := ih _ _ _ h
              simp only [List.length_append, List.length_cons, List.length_nil] at this ⊢
              omega
      simpa using this p xs [] env k1
    rw [he] at k2
    obtain ⟨_, k3⟩ := exec_copying (outs := outs) (xs := ys) (List.prefix_refl env) (by rw [hl]; exact hi) (by rw [hl]; exact k2.symm)
    rw [hl] at k3
    rw [k1]
    rw [he] at h
    simp only [Option.bind_eq_bind, Option.bind_some] at h ⊢
    rw [← mapM_eq k3]
    exact h

/-! ### mixed programs -/

namespace Mix
open Spec.Mixed

theorem inputs_append (n : Nat) (p q : List Cmd) : Mixed.inputs n (p ++ q) = Mixed.inputs n p + Mixed.inputs n q := by
  induction p with
  | nil => simp [Mixed.inputs]
  | cons s p ih => simp [Mixed.inputs, ih]; omega

theorem inputs_copying (n : Nat) (p : List Cmd) (outs : List Nat) (m : Nat) : Mixed.inputs n (Mixed.copying p m outs) = 0 := by
  induction outs generalizing m with
  | nil => rfl
  | cons i outs ih =>
    rw [Mixed.copying, inputs_append, ih]
    cases kindOf p i <;> rfl

theorem kinds_append (p q : List Cmd) (ks : List Kind) : kinds (p ++ q) ks = (kinds p ks).bind (kinds q) := by
  induction p generalizing ks with
  | nil => rfl
  | cons c p ih =>
    simp only [List.cons_append, kinds]
    cases c.kind ks with
    | none => rfl
    | some k => exact ih _

theorem kinds_length {p : List Cmd} {ks ks' : List Kind} (h : kinds p ks = some ks') : ks'.length = ks.length + p.length := by
  induction p generalizing ks with
  | nil => simp [kinds] at h; simp [h]
  | cons c p ih =>
    simp only [kinds] at h
    revert h
    cases c.kind ks with
    | none => simp
    | some k =>
      intro h
      have := ih h
      simp only [List.length_append, List.length_cons, List.length_nil] at this ⊢
      omega

/-- the copies are well typed -/
theorem kinds_copying {p : List Cmd} {ks0 : List Kind} (h0 : kinds p [] = some ks0) {outs : List Nat} {ks : List Kind}
    (hp : ks0 <+: ks) (hi : ∀ i ∈ outs, i < ks0.length) : (kinds (Mixed.copying p ks.length outs) ks).isSome := by
  induction outs generalizing ks with
  | nil => rfl
  | cons i outs ih =>
    have hi0 := hi i (by simp)
    obtain ⟨t, rfl⟩ := hp
    have e : (ks0 ++ t)[i]? = some ks0[i] := by simp [List.getElem?_append_left hi0]
    have hk : kindOf p i = ks0[i] := by simp [kindOf, h0, hi0]
    have hi' : ∀ j ∈ outs, j < ks0.length := fun j hj => hi j (by simp [hj])
    rw [Mixed.copying, kinds_append, hk]
    cases hc : ks0[i] with
    | int =>
      have := ih (ks := ks0 ++ t ++ [.bits, .bits, .bits]) ⟨t ++ [.bits, .bits, .bits], by simp⟩ hi'
      simp only [List.length_append, List.length_cons, List.length_nil] at this
      rw [hc] at e
      have e2 : (ks0 ++ (t ++ [Kind.bits, Kind.bits]))[ks0.length + t.length + 1]? = some Kind.bits := by
        rw [← List.append_assoc, List.getElem?_append_right (by simp)]
        simp
      simpa [Kind.copy, kinds, Cmd.kind, e, e2] using this
    | bits =>
      have := ih (ks := ks0 ++ t ++ [.bits, .bits]) ⟨t ++ [.bits, .bits], by simp⟩ hi'
      simp only [List.length_append, List.length_cons, List.length_nil] at this
      rw [hc] at e
      simpa [Kind.copy, kinds, Cmd.kind, e] using this
    | bit =>
      have := ih (ks := ks0 ++ t ++ [.bit]) ⟨t ++ [.bit], by simp⟩ hi'
      simp only [List.length_append, List.length_cons, List.length_nil] at this
      rw [hc] at e
      simpa [Kind.copy, kinds, Cmd.kind, e] using this

theorem fits_copying {n : Nat} (p : List Cmd) (outs : List Nat) (m : Nat) : ∀ s ∈ Mixed.copying p m outs, s.Fits n := by
  induction outs generalizing m with
  | nil => simp [Mixed.copying]
  | cons i outs ih =>
    intro s hs
    simp only [Mixed.copying, List.mem_append] at hs
    rcases hs with hs | hs
    · revert hs
      generalize kindOf p i = k
      intro hs
      cases k <;> simp [Kind.copy] at hs
      · rcases hs with rfl | rfl | rfl <;> trivial
      · rcases hs with rfl | rfl <;> trivial
      · subst hs; trivial
    · exact ih _ s hs

theorem copy_pos (k : Kind) (i m : Nat) : 0 < (k.copy i m).length := by cases k <;> simp [Kind.copy]

theorem places_range {p : List Cmd} {outs : List Nat} {m : Nat} :
    ∀ i ∈ Mixed.places p m outs, m ≤ i ∧ i < m + (Mixed.copying p m outs).length := by
  induction outs generalizing m with
  | nil => simp [Mixed.places]
  | cons i outs ih =>
    intro j hj
    have := copy_pos (kindOf p i) i m
    simp only [Mixed.places, List.mem_cons, Mixed.copying, List.length_append] at hj ⊢
    rcases hj with rfl | hj
    · omega
    · have := ih j hj
      omega

theorem places_sorted (p : List Cmd) (outs : List Nat) (m : Nat) : (Mixed.places p m outs).Pairwise (· < ·) := by
  induction outs generalizing m with
  | nil => simp [Mixed.places]
  | cons i outs ih =>
    refine List.pairwise_cons.2 ⟨fun j hj => ?_, ih _⟩
    have := (places_range j hj).1
    have := copy_pos (kindOf p i) i m
    omega

theorem origins_append (p q : List Cmd) (os : List Nat) : Mixed.origins (p ++ q) os = Mixed.origins q (Mixed.origins p os) := by
  induction p generalizing os with
  | nil => rfl
  | cons s p ih => simp only [List.cons_append, Mixed.origins]; exact ih _

theorem origins_length (p : List Cmd) (os : List Nat) : (Mixed.origins p os).length = os.length + p.length := by
  induction p generalizing os with
  | nil => rfl
  | cons s p ih =>
    simp only [Mixed.origins, ih, List.length_append, List.length_cons, List.length_nil]
    omega

/-- the last statement of a copy makes its own gates -/
theorem origins_copy (k : Kind) (i : Nat) (os : List Nat) : ∃ t, Mixed.origins (k.copy i os.length) os =
    os ++ t ++ [os.length + (k.copy i os.length).length - 1] ∧ t.length + 1 = (k.copy i os.length).length := by
  cases k with
  | int => exact ⟨[os[i]?.getD 0, os.length + 1], by simp [Kind.copy, Mixed.origins, Cmd.reuses], rfl⟩
  | bits => exact ⟨[os.length], by simp [Kind.copy, Mixed.origins, Cmd.reuses], rfl⟩
  | bit => exact ⟨[], by simp [Kind.copy, Mixed.origins, Cmd.reuses], rfl⟩

theorem origins_copying {p : List Cmd} {outs : List Nat} {os : List Nat} :
    os <+: Mixed.origins (Mixed.copying p os.length outs) os ∧
    ∀ i ∈ Mixed.places p os.length outs, (Mixed.origins (Mixed.copying p os.length outs) os)[i]? = some i := by
  induction outs generalizing os with
  | nil => simp [Mixed.copying, Mixed.places, Mixed.origins]
  | cons j outs ih =>
    obtain ⟨t, ht, hl⟩ := origins_copy (kindOf p j) j os
    rw [Mixed.copying, Mixed.places, origins_append, ht]
    generalize hL : ((kindOf p j).copy j os.length).length = L at *
    have e : (os ++ t ++ [os.length + L - 1]).length = os.length + L := by simp; omega
    obtain ⟨h1, h2⟩ := ih (os := os ++ t ++ [os.length + L - 1])
    rw [e] at h1 h2
    refine ⟨(by simp : os <+: os ++ t ++ [os.length + L - 1]).trans h1, fun i hi => ?_⟩
    rcases List.mem_cons.1 hi with rfl | hi
    · obtain ⟨u, hu⟩ := h1
      rw [← hu, List.getElem?_append_left (by simp; omega), List.getElem?_append_right (by simp; omega)]
      have : os.length + L - 1 - (os ++ t).length = 0 := by simp; omega
      rw [this]; rfl
    · exact h2 i hi

theorem ordered (p : List Cmd) (outs : List Nat) :
    Mixed.Ordered (p ++ Mixed.copying p p.length outs) (Mixed.places p p.length outs) := by
  have hl : (Mixed.origins p []).length = p.length := by simp [origins_length]
  obtain ⟨_, h⟩ := origins_copying (p := p) (outs := outs) (os := Mixed.origins p [])
  rw [hl] at h
  refine List.Pairwise.imp_of_mem ?_ (places_sorted p outs p.length)
  intro a b ha hb hab i j hi hj
  rw [origins_append, h a ha] at hi
  rw [origins_append, h b hb] at hj
  cases hi; cases hj
  exact .inr (by omega)

theorem exec_append {n : Nat} (p q : List Cmd) (ins : List Bool) (env : List (Value n)) :
    ∃ ins', Mixed.exec (p ++ q) ins env = (Mixed.exec p ins env).bind (Mixed.exec q ins') := by
  induction p generalizing ins env with
  | nil => exact ⟨ins, rfl⟩
  | cons s p ih =>
    simp only [List.cons_append, Mixed.exec]
    cases s.value env ins with
    | none => exact ⟨ins, rfl⟩
    | some v => exact ih _ _

theorem exec_length {n : Nat} {p : List Cmd} {ins : List Bool} {env env' : List (Value n)}
    (h : Mixed.exec p ins env = some env') : env'.length = env.length + p.length := by
  induction p generalizing ins env with
  | nil => simp [Mixed.exec] at h; simp [h]
  | cons c p ih =>
    simp only [Mixed.exec] at h
    revert h
    cases c.value env ins with
    | none => simp
    | some v =>
      intro h
      have := ih h
      simp only [List.length_append, List.length_cons, List.length_nil] at this ⊢
      omega

/-- a copy has the bits of the original -/
theorem exec_copy {n : Nat} {k : Kind} {i : Nat} {ins : List Bool} {env env' : List (Value n)}
    (h : Mixed.exec (k.copy i env.length) ins env = some env') :
    ∃ t v u, env' = env ++ t ++ [v] ∧ env[i]? = some u ∧ v.out = u.out := by
  cases k with
  | int =>
    cases hu : env[i]? with
    | none => simp [Kind.copy, Mixed.exec, Cmd.value, getInt, hu] at h
    | some u =>
      cases u with
      | int x =>
        simp [Kind.copy, Mixed.exec, Cmd.value, getInt, getBits, hu] at h
        exact ⟨[.bits x, .bits (~~~x)], .bits x, .int x, by simp [← h], rfl, rfl⟩
      | bits x => simp [Kind.copy, Mixed.exec, Cmd.value, getInt, hu] at h
      | bit x => simp [Kind.copy, Mixed.exec, Cmd.value, getInt, hu] at h
  | bits =>
    cases hu : env[i]? with
    | none => simp [Kind.copy, Mixed.exec, Cmd.value, getBits, hu] at h
    | some u =>
      cases u with
      | int x => simp [Kind.copy, Mixed.exec, Cmd.value, getBits, hu] at h
      | bits x =>
        simp [Kind.copy, Mixed.exec, Cmd.value, getBits, hu] at h
        exact ⟨[.bits (~~~x)], .bits x, .bits x, by simp [← h], rfl, rfl⟩
      | bit x => simp [Kind.copy, Mixed.exec, Cmd.value, getBits, hu] at h
  | bit =>
    cases hu : env[i]? with
    | none => simp [Kind.copy, Mixed.exec, Cmd.value, getBit, hu] at h
    | some u =>
      cases u with
      | int x => simp [Kind.copy, Mixed.exec, Cmd.value, getBit, hu] at h
      | bits x => simp [Kind.copy, Mixed.exec, Cmd.value, getBit, hu] at h
      | bit x =>
        simp [Kind.copy, Mixed.exec, Cmd.value, getBit, hu] at h
        exact ⟨[], .bit x, .bit x, by simp [← h], rfl, rfl⟩

theorem exec_copying {n : Nat} {p : List Cmd} {outs : List Nat} {ins : List Bool} {env env0 env' : List (Value n)}
    (hp : env0 <+: env) (hi : ∀ i ∈ outs, i < env0.length)
    (h : Mixed.exec (Mixed.copying p env.length outs) ins env = some env') :
    env <+: env' ∧ (Mixed.places p env.length outs).map (fun i => (env'[i]?).map Value.out) =
      outs.map (fun i => (env0[i]?).map Value.out) := by
  induction outs generalizing env ins with
  | nil => simp [Mixed.copying, Mixed.exec] at h; subst h; simp [Mixed.places]
  | cons i outs ih =>
    have hi0 := hi i (by simp)
    rw [Mixed.copying] at h
    obtain ⟨ins', he⟩ := exec_append ((kindOf p i).copy i env.length)
      (Mixed.copying p (env.length + ((kindOf p i).copy i env.length).length) outs) ins env
    rw [he] at h
    cases hc : Mixed.exec ((kindOf p i).copy i env.length) ins env with
    | none => simp [hc] at h
    | some env1 =>
      rw [hc, Option.bind_some, ← exec_length hc] at h
      obtain ⟨t, v, u, e1, e2, e3⟩ := exec_copy hc
      have hp1 : env <+: env1 := ⟨t ++ [v], by simp [e1]⟩
      obtain ⟨h1, h2⟩ := ih (hp.trans hp1) (fun j hj => hi j (by simp [hj])) h
      refine ⟨hp1.trans h1, ?_⟩
      rw [Mixed.places, ← exec_length hc, List.map_cons, List.map_cons, h2]
      congr 1
      obtain ⟨s, rfl⟩ := h1
      obtain ⟨s', rfl⟩ := hp
      rw [List.getElem?_append_left hi0] at e2
      have el : env1.length - 1 = (env0 ++ s' ++ t).length := by simp [e1]; omega
      rw [el, e2, e1, List.getElem?_append_left (by simp), List.getElem?_append_right (by simp)]
      simp [e3]

theorem outs_eq {n : Nat} {env env' : List (Value n)} {xs ys : List Nat} {vs : List (Value n)}
    (h : xs.map (fun i => (env'[i]?).map Value.out) = ys.map (fun i => (env[i]?).map Value.out))
    (hv : xs.mapM (fun i => env'[i]?) = some vs) :
    ∃ us, ys.mapM (fun i => env[i]?) = some us ∧ us.flatMap Value.out = vs.flatMap Value.out := by
  induction xs generalizing ys vs with
  | nil =>
    cases ys with
    | nil => simp at hv; subst hv; exact ⟨[], rfl, rfl⟩
    | cons y ys => simp at h
  | cons x xs ih =>
    cases ys with
    | nil => simp at h
    | cons y ys =>
      rw [List.map_cons, List.map_cons, List.cons.injEq] at h
      cases hx : env'[x]? with
      | none => simp [hx] at hv
      | some v =>
        cases hy : env[y]? with
        | none => simp [hx, hy] at h
        | some u =>
          cases hm : xs.mapM (fun i => env'[i]?) with
          | none => simp [hx, hm] at hv
          | some vs' =>
            simp [hx, hm] at hv
            obtain ⟨us, k1, k2⟩ := ih h.2 hm
            have h1 : v.out = u.out := by simpa [hx, hy] using h.1
            exact ⟨u :: us, by simp [hy, k1], by simp [← hv, k2, h1]⟩

theorem run {n : Nat} {p : List Cmd} {outs : List Nat} (hi : ∀ i ∈ outs, i < p.length) {ins out : List Bool}
    (h : Mixed.runProgram n (p ++ Mixed.copying p p.length outs) (Mixed.places p p.length outs) ins = some out) :
    Mixed.runProgram n p outs ins = some out := by
  unfold Mixed.runProgram at h ⊢
  obtain ⟨ins', k⟩ := exec_append (n := n) p (Mixed.copying p p.length outs) ins []
  rw [k] at h
  cases k1 : Mixed.exec (n := n) p ins [] with
  | none => simp [k1] at h
  | some env =>
    have hl : env.length = p.length := by simpa using exec_length k1
    cases k2 : Mixed.exec (Mixed.copying p p.length outs) ins' env with
    | none => simp [k1, k2] at h
    | some env' =>
      rw [← hl] at k2 hi
      obtain ⟨_, k3⟩ := exec_copying (List.prefix_refl env) hi k2
      rw [hl] at k2 k3
      simp only [k1, k2, Option.bind_eq_bind, Option.bind_some] at h ⊢
      cases k4 : (Mixed.places p p.length outs).mapM (fun i => env'[i]?) with
      | none => simp [k4] at h
      | some vs =>
        obtain ⟨us, k5, k6⟩ := outs_eq k3 k4
        simp only [k4, Option.bind_some, Option.pure_def, Option.some.injEq] at h
        simp [k5, k6, h]

end Mix

/-! ### programs over field elements -/

namespace Field
open Spec.FieldProgram

theorem length_copying (outs : List Nat) (m : Nat) : (FieldProgram.copying m outs).length = 2 * outs.length := by
  induction outs generalizing m with
  | nil => rfl
  | cons i outs ih => simp [FieldProgram.copying, ih]; omega

theorem mem_copying {outs : List Nat} {m : Nat} : ∀ c ∈ FieldProgram.copying m outs, ∃ i, c = .neg i := by
  induction outs generalizing m with
  | nil => simp [FieldProgram.copying]
  | cons i outs ih =>
    intro c hc
    simp only [FieldProgram.copying, List.mem_cons] at hc
    rcases hc with rfl | rfl | hc
    · exact ⟨_, rfl⟩
    · exact ⟨_, rfl⟩
    · exact ih c hc

theorem arity_append (p q : List Cmd) : arity (p ++ q) = arity p + arity q := by
  induction p with
  | nil => simp [arity]
  | cons s p ih => simp [arity, ih]; omega

theorem arity_copying (outs : List Nat) (m : Nat) : arity (FieldProgram.copying m outs) = 0 := by
  induction outs generalizing m with
  | nil => rfl
  | cons i outs ih => simp [FieldProgram.copying, arity, Cmd.args, ih]

theorem kinds_append (p q : List Cmd) (ks : List Kind) : kinds (p ++ q) ks = (kinds p ks).bind (kinds q) := by
  induction p generalizing ks with
  | nil => rfl
  | cons c p ih =>
    simp only [List.cons_append, kinds]
    cases c.kind ks with
    | none => rfl
    | some k => exact ih _

theorem kinds_length {p : List Cmd} {ks ks' : List Kind} (h : kinds p ks = some ks') : ks'.length = ks.length + p.length := by
  induction p generalizing ks with
  | nil => simp [kinds] at h; simp [h]
  | cons c p ih =>
    simp only [kinds] at h
    revert h
    cases c.kind ks with
    | none => simp
    | some k =>
      intro h
      have := ih h
      simp only [List.length_append, List.length_cons, List.length_nil] at this ⊢
      omega

/-- the copies are field elements -/
theorem kinds_copying {ks0 : List Kind} {outs : List Nat} {ks : List Kind} (hp : ks0 <+: ks)
    (hi : ∀ i ∈ outs, ks0[i]? = some .elem) :
    kinds (FieldProgram.copying ks.length outs) ks = some (ks ++ List.replicate (2 * outs.length) .elem) := by
  induction outs generalizing ks with
  | nil => simp [FieldProgram.copying, kinds]
  | cons i outs ih =>
    have hi0 := hi i (by simp)
    obtain ⟨t, rfl⟩ := hp
    have e : (ks0 ++ t)[i]? = some .elem := by
      have : i < ks0.length := by
        refine Nat.lt_of_not_le fun h => ?_
        simp [List.getElem?_eq_none h] at hi0
      rw [List.getElem?_append_left this, hi0]
    have := ih (ks := ks0 ++ t ++ [.elem, .elem]) ⟨t ++ [.elem, .elem], by simp⟩ (fun j hj => hi j (by simp [hj]))
    simp only [List.length_append, List.length_cons, List.length_nil] at this
    have e3 : 2 * (i :: outs).length = 2 * outs.length + 2 := by simp; omega
    rw [e3]
    simp [FieldProgram.copying, kinds, Cmd.kind, e]
    simpa [List.replicate_succ] using this

theorem places_elem {ks : List Kind} {outs : List Nat} : ∀ i ∈ places ks.length outs,
    (ks ++ List.replicate (2 * outs.length) Kind.elem)[i]? = some .elem := by
  intro i hi
  have := places_range i hi
  rw [List.getElem?_append_right (by omega), List.getElem?_replicate, if_pos (by omega)]

theorem ordered (p : List Cmd) (outs : List Nat) (m : Nat) : FieldProgram.Ordered p (places m outs) :=
  (places_sorted outs m).imp fun h => .inr (by omega)

theorem meaning_append (p : Nat) (l q : List Cmd) (xs : List Nat) (env : List FValue) :
    ∃ ys, meaning p (l ++ q) xs env = (meaning p l xs env).bind (meaning p q ys) := by
  induction l generalizing xs env with
  | nil => exact ⟨xs, rfl⟩
  | cons s l ih =>
    simp only [List.cons_append, meaning]
    cases s.meaning p env xs with
    | none => exact ⟨xs, rfl⟩
    | some v => exact ih _ _

/-- every number is reduced -/
def Reduced (p : Nat) (env : List FValue) : Prop := ∀ v : Int, FValue.elem v ∈ env → v % p = v

theorem meaning_reduced {p : Nat} {l : List Cmd} {xs : List Nat} {env env' : List FValue} (h : Reduced p env)
    (hm : meaning p l xs env = some env') : Reduced p env' ∧ env'.length = env.length + l.length := by
  induction l generalizing xs env with
  | nil => simp [meaning] at hm; subst hm; exact ⟨h, rfl⟩
  | cons c l ih =>
    simp only [meaning] at hm
    revert hm
    cases hc : c.meaning p env xs with
    | none => simp
    | some v =>
      intro hm
      have hv : ∀ u, v = .elem u → u % p = u := by
        rintro u rfl
        cases c <;> simp only [Cmd.meaning, Option.bind_eq_bind, Option.pure_def, Option.some.injEq, Option.bind_eq_some_iff,
          FValue.elem.injEq, reduceCtorEq, and_false, exists_false] at hc
        · obtain ⟨_, _, rfl⟩ := hc; exact Int.emod_emod _ _
        · subst hc; exact Int.emod_emod _ _
        · subst hc; exact Int.emod_emod _ _
        · subst hc; exact Int.emod_emod _ _
        · obtain ⟨_, _, _, _, rfl⟩ := hc; exact Int.emod_emod _ _
        · obtain ⟨_, _, _, _, rfl⟩ := hc; exact Int.emod_emod _ _
        · obtain ⟨_, _, _, _, rfl⟩ := hc; exact Int.emod_emod _ _
        · obtain ⟨_, _, rfl⟩ := hc; exact Int.emod_emod _ _
      obtain ⟨h1, h2⟩ := ih (env := env ++ [v]) (fun u hu => by
        rcases List.mem_append.1 hu with hu | hu
        · exact h u hu
        · exact hv u (List.mem_singleton.1 hu).symm) hm
      refine ⟨h1, ?_⟩
      simp only [List.length_append, List.length_cons, List.length_nil] at h2 ⊢
      omega

theorem neg_neg_mod (p : Nat) (v : Int) : -(-v % p) % p = v % p := by
  have e : -(-v % (p : Int)) = v + p * (-v / p) := by
    have := Int.emod_add_mul_ediv (-v) p
    omega
  rw [e, Int.add_mul_emod_self_left]

/-- the copies have the values of the originals -/
theorem meaning_copying {p : Nat} {outs : List Nat} {xs : List Nat} {env env0 env' : List FValue} (hp : env0 <+: env)
    (hr : Reduced p env0) (hi : ∀ i ∈ outs, i < env0.length)
    (h : meaning p (FieldProgram.copying env.length outs) xs env = some env') :
    env <+: env' ∧ (places env.length outs).map (fun i => env'[i]?) = outs.map (fun i => env0[i]?) := by
  induction outs generalizing env xs with
  | nil => simp [FieldProgram.copying, meaning] at h; subst h; simp [places]
  | cons i outs ih =>
    have hi0 := hi i (by simp)
    obtain ⟨t, rfl⟩ := hp
    have e : (env0 ++ t)[i]? = some env0[i] := by simp [List.getElem?_append_left hi0]
    cases hx : env0[i] with
    | bit b => simp [FieldProgram.copying, meaning, Cmd.meaning, fElem, e, hx] at h
    | elem v =>
      have hv : v % p = v := hr v (by rw [← hx]; exact List.getElem_mem hi0)
      rw [hx] at e
      have e2 : (env0 ++ t ++ [FValue.elem (-v % p)])[(env0 ++ t).length]? = some (.elem (-v % p)) := by simp
      simp only [FieldProgram.copying, meaning, Cmd.meaning, fElem, e, e2, Option.bind_eq_bind, Option.bind_some,
        Option.pure_def, neg_neg_mod, hv] at h
      have hl : (env0 ++ t).length + 2 = (env0 ++ t ++ [FValue.elem (-v % p)] ++ [FValue.elem v]).length := by simp; omega
      rw [hl] at h
      obtain ⟨h1, h2⟩ := ih (env := env0 ++ t ++ [FValue.elem (-v % p)] ++ [FValue.elem v])
        ⟨t ++ [FValue.elem (-v % p)] ++ [FValue.elem v], by simp⟩ (fun j hj => hi j (by simp [hj])) h
      refine ⟨(by simp : env0 ++ t <+: env0 ++ t ++ [FValue.elem (-v % p)] ++ [FValue.elem v]).trans h1, ?_⟩
      simp only [places, List.map_cons]
      rw [hl, h2]
      congr 1
      obtain ⟨u, rfl⟩ := h1
      rw [List.getElem?_append_left (by simp; omega), List.getElem?_append_right (by simp; omega)]
      have : (env0 ++ t).length + 1 - (env0 ++ t ++ [FValue.elem (-v % p)]).length = 0 := by simp; omega
      rw [this]
      simp [hi0, hx]

theorem places_length (outs : List Nat) (m : Nat) : (places m outs).length = outs.length := by
  induction outs generalizing m with
  | nil => rfl
  | cons i outs ih => simp [places, ih]

end Field
end CC.Repair
