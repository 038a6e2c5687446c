import Verif.Proofs.Repair
import Verif.Props.Mixed
import Verif.Props.FieldProgram

/-!
# C32, C68, C76: every program can be repaired by copying its outputs
-/

namespace CC.Props
open CC Spec

/-- C32 repaired: if every chosen value is copied (negated twice) before the copies are declared as outputs, the program
builds, and its circuit returns the values `exec` computes for the program without copies. There is no condition on the
order of the outputs, the width or comparisons. -/
theorem C32_repaired {w : World} (hw : Reachable w) {st : StoreRef} (hst : st < w.stores.length) {n : Nat}
    (hn : 1 ≤ n) {p : List Stmt} {outs : List Nat} (hsc : Scoped 0 p) (hfit : ∀ s ∈ p, s.Fits n)
    (houts : ∀ i ∈ outs, i < p.length) :
    ∃ r w', compile st n (p ++ copying p.length outs) (places p.length outs) w = (.ok r, w') ∧
      ∃ F, ∀ fuel ≥ F, ∀ xs : List (BitVec n), xs.length = inputs p → ∃ vs, runProgram p outs xs = some vs ∧
        evalOutput w' fuel r (xs.flatMap fun x => bitsOf n x.toNat) = .ok (vs.flatMap fun v => bitsOf n v.toNat) := by
  obtain ⟨r, w', h1, F, h2⟩ := C32_program_partial (p := p ++ copying p.length outs) (outs := places p.length outs) hw hst hn
    (Repair.scoped_append hsc (by simpa using Repair.scoped_copying houts))
    (fun s hs => (List.mem_append.1 hs).elim (hfit s) (Repair.fits_copying outs _ s))
    (fun i hi => by
      have := (Repair.places_range i hi).2
      simp only [List.length_append, Repair.length_copying]
      exact this)
    (.inl (Repair.ordered p outs))
  refine ⟨r, w', h1, F, fun fuel hf xs hxs => ?_⟩
  obtain ⟨vs, k1, k2⟩ := h2 fuel hf xs (by rw [hxs, Repair.inputs_append, Repair.inputs_copying]; rfl)
  exact ⟨vs, Repair.run houts k1, k2⟩

/-- the program of `C32_order_needed` with its outputs out of order, and the one of `C32_width_needed` -/
example : Scoped 0 [.input, .input, .eq 0 1] ∧ (∀ s ∈ ([.input, .input, .eq 0 1] : List Stmt), s.Fits 2) ∧
    ¬ Ordered [.input, .input, .eq 0 1] [2, 0] ∧ copying 3 [2, 0] = [.neg 2, .neg 3, .neg 0, .neg 5] ∧ places 3 [2, 0] = [4, 6] :=
  ⟨by simp [Scoped, Stmt.uses], by simp [Stmt.Fits], by simp [Ordered, origins, Stmt.source], rfl, rfl⟩

set_option maxRecDepth 100000 in
example : evalOutput (compiled 2 ([.input, .input, .eq 0 1] ++ copying 3 [2, 0]) (places 3 [2, 0])) 100 0 [true, false, true, false] =
    .ok [true, false, true, false] ∧
    evalOutput (compiled 1 ([.input, .input, .add 0 1] ++ copying 3 [2, 0]) (places 3 [2, 0])) 100 0 [true, false] =
    .ok [true, true] :=
  ⟨by decide +kernel, by decide +kernel⟩

/-- C68 repaired: if every chosen value is copied (numbers as bit strings and complemented twice, bits by `identity`)
before the copies are declared as outputs, the program builds, and its circuit returns the bits of the values `exec`
computes for the program without copies. There is no condition on the order of the outputs. -/
theorem C68_repaired {w : World} (hw : Reachable w) {st : StoreRef} (hst : st < w.stores.length) {n : Nat} (hn : 1 ≤ n)
    {p : List Mixed.Cmd} {outs : List Nat} (hty : (Mixed.kinds p []).isSome) (hfit : ∀ c ∈ p, c.Fits n)
    (houts : ∀ i ∈ outs, i < p.length) :
    ∃ r w', Mixed.compile st n (p ++ Mixed.copying p p.length outs) (Mixed.places p p.length outs) w = (.ok r, w') ∧
      ∃ F, ∀ fuel ≥ F, ∀ ins : List Bool, ins.length = Mixed.inputs n p →
        ∃ out, Mixed.runProgram n p outs ins = some out ∧ evalOutput w' fuel r ins = .ok out := by
  obtain ⟨ks, hks⟩ := Option.isSome_iff_exists.1 hty
  have hl : ks.length = p.length := by simpa using Repair.Mix.kinds_length hks
  obtain ⟨r, w', h1, F, h2⟩ := C68_program_partial (p := p ++ Mixed.copying p p.length outs)
    (outs := Mixed.places p p.length outs) hw hst hn
    (by
      rw [Repair.Mix.kinds_append, hks, Option.bind_some, ← hl]
      exact Repair.Mix.kinds_copying hks (List.prefix_refl ks) (by rw [hl]; exact houts))
    (fun s hs => (List.mem_append.1 hs).elim (hfit s) (Repair.Mix.fits_copying p outs _ s))
    (fun i hi => by
      have := (Repair.Mix.places_range i hi).2
      simp only [List.length_append]
      exact this)
    (Repair.Mix.ordered p outs)
  refine ⟨r, w', h1, F, fun fuel hf ins hins => ?_⟩
  obtain ⟨out, k1, k2⟩ := h2 fuel hf ins (by rw [hins, Repair.Mix.inputs_append, Repair.Mix.inputs_copying]; rfl)
  exact ⟨out, Repair.Mix.run houts k1, k2⟩

/-- the program of `C68_order_needed` with its outputs out of order, and one with a bit string -/
example : let p : List Mixed.Cmd := [.newInt, .newInt, .less 0 1, .toBits 1]
    (Mixed.kinds p []).isSome ∧ (∀ c ∈ p, c.Fits 2) ∧ ¬ Mixed.Ordered p [2, 0, 3] ∧
    Mixed.copying p 4 [2, 0, 3] = [.identity 2, .toBits 0, .notBits 5, .notBits 6, .notBits 3, .notBits 8] ∧
    Mixed.places p 4 [2, 0, 3] = [4, 7, 9] :=
  ⟨by decide, by simp [Mixed.Cmd.Fits], by simp [Mixed.Ordered, Mixed.origins, Mixed.Cmd.reuses, Mixed.Cmd.source], rfl, rfl⟩

set_option maxRecDepth 100000 in
example : let p : List Mixed.Cmd := [.newInt, .newInt, .less 0 1, .toBits 1]
    evalOutput (mixedHeap 2 p [2, 0, 3]) 100 0 [true, false, false, true] = .error (.unknownEvaledBit 0) ∧
    evalOutput (mixedHeap 2 (p ++ Mixed.copying p 4 [2, 0, 3]) (Mixed.places p 4 [2, 0, 3])) 100 0 [true, false, false, true] =
      .ok [true, true, false, false, true] :=
  ⟨by decide +kernel, by decide +kernel⟩

/-- C76 repaired: if every chosen element is copied (negated twice) before the copies are declared as outputs, no condition on
the order of the outputs remains: every returned number is at most `p` and congruent modulo `p` to the meaning of the
statement of which it is a copy. Programs without multiplication, as in `C76_modulo_partial`. -/
theorem C76_repaired {w : World} (hw : Reachable w) {st : StoreRef} (hst : st < w.stores.length) {n p rExp : Nat}
    (hf : FieldFits n p rExp) (hp : 1 ≤ p) (hroom : 2 * p < 2 ^ (n - 1))
    {prog : List FieldProgram.Cmd} {outs : List Nat} {ks : List FieldProgram.Kind} (hty : FieldProgram.kinds prog [] = some ks)
    (hfit : ∀ c ∈ prog, c.Fits p) (hmul : ∀ c ∈ prog, c.isMul = false) (houts : ∀ i ∈ outs, ks[i]? = some .elem) :
    ∃ r w', FieldProgram.compile st n p rExp (prog ++ FieldProgram.copying prog.length outs) (places prog.length outs) w = (.ok r, w') ∧
      ∃ F, ∀ fuel ≥ F, ∀ xs : List Nat, xs.length = FieldProgram.arity prog → (∀ x ∈ xs, x ≤ p) →
      ∃ (env : List FieldProgram.FValue) (vs : List Nat), FieldProgram.meaning p prog xs [] = some env ∧
        evalOutput w' fuel r (FieldProgram.encode n xs) = .ok (FieldProgram.encode n vs) ∧ vs.length = outs.length ∧
        ∀ (k i v : Nat), outs[k]? = some i → vs[k]? = some v → v ≤ p ∧ env[i]? = some (.elem ((v : Int) % p)) := by
  have hl : ks.length = prog.length := by simpa using Repair.Field.kinds_length hty
  have hcopy : ∀ c ∈ FieldProgram.copying prog.length outs, ∃ i, c = .neg i := Repair.Field.mem_copying
  obtain ⟨r, w', h1, F, h2⟩ := C76_modulo_partial hw hst hf hp hroom (prog := prog ++ FieldProgram.copying prog.length outs)
    (outs := places prog.length outs) (ks := ks ++ List.replicate (2 * outs.length) .elem)
    (by
      rw [Repair.Field.kinds_append, hty, Option.bind_some, ← hl]
      exact Repair.Field.kinds_copying (List.prefix_refl ks) houts)
    (fun c hc => (List.mem_append.1 hc).elim (hfit c) fun h => by obtain ⟨i, rfl⟩ := hcopy c h; trivial)
    (fun c hc => (List.mem_append.1 hc).elim (hmul c) fun h => by obtain ⟨i, rfl⟩ := hcopy c h; rfl)
    (by rw [← hl]; exact Repair.Field.places_elem) (Repair.Field.ordered _ _ _)
  refine ⟨r, w', h1, F, fun fuel hF xs hxl hx => ?_⟩
  obtain ⟨env', vs, k1, k2, k3, k4⟩ := h2 fuel hF xs
    (by rw [hxl, Repair.Field.arity_append, Repair.Field.arity_copying]; rfl) hx
  obtain ⟨ys, k5⟩ := Repair.Field.meaning_append p prog (FieldProgram.copying prog.length outs) xs []
  rw [k1] at k5
  cases hm : FieldProgram.meaning p prog xs [] with
  | none => rw [hm] at k5; simp at k5
  | some env =>
    rw [hm, Option.bind_some] at k5
    obtain ⟨hr, hel⟩ := Repair.Field.meaning_reduced (p := p) (env := []) (by intro v hv; cases hv) hm
    have hel : env.length = prog.length := by simpa using hel
    obtain ⟨_, k6⟩ := Repair.Field.meaning_copying (outs := outs) (List.prefix_refl env) hr
      (fun i hi => by rw [hel, ← hl]; exact lt_of_getElem? (houts i hi)) (by rw [hel]; exact k5.symm)
    rw [hel] at k6
    refine ⟨env, vs, rfl, k2, by rw [k3, Repair.Field.places_length], fun k i v hk hv => ?_⟩
    have hkp : k < (places prog.length outs).length := by rw [Repair.Field.places_length]; exact lt_of_getElem? hk
    obtain ⟨q1, q2⟩ := k4 k _ v (List.getElem?_eq_getElem hkp) hv
    refine ⟨q1, ?_⟩
    have e := congrArg (fun l => l[k]?) k6
    simp only [List.getElem?_map, hk, List.getElem?_eq_getElem hkp, Option.map_some, Option.some.injEq] at e
    rw [← e]; exact q2

/-- outputs out of order -/
example : FieldFits 8 11 4 ∧ ¬ FieldProgram.Ordered fieldProgram [8, 2, 4] ∧
    (∀ i ∈ [8, 2, 4], ((FieldProgram.kinds fieldProgram []).getD [])[i]? = some .elem) ∧
    FieldProgram.copying 14 [8, 2, 4] = [.neg 8, .neg 14, .neg 2, .neg 16, .neg 4, .neg 18] ∧ places 14 [8, 2, 4] = [15, 17, 19] :=
  ⟨fits11, by simp [fieldProgram, FieldProgram.Ordered, FieldProgram.Cmd.source], by decide, rfl, rfl⟩

end CC.Props
