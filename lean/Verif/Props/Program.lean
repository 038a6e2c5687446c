import Verif.Proofs.Program
import Verif.Props.Evaluator
import Verif.Props.Int

/-!
# C32: straight-line programs
-/

namespace CC.Props
open CC Spec Arith

/-- C32, for programs whose constants fit and whose shift amounts are at most the width: the program builds, and
evaluating the circuit on the bits of any input words returns the bits of the chosen values computed by `exec` on
`BitVec n`. Any number of values may be chosen, in any order, if the width is at least 2 and there are no comparisons.
Otherwise they must be declared in the order in which they were made. -/
theorem C32_program_partial {w : World} (hw : Reachable w) {st : StoreRef} (hst : st < w.stores.length) {n : Nat}
    (hn : 1 ≤ n) {p : List Stmt} {outs : List Nat} (hsc : Scoped 0 p) (hfit : ∀ s ∈ p, s.Fits n)
    (houts : ∀ i ∈ outs, i < p.length) (hord : Ordered p outs ∨ 2 ≤ n ∧ ∀ s ∈ p, s.arith = true) :
    ∃ r w', compile st n p outs w = (.ok r, w') ∧ ∃ F, ∀ fuel ≥ F, ∀ xs : List (BitVec n), xs.length = inputs p →
      ∃ vs, runProgram p outs xs = some vs ∧
        evalOutput w' fuel r (xs.flatMap fun x => bitsOf n x.toNat) = .ok (vs.flatMap fun v => bitsOf n v.toNat) := by
  obtain ⟨r, w', c, h1, h2, h3, _, h4, h5⟩ := compile_ok hw hst hn hsc hfit houts
  have h3 := h3 hord
  have hr : Reachable w' := by
    have := later_reachable hw (plays_compile st n p outs w)
    rw [h1] at this; exact this
  obtain ⟨F, hF⟩ := C11_local_partial hr h2 h3
  refine ⟨r, w', h1, F, fun fuel hf xs hxs => ?_⟩
  obtain ⟨vs, k1, k2⟩ := h5 xs hxs
  have k3 := k2
  obtain ⟨d, hd, hl, _⟩ := k3
  rw [h2] at hd; cases hd
  obtain ⟨os, e1, e2⟩ := hF fuel hf _ hl
  exact ⟨vs, k1, by rw [e1, e2.det k2]⟩

/-- C32 for a program with one result: no condition on widths, order or comparisons remains. -/
theorem C32_single_partial {w : World} (hw : Reachable w) {st : StoreRef} (hst : st < w.stores.length) {n : Nat}
    (hn : 1 ≤ n) {p : List Stmt} {out : Nat} (hsc : Scoped 0 p) (hfit : ∀ s ∈ p, s.Fits n) (hout : out < p.length) :
    ∃ r w', compile st n p [out] w = (.ok r, w') ∧ ∃ F, ∀ fuel ≥ F, ∀ xs : List (BitVec n), xs.length = inputs p →
      ∃ env v, exec p xs [] = some env ∧ env[out]? = some v ∧
        evalOutput w' fuel r (xs.flatMap fun x => bitsOf n x.toNat) = .ok (bitsOf n v.toNat) := by
  obtain ⟨r, w', h1, F, h2⟩ := C32_program_partial (outs := [out]) hw hst hn hsc hfit (by simpa using hout)
    (.inl (by simp [Ordered]))
  refine ⟨r, w', h1, F, fun fuel hf xs hxs => ?_⟩
  obtain ⟨vs, k1, k2⟩ := h2 fuel hf xs hxs
  unfold runProgram at k1
  cases he : exec p xs [] with
  | none => simp [he] at k1
  | some env =>
    cases hv : env[out]? with
    | none => simp [he, hv] at k1
    | some v =>
      simp [he, hv] at k1
      subst k1
      exact ⟨env, v, rfl, hv, by simpa using k2⟩

/-- `z = x*y - (x << 1); u = z*z + 5; u + (z == x)`: sharing, a constant, a shift and a comparison -/
def demoProgram : List Stmt :=
  [.input, .input, .mul 0 1, .shl 0 1, .sub 2 3, .mul 4 4, .const 5, .add 5 6, .eq 4 0, .add 7 8, .neg 9, .shr 10 2]

example : Scoped 0 demoProgram ∧ (∀ s ∈ demoProgram, s.Fits 8) ∧ Ordered demoProgram [4, 9, 10, 11] ∧
    runProgram (n := 8) demoProgram [9, 11] [7, 3] = some [55, 242] := by
  refine ⟨by simp [demoProgram, Scoped, Stmt.uses], ?_, by simp [demoProgram, Ordered, origins], by decide⟩
  intro s hs
  simp only [demoProgram, List.mem_cons, List.not_mem_nil, or_false] at hs
  rcases hs with rfl | rfl | rfl | rfl | rfl | rfl | rfl | rfl | rfl | rfl | rfl | rfl <;>
    first | trivial | exact ⟨1, by decide, by decide, by decide⟩ | (show _ ≤ _; decide)

/-- the heap after compiling in an empty heap -/
def compiled (n : Nat) (p : List Stmt) (outs : List Nat) : World := (compile 0 n p outs (run [.newStorage])).2

set_option maxRecDepth 100000 in
example : let p := [.input, .input, .mul 0 1, .const 5, .sub 2 3, .eq 4 0, .shr 4 2]
    runProgram (n := 8) p [4, 5, 6] [7, 33] = some [226, 0, 248] ∧
    evalOutput (compiled 8 p [4, 5, 6]) 100 0 (bitsOf 8 7 ++ bitsOf 8 33) = .ok (bitsOf 8 226 ++ bitsOf 8 0 ++ bitsOf 8 248) :=
  ⟨by decide, by decide +kernel⟩

/-- C32 as stated is false: `shift_left` by more than the width returns a value with too many gates, and a circuit that
uses it in an addition builds but cannot be evaluated. -/
theorem C32_full_false : ∃ n p out, 2 ≤ n ∧ Scoped 0 p ∧ out < p.length ∧ (∀ s ∈ p, s.arith = true) ∧
    (compile 0 n p [out] (run [.newStorage])).1 = .ok 0 ∧ inputs p = 1 ∧ (exec (n := n) p [3] []).isSome ∧
    ∀ fuel ≥ 100, evalOutput (compiled n p [out]) fuel 0 (bitsOf n 3) = .error (.panic .assertFailed) := by
  refine ⟨2, [.input, .shl 0 3, .add 0 1], 2, by decide, by simp [Scoped, Stmt.uses], by decide, by simp [Stmt.arith],
    by decide +kernel, rfl, by decide, fun fuel hf => ?_⟩
  have h : evalOutput (compiled 2 [.input, .shl 0 3, .add 0 1] [2]) 100 0 (bitsOf 2 3) = .error (.panic .assertFailed) := by
    decide +kernel
  rw [C13_stable _ (by rw [h]; simp) hf, h]

/-- the order condition cannot be dropped for programs with comparisons: the comparison `x == y` is output first, then
`x` cannot be read -/
theorem C32_order_needed : Scoped 0 [.input, .input, .eq 0 1] ∧ ¬ Ordered [.input, .input, .eq 0 1] [2, 0] ∧
    (compile 0 2 [.input, .input, .eq 0 1] [2, 0] (run [.newStorage])).1 = .ok 0 ∧
    ∀ fuel ≥ 100, evalOutput (compiled 2 [.input, .input, .eq 0 1] [2, 0]) fuel 0 [true, false, true, false] =
      .error (.unknownEvaledBit 0) := by
  refine ⟨by simp [Scoped, Stmt.uses], by simp [Ordered, origins, Stmt.source], by decide +kernel, fun fuel hf => ?_⟩
  have h : evalOutput (compiled 2 [.input, .input, .eq 0 1] [2, 0]) 100 0 [true, false, true, false] =
    .error (.unknownEvaledBit 0) := by decide +kernel
  rw [C13_stable _ (by rw [h]; simp) hf, h]

/-- nor for width 1 -/
theorem C32_width_needed : Scoped 0 [.input, .input, .add 0 1] ∧
    (compile 0 1 [.input, .input, .add 0 1] [2, 0] (run [.newStorage])).1 = .ok 0 ∧
    ∀ fuel ≥ 100, evalOutput (compiled 1 [.input, .input, .add 0 1] [2, 0]) fuel 0 [true, false] =
      .error (.unknownEvaledBit 0) := by
  refine ⟨by simp [Scoped, Stmt.uses], by decide +kernel, fun fuel hf => ?_⟩
  have h : evalOutput (compiled 1 [.input, .input, .add 0 1] [2, 0]) 100 0 [true, false] = .error (.unknownEvaledBit 0) := by
    decide +kernel
  rw [C13_stable _ (by rw [h]; simp) hf, h]

end CC.Props
