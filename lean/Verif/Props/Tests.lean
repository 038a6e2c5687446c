import Verif.Spec.Tests
import Verif.Proofs.TestLogic
import Verif.Props.Fp

/-!
# C67: the repository's tests with random inputs pass for every choice
-/

namespace CC.Props
open CC Spec

/-- C67 for `add_sub_mul_test`, at every width: the test uses 256 -/
theorem C67_add_sub_mul {n : Nat} (hn : 1 ≤ n) : Passes (Tests.addSubMul n) (3 * n) fun _ => [true] :=
  fun _ hw => addSubMul_ok hw hn

/-- C67 for the test `less`, at every width but 1, also where `x + 1` wraps around -/
theorem C67_less {n : Nat} (hn : 2 ≤ n) : Passes (Tests.less n) n fun _ => [true, false] := fun _ hw => less_ok hw hn

/-- C67 for the test `larger` -/
theorem C67_larger {n : Nat} (hn : 2 ≤ n) : Passes (Tests.larger n) n fun _ => [true, false] := fun _ hw => larger_ok hw hn

/-- C67 for `fp_add_sub_mul_test`, for every modulus and radix that fit the width: the test uses 11, 4 and 8 -/
theorem C67_field {n p rExp : Nat} (hf : FieldFits n p rExp) (hp : 1 ≤ p) (hroom : p ≤ 2 ^ (n - 1)) :
    Passes (Tests.fpAddSubMul n p rExp) (3 * n) fun _ => [true, true] := fun _ hw => fpAddSubMul_ok hw hf hp hroom

/-- C67 for the test `not` -/
theorem C67_not (n : Nat) : Passes (Tests.not n) n fun ins => ins.map (!·) := fun _ hw => notTest_ok hw n

theorem passes_binary {test : Nat → M Ref} {φ : Bool → Bool → Bool} (n : Nat)
    (h : ∀ {w}, Reachable w → ∃ r w', test n w = (.ok r, w') ∧ ∃ F, ∀ fuel ≥ F, ∀ x y : List Bool, x.length = n →
      y.length = n → evalOutput w' fuel r (x ++ y) = .ok (List.zipWith φ x y)) :
    Passes (test n) (2 * n) fun ins => List.zipWith φ (ins.take n) (ins.drop n) := by
  intro w hw
  obtain ⟨r, w', e, F, hF⟩ := h hw
  refine ⟨r, w', e, F, fun fuel hf ins hl => ?_⟩
  have := hF fuel hf (ins.take n) (ins.drop n) (by simp; omega) (by simp; omega)
  rwa [List.take_append_drop] at this

/-- C67 for the test `and` -/
theorem C67_and (n : Nat) : Passes (Tests.and n) (2 * n) fun ins => List.zipWith (· && ·) (ins.take n) (ins.drop n) :=
  passes_binary n fun hw => andTest_ok hw n

/-- C67 for the test `or` -/
theorem C67_or (n : Nat) : Passes (Tests.or n) (2 * n) fun ins => List.zipWith (· || ·) (ins.take n) (ins.drop n) :=
  passes_binary n fun hw => orTest_ok hw n

/-- C67 for the test `xor` -/
theorem C67_xor (n : Nat) : Passes (Tests.xor n) (2 * n) fun ins => List.zipWith (· != ·) (ins.take n) (ins.drop n) :=
  passes_binary n fun hw => xorTest_ok hw n

example : Passes (Tests.addSubMul 256) 768 fun _ => [true] := C67_add_sub_mul (by decide)
example : Passes (Tests.less 256) 256 fun _ => [true, false] := C67_less (by decide)
example : Passes (Tests.larger 256) 256 fun _ => [true, false] := C67_larger (by decide)
example : Passes (Tests.fpAddSubMul 8 11 4) 24 fun _ => [true, true] := C67_field fits11 (by decide) (by decide)
example : Passes (Tests.not 256) 256 fun ins => ins.map (!·) := C67_not 256

set_option maxRecDepth 100000 in
example : (Tests.less 3 (run [])).1 = .ok 0 ∧
    evalOutput (Tests.less 3 (run [])).2 100 0 [true, true, true] = .ok [true, false] ∧
    (Tests.xor 2 (run [])).1 = .ok 0 ∧
    evalOutput (Tests.xor 2 (run [])).2 100 0 [true, false, true, true] = .ok [false, true] ∧
    evalOutput (Tests.addSubMul 2 (run [])).2 100 0 [true, false, true, true, false, true] = .ok [true] := by
  decide +kernel

/-- At width 1 the test `less` would fail: there `x + 1` is both larger and smaller than `x`. -/
theorem C67_narrow_false : ¬ Passes (Tests.less 1) 1 fun _ => [true, false] := by
  intro h
  obtain ⟨r, w', e, F, hF⟩ := h _ (run_reachable [])
  have e1 : (Tests.less 1 (run [])).1 = .ok 0 := by decide +kernel
  have e2 : (Tests.less 1 (run [])).2 = w' := by rw [e]
  rw [e] at e1; cases e1
  have h1 : evalOutput (Tests.less 1 (run [])).2 100 0 [true] = .ok [true, true] := by decide +kernel
  have h2 := hF (max F 100) (Nat.le_max_left _ _) [true] rfl
  have h3 := C13_stable _ (by rw [h1]; simp) (Nat.le_max_right F 100)
  rw [h1, e2, h2] at h3
  cases h3

/-- The field test passes for every choice although every product it computes is wrong: it only compares products with
each other, and the code returns `0` for each. -/
theorem C67_blind {n p rExp : Nat} (hf : FieldFits n p rExp) (hp : 2 ≤ p) (hroom : p ≤ 2 ^ (n - 1)) :
    (Passes (Tests.fpAddSubMul n p rExp) (3 * n) fun _ => [true, true]) ∧
    ∃ cfg w1 w ins, ∃ x y : Fp.AFp, Made (fieldOver 0 n p rExp) cfg start w1 w ∧ x.config = cfg ∧ y.config = cfg ∧
      Num w 0 ins x.val.val 1 ∧ Num w 0 ins y.val.val 1 ∧
      Gives 0 w (x.mul y n) fun z w' => Num w' 0 ins z.val.val 0 ∧ ¬ Num w' 0 ins z.val.val (1 * 1 % p) :=
  ⟨C67_field hf (by omega) hroom, C37_full_false hp hf hroom⟩

example : ∃ n p rExp, FieldFits n p rExp ∧ 2 ≤ p ∧ p ≤ 2 ^ (n - 1) := ⟨8, 11, 4, fits11, by decide, by decide⟩

end CC.Props
