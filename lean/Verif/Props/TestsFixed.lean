import Verif.Proofs.TestFixed

/-!
# C81: the repository's tests with fixed inputs pass
-/

namespace CC.Props
open CC Spec CC.Tests.Fixed

/-- C81: the circuits of these tests compute the gates they are named after, on all inputs and in every heap -/
theorem C81_circuits : Passes wire 1 id ∧ Passes Tests.Fixed.not 1 (fun ins => ins.map (!·)) ∧
    Passes (binary CC.xor) 2 (pairwise (· != ·)) ∧ Passes (binary CC.and) 2 (pairwise (· && ·)) ∧
    Passes (binary CC.or) 2 (pairwise (· || ·)) ∧ Passes andOr 3 andThenOr ∧ Passes module1 2 (pairwise (· == ·)) :=
  ⟨wire_ok, not1_ok, binary1_ok plays_xor (fun hb _ _ _ _ => RunsC.xor hb), binary1_ok plays_and (fun hb _ _ _ _ => RunsC.and hb),
    binary1_ok plays_or (fun hb _ _ _ _ => RunsC.or hb), andOr_ok, module1_ok⟩

/-- C81: every assertion of the tests with fixed inputs in `evaluator.rs` holds, from every heap -/
theorem C81_evaluator {t : M Ref × List (List Bool × Bool)} (ht : t ∈ evaluatorTests) {w : World} (hw : Reachable w) :
    ∃ F, ∀ fuel ≥ F, (evaluated t.1 fuel t.2 w).1 = .ok () := by
  obtain ⟨h1, h2, h3, h4, h5, h6, h7⟩ := C81_circuits
  simp only [evaluatorTests, List.mem_cons, List.not_mem_nil, or_false] at ht
  rcases ht with rfl | rfl | rfl | rfl | rfl | rfl | rfl
  · exact evaluated_ok h1 _ (by decide) hw
  · exact evaluated_ok h2 _ (by decide) hw
  · exact evaluated_ok h3 _ (by decide) hw
  · exact evaluated_ok h4 _ (by decide) hw
  · exact evaluated_ok h5 _ (by decide) hw
  · exact evaluated_ok h6 _ (by decide) hw
  · exact evaluated_ok h7 _ (by decide) hw

/-- C81: every assertion of the tests in `bool_circuit.rs` holds, from every heap -/
theorem C81_builder {t : M Ref × Nat × Nat} (ht : t ∈ builderTests) {w : World} (hw : Reachable w) :
    (counted t.1 t.2.1 t.2.2 w).1 = .ok () := by
  obtain ⟨h1, h2, h3, h4, h5, h6, _⟩ := C81_circuits
  simp only [builderTests, List.mem_cons, List.not_mem_nil, or_false] at ht
  rcases ht with rfl | rfl | rfl | rfl | rfl | rfl
  · exact counted_ok (plays_fixed fun r => by plays) h1 (ins := [true]) rfl rfl hw
  · exact counted_ok (plays_fixed fun r => by plays) h2 (ins := [true]) rfl rfl hw
  · exact counted_ok (plays_fixed fun r => by plays) h3 (ins := [true, true]) rfl rfl hw
  · exact counted_ok (plays_fixed fun r => by plays) h4 (ins := [true, true]) rfl rfl hw
  · exact counted_ok (plays_fixed fun r => by plays) h5 (ins := [true, true]) rfl rfl hw
  · exact counted_ok (plays_fixed fun r => by plays) h6 (ins := [true, true, true]) rfl rfl hw

/-- in a heap that already holds circuits -/
example : ∃ F, ∀ fuel ≥ F, (evaluated module1 fuel [([true, true], true), ([true, false], false), ([false, true], false),
    ([false, false], true)] (run nested)).1 = .ok () :=
  C81_evaluator (t := (module1, _)) (by simp [evaluatorTests]) (run_reachable nested)

example : (evaluated module1 9 [([true, true], true), ([true, false], false)] (run nested)).1 = .ok () ∧
    (evaluated module1 9 [([true, true], false)] (run nested)).1 = .error (.panic .assertFailed) := by decide +kernel

example : (counted andOr 3 1 (run nested)).1 = .ok () := C81_builder (t := (andOr, 3, 1)) (by simp [builderTests]) (run_reachable nested)

example : (counted andOr 2 1 (run nested)).1 = .error (.panic .assertFailed) := by decide +kernel

end CC.Props
