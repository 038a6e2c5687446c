import Verif.Props.Writer
import Verif.Props.Program
import Verif.Props.Mixed
import Verif.Props.FieldProgram
import Verif.Props.Functions

/-!
# C78: the Bristol text of a program computes the program
-/

namespace CC.Props
open CC Spec CC.Bristol Spec.Bristol

/-- Circuit `r` has `m` inputs, and every text written for it computes `f`: executing the lines of the text on the input bits,
followed by the constants returned by the writer, leaves the bits of `f` on the wires of the outputs. -/
def TextComputes (w : World) (r : Ref) (m : Nat) (f : List Bool → Option (List Bool)) : Prop :=
  ∃ c, w.circs[r]? = some c ∧ c.inputLen = m ∧ ∀ numFirst ≤ m + c.numConst, ∃ res ls, Wrote w r c numFirst res ls ∧
    ∀ ins : List Bool, ins.length = m → ∃ outs, f ins = some outs ∧ outs.length = c.outputLen ∧ ∀ (i : Nat) b, outs[i]? = some b →
      ∃ o x, c.outputMap i = some o ∧ res.wog o = some x ∧ Spec.Bristol.exec ls (inputWires (ins ++ res.consts)) x = some b

/-- C78 for any circuit built by valid calls: the text computes the truth table of the outputs. -/
theorem C78_text {w : World} (h : ValidRun w) {r : Ref} {c : Circuit} (hc : w.circs[r]? = some c)
    {f : List Bool → Option (List Bool)} (hf : ∀ ins : List Bool, ins.length = c.inputLen → ∃ outs, f ins = some outs ∧ Outputs w r ins outs) :
    TextComputes w r c.inputLen f := by
  refine ⟨c, hc, rfl, fun numFirst hn => ?_⟩
  obtain ⟨res, ls, h1, _, h3, h4⟩ := C19_computes h hc hn
  refine ⟨res, ls, h1, fun ins hins => ?_⟩
  obtain ⟨outs, e, c', hc', _, hl, ho⟩ := hf ins hins
  rw [hc] at hc'; cases hc'
  refine ⟨outs, e, hl, fun i b hb => ?_⟩
  obtain ⟨o, k1, k2⟩ := ho i b hb
  obtain ⟨x, hx⟩ := Option.ne_none_iff_exists'.mp (h3 i o k1)
  obtain ⟨b', q1, q2⟩ := h4 ins hins o x hx
  rw [q1.det k2] at q2
  exact ⟨o, x, k1, hx, q2⟩

/-- So the text agrees with the evaluator wherever that returns a result. -/
theorem C78_evaluator {w : World} (h : ValidRun w) {r : Ref} {c : Circuit} (hc : w.circs[r]? = some c) {numFirst : Nat}
    (hn : numFirst ≤ c.inputLen + c.numConst) : ∃ res ls, Wrote w r c numFirst res ls ∧ ∀ fuel (ins outs : List Bool),
      evalOutput w fuel r ins = .ok outs → ∀ (i : Nat) b, outs[i]? = some b →
        ∃ o x, c.outputMap i = some o ∧ res.wog o = some x ∧ Spec.Bristol.exec ls (inputWires (ins ++ res.consts)) x = some b := by
  obtain ⟨res, ls, h1, _, h3, h4⟩ := C19_computes h hc hn
  refine ⟨res, ls, h1, fun fuel ins outs he i b hb => ?_⟩
  obtain ⟨c', hc', hi, hl, ho⟩ := C10_sound h.reachable he
  rw [hc] at hc'; cases hc'
  obtain ⟨o, k1, k2⟩ := ho i b hb
  obtain ⟨x, hx⟩ := Option.ne_none_iff_exists'.mp (h3 i o k1)
  obtain ⟨b', q1, q2⟩ := h4 ins hi o x hx
  rw [q1.det k2] at q2
  exact ⟨o, x, k1, hx, q2⟩

example : ValidRun (run nested) ∧ evalOutput (run nested) 6 0 [true, true] = .ok [true, false, false] := ⟨nested_valid, rfl⟩

/-- an empty heap with a storage -/
theorem storage_valid : ValidRun (run [.newStorage]) ∧ 0 < (run [.newStorage]).stores.length := ⟨validRun_of_check _ .nil (by decide), by decide⟩

/-- the first `k` words of `n` bits -/
def words (n : Nat) : Nat → List Bool → List (BitVec n)
  | 0, _ => []
  | k + 1, ins => BitVec.ofNat n (bitsVal (ins.take n)) :: words n k (ins.drop n)

theorem words_length (n : Nat) : ∀ k ins, (words n k ins).length = k
  | 0, _ => rfl
  | k + 1, ins => by simp [words, words_length n k]

theorem words_bits (n : Nat) : ∀ k (ins : List Bool), ins.length = k * n → (words n k ins).flatMap (fun x => bitsOf n x.toNat) = ins
  | 0, ins, h => by simp at h; subst h; rfl
  | k + 1, ins, h => by
    rw [Nat.add_mul] at h
    have hl : (ins.take n).length = n := by simp; omega
    have h1 := bitsVal_lt (ins.take n)
    rw [hl] at h1
    rw [words, List.flatMap_cons, words_bits n k (ins.drop n) (by simp; omega), BitVec.toNat_ofNat, Nat.mod_eq_of_lt h1,
      bitsOf_bitsVal hl, List.take_append_drop]

/-- C78 for programs over numbers of `n` bits (C32): any outputs in any order. -/
theorem C78_numbers {w : World} (hv : ValidRun w) {st : StoreRef} (hst : st < w.stores.length) {n : Nat}
    (hn : 1 ≤ n) {p : List Stmt} {outs : List Nat} (hsc : Scoped 0 p) (hfit : ∀ s ∈ p, s.Fits n) (houts : ∀ i ∈ outs, i < p.length) :
    ∃ r w', compile st n p outs w = (.ok r, w') ∧ TextComputes w' r (inputs p * n) fun ins =>
      (runProgram p outs (words n (inputs p) ins)).map fun vs => vs.flatMap fun v => bitsOf n v.toNat := by
  obtain ⟨r, w', c, e, hc, _, h1, hl, h2⟩ := compile_ok hv.reachable hst hn hsc hfit houts
  refine ⟨r, w', e, ?_⟩
  rw [← hl]
  refine C78_text (h1 hv) hc fun ins hins => ?_
  rw [hl] at hins
  obtain ⟨vs, k1, k2⟩ := h2 (words n (inputs p) ins) (words_length _ _ _)
  rw [words_bits _ _ _ hins] at k2
  exact ⟨_, by rw [k1]; rfl, k2⟩

/-- a program whose outputs are in the wrong order for the evaluator -/
example : Scoped 0 [.input, .input, .eq 0 1] ∧ (∀ s ∈ ([.input, .input, .eq 0 1] : List Stmt), s.Fits 2) ∧
    evalOutput (compiled 2 [.input, .input, .eq 0 1] [2, 0]) 100 0 [true, false, true, false] = .error (.unknownEvaledBit 0) ∧
    words 2 2 [true, false, true, true] = [1, 3] := by
  refine ⟨C32_order_needed.1, by simp [Stmt.Fits], C32_order_needed.2.2.2 100 (by decide), by decide⟩

/-- C78 for programs over numbers, bit strings and bits (C68). -/
theorem C78_mixed {w : World} (hv : ValidRun w) {st : StoreRef} (hst : st < w.stores.length) {n : Nat} (hn : 1 ≤ n)
    {p : List Mixed.Cmd} {outs : List Nat} (hty : (Mixed.kinds p []).isSome) (hfit : ∀ c ∈ p, c.Fits n) (houts : ∀ i ∈ outs, i < p.length) :
    ∃ r w', Mixed.compile st n p outs w = (.ok r, w') ∧ TextComputes w' r (Mixed.inputs n p) (Mixed.runProgram n p outs) := by
  obtain ⟨r, w', e, h1, ⟨c, hc, hl⟩, h2, _⟩ := mixed_ok hv.reachable hst hn hty hfit houts
  refine ⟨r, w', e, ?_⟩
  rw [← hl] at h2 ⊢
  exact C78_text (h1 hv) hc h2

example : (Mixed.kinds mixedProgram []).isSome ∧ (∀ i ∈ [18, 4, 0, 5], i < mixedProgram.length) ∧ Mixed.inputs 8 mixedProgram = 17 := by decide

/-- C78 for programs over field elements (C76), as words: `exec` is the arithmetic the circuits of the library perform. -/
theorem C78_field {w : World} (hv : ValidRun w) {st : StoreRef} (hst : st < w.stores.length) {n p rExp : Nat}
    (hf : FieldFits n p rExp) (hp : 1 ≤ p) (hroom : p ≤ 2 ^ (n - 1))
    {prog : List FieldProgram.Cmd} {outs : List Nat} (hty : (FieldProgram.kinds prog []).isSome) (hfit : ∀ c ∈ prog, c.Fits p)
    (houts : ∀ i ∈ outs, i < prog.length) :
    ∃ r w', FieldProgram.compile st n p rExp prog outs w = (.ok r, w') ∧ TextComputes w' r (FieldProgram.inputs n prog) fun ins => do
      let env ← FieldProgram.exec (BitVec.ofNat n p) prog ins []
      let vs ← outs.mapM fun i => env[i]?
      return vs.flatMap FieldProgram.Value.out := by
  obtain ⟨r, w', e, h1, ⟨c, hc, hl⟩, h2, _⟩ := FProg.field_ok hv.reachable hst hf hp hroom hty hfit houts
  refine ⟨r, w', e, ?_⟩
  rw [← hl] at h2 ⊢
  refine C78_text (h1 hv) hc fun ins hins => ?_
  obtain ⟨env, vs, k1, k2, k3⟩ := h2 ins hins
  exact ⟨_, by simp [k1, k2], k3⟩

example : FieldFits 8 11 4 ∧ (FieldProgram.kinds fieldProgram []).isSome ∧ (∀ i ∈ [13, 2, 0], i < fieldProgram.length) :=
  ⟨fits11, by decide, by decide⟩

/-- C78 for programs with functions (C77): the outputs of the main circuit may come in any order. -/
theorem C78_functions {w : World} (hv : ValidRun w) {st : StoreRef} (hst : st < w.stores.length) {lib : List Functions.Func}
    {main : Functions.Func} (hlib : Functions.LibOk [] lib) (hmain : main.Fine (Functions.signatures lib []))
    (hroom : Functions.Roomy lib main) :
    ∃ r w', Functions.compile st lib main w = (.ok r, w') ∧ TextComputes w' r main.arity (main.run (Functions.meaning lib [])) := by
  obtain ⟨r, w', e, h1, ⟨c, hc, hl, _⟩, h2, _⟩ := Funs.program_ok hv.reachable hst hlib hmain hroom
  refine ⟨r, w', e, ?_⟩
  rw [← hl] at h2 ⊢
  refine C78_text (h1 hv) hc fun ins hins => ?_
  obtain ⟨outs, k1, _, k3⟩ := h2 ins hins
  exact ⟨outs, k1, k3⟩

/-- the same for a program with functions (not ordered for the evaluator), with its text: results come before the values they are computed from -/
example : let lib : List Functions.Func := [⟨2, [.and 0 1, .xor 0 1], [2, 3]⟩]
    let main : Functions.Func := ⟨2, [.call 0 [0, 1], .xor 2 3, .and 4 0], [5, 4, 2]⟩
    Functions.LibOk [] lib ∧ main.Fine (Functions.signatures lib []) ∧ Functions.Roomy lib main ∧
    (∃ e, evalOutput (functionsHeap lib main) 100 0 [true, true] = .error e) ∧
    main.run (Functions.meaning lib []) [true, true] = some [true, true, true] ∧
    (write (functionsHeap lib main) 100 0 1 WSt.new Map.empty).toOption.map (·.st.out) =
      some "4 6\n2 1 1\n1 3\n\n2 1 0 1 2 AND\n2 1 0 1 3 XOR\n2 1 2 3 4 XOR\n2 1 4 0 5 AND\n".toList := by
  refine ⟨⟨⟨⟨⟨trivial, by decide, trivial, by decide, trivial⟩, by decide⟩, ordered_of (by decide)⟩, trivial⟩,
    ⟨⟨⟨_, rfl, rfl⟩, by decide, trivial, by decide, trivial, by decide, trivial⟩, by decide⟩, ?_, ⟨_, by rfl⟩, rfl, ?_⟩
  · simp [Functions.Roomy, Functions.LibRoom, Functions.Line.Room, Functions.signatures, Functions.Func.sig, Functions.wires, Functions.Line.wires]
  · decide +kernel

/-- The text of the adder of C77, for all widths and all summands: output `i` carries bit `i` of the sum. -/
theorem C78_adder {w : World} (hv : ValidRun w) {st : StoreRef} (hst : st < w.stores.length) (n : Nat) :
    ∃ r w' c, Functions.compile st [threeBits] (ripple n) w = (.ok r, w') ∧ w'.circs[r]? = some c ∧ c.outputLen = n + 1 ∧
      ∀ numFirst ≤ 2 * n + c.numConst, ∃ res ls, Wrote w' r c numFirst res ls ∧ ∀ x y, x < 2 ^ n → y < 2 ^ n → ∀ i ≤ n,
        ∃ o z, c.outputMap i = some o ∧ res.wog o = some z ∧
          Spec.Bristol.exec ls (inputWires (bitsOf n x ++ bitsOf n y ++ res.consts)) z = some ((x + y).testBit i) := by
  obtain ⟨r, w', e, c, hc, hl, h⟩ := C78_functions hv hst threeBits_ok (ripple_ok n).toFine (ripple_roomy n)
  have hp : 0 < 2 ^ n := Nat.two_pow_pos n
  refine ⟨r, w', c, e, hc, ?_, fun numFirst hn => ?_⟩
  · obtain ⟨res, ls, h1, h2⟩ := h 0 (Nat.zero_le _)
    obtain ⟨outs, k1, k2, _⟩ := h2 (bitsOf n 0 ++ bitsOf n 0) (by simp [ripple]; omega)
    rw [ripple_means hp hp] at k1; cases k1
    rw [← k2]; simp
  · obtain ⟨res, ls, h1, h2⟩ := h numFirst hn
    refine ⟨res, ls, h1, fun x y hx hy i hi => ?_⟩
    obtain ⟨outs, k1, _, k3⟩ := h2 (bitsOf n x ++ bitsOf n y) (by simp [ripple]; omega)
    rw [ripple_means hx hy] at k1; cases k1
    exact k3 i _ (bitsOf_get (by omega))

example : ValidRun (run [.newStorage]) ∧ (13 : Nat) < 2 ^ 4 ∧ (6 : Nat) < 2 ^ 4 := ⟨storage_valid.1, by decide, by decide⟩

end CC.Props
