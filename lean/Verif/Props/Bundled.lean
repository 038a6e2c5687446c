import Verif.Proofs.BundledCheck
import Verif.Props.Bristol

/-!
# C44–C46: the bundled 64-bit adder, subtractor and negation

The texts of the files are part of the model. The kernel parses them and checks them bit slice by bit slice; that the
slices compose to 64-bit arithmetic is proved for all operands.
-/

namespace CC.Props
open CC Spec Spec.Bristol CC.Bristol CC.Bundled

theorem outputsUnread?_true {f : File} (h : outputsUnread? f = true) : OutputsUnread f := by
  simp only [outputsUnread?, List.all_eq_true, Bool.or_eq_true, decide_eq_true_eq] at h
  exact h

/-- the outputs of such a file -/
theorem _root_.CC.Bundled.IsRipple.output {f : File} {text : Str} {numIn numOut : Nat} {fo fn : List Bool → Bool → Bool} {ss : List Slice}
    (h : IsRipple f text numIn numOut fo fn ss) {ins : List Bool} (hl : ins.length = numIn) (inp : Nat → List Bool)
    (hinp : ∀ i s, ss[i]? = some s → (s.ins.map fun x => ins[x]?.getD false) = inp i) {i : Nat}
    (hi : i < numOut) : f.output ins i = some (fo (inp i) (stateAt fn inp false i)) := by
  have hi' : i < ss.length := by rw [h.len]; exact hi
  unfold File.output
  rw [h.hout, ripple_sound h.ripple hl hi']
  have hst : ∀ j, j ≤ i → stateAt fn (sliceIns ss ins) false j = stateAt fn inp false j := by
    intro j
    induction j with
    | zero => intro _; rfl
    | succ j ih =>
      intro hj
      have hj' : j < ss.length := by omega
      unfold stateAt
      rw [ih (by omega)]
      simp only [sliceIns, List.getElem?_eq_getElem hj']
      rw [hinp j _ (List.getElem?_eq_getElem hj')]
  rw [hst i (Nat.le_refl i), hinp i _ (List.getElem?_eq_getElem hi')]

/-- building into a new circuit and evaluating gives the outputs of the file -/
theorem eval_of_output {text : Str} {f : File} (ht : Text f text) (hv : f.Valid) (hu : OutputsUnread f)
    {w : World} (h : Reachable w) {r : Ref} {s : StoreRef} (hc : w.circs[r]? = some (Circuit.new s)) :
    ∃ w', build text r w = (.ok (), w') ∧ ∃ F, ∀ fuel ≥ F, ∀ ins outs : List Bool, ins.length = f.numIn →
      outs.length = f.numOut → (∀ i, i < f.numOut → f.output ins i = outs[i]?) →
      evalOutput w' fuel r ins = .ok outs := by
  obtain ⟨gow, w', h1, F, h2⟩ := C16_eval h hc ht hv hu
  refine ⟨w', ?_, F, ?_⟩
  · unfold build
    rw [bind_ok h1]; rfl
  · intro fuel hf ins outs hl ho hout
    obtain ⟨outs', h3, h4, h5⟩ := h2 fuel hf ins hl
    rw [h3]
    congr 1
    apply List.ext_getElem?
    intro i
    by_cases hi : i < f.numOut
    · rw [h5 i hi, hout i hi]
    · rw [List.getElem?_eq_none (by omega), List.getElem?_eq_none (by omega)]

/-- building into any circuit adds inputs and outputs; the new outputs have the values of the file's outputs -/
theorem val_of_output {text : Str} {f : File} (ht : Text f text) (hv : f.Valid)
    {w : World} (h : Reachable w) {r : Ref} {c : Circuit} (hc : w.circs[r]? = some c) :
    ∃ w' c', build text r w = (.ok (), w') ∧ w'.circs[r]? = some c' ∧ c'.inputLen = c.inputLen + f.numIn ∧
      c'.outputLen = c.outputLen + f.numOut ∧ ∀ pre ins outs : List Bool, pre.length = c.inputLen → ins.length = f.numIn →
      (∀ i, i < f.numOut → f.output ins i = outs[i]?) → ∀ i, i < f.numOut →
      ∃ o b, c'.outputMap (c.outputLen + i) = some o ∧ outs[i]? = some b ∧ Val w' r (pre ++ ins) o b := by
  obtain ⟨gow, w', c', h1, h2, h3, h4, _, h5⟩ := C16_read h hc ht hv
  refine ⟨w', c', ?_, h2, h3, h4, ?_⟩
  · unfold build
    rw [bind_ok h1]; rfl
  · intro pre ins outs hp hl hout i hi
    obtain ⟨o, b, k1, k2, k3⟩ := h5 pre ins hp hl i hi
    exact ⟨o, b, k1, by rw [← hout i hi]; exact k2, k3⟩

/-! ### arithmetic -/

theorem pair_get {a b i : Nat} (hi : i < 64) : (bitsOf 64 a ++ bitsOf 64 b)[i]? = some (a.testBit i) ∧
    (bitsOf 64 a ++ bitsOf 64 b)[64 + i]? = some (b.testBit i) := by
  constructor
  · rw [List.getElem?_append_left (by simpa using hi), bitsOf_get hi]
  · rw [List.getElem?_append_right (by simp), length_bitsOf, Nat.add_sub_cancel_left, bitsOf_get hi]

theorem binSlices_ins {base numWire a b i : Nat} {s : Slice} (hs : (binSlices base numWire)[i]? = some s) :
    (s.ins.map fun x => (bitsOf 64 a ++ bitsOf 64 b)[x]?.getD false) = [a.testBit i, b.testBit i] := by
  have hi : i < 64 := by
    have := (List.getElem?_eq_some_iff.mp hs).1
    simpa [binSlices] using this
  unfold binSlices at hs
  rw [List.getElem?_map, List.getElem?_range hi] at hs
  cases hs
  simp [pair_get hi]

theorem negSlices_ins {numWire a i : Nat} {s : Slice} (hs : (negSlices numWire)[i]? = some s) :
    (s.ins.map fun x => (bitsOf 64 a)[x]?.getD false) = [a.testBit i] := by
  have hi : i < 64 := by
    have := (List.getElem?_eq_some_iff.mp hs).1
    simpa [negSlices] using this
  unfold negSlices at hs
  rw [List.getElem?_map, List.getElem?_range hi] at hs
  cases hs
  simp [bitsOf_get hi]

theorem add_state (a b : Nat) : ∀ i, stateAt addCarry (fun j => [a.testBit j, b.testBit j]) false i = carry a b i
  | 0 => (carry_zero a b).symm
  | i + 1 => by rw [carry_succ, stateAt, add_state a b i]; rfl

theorem adder64_output (a b : Nat) {i : Nat} (hi : i < 64) :
    adder64File.output (bitsOf 64 a ++ bitsOf 64 b) i = (bitsOf 64 (a + b))[i]? := by
  rw [adder64_ripple.output (by simp) (fun j => [a.testBit j, b.testBit j]) (fun _ _ => binSlices_ins) hi, bitsOf_get hi,
    testBit_sum, add_state]
  cases a.testBit i <;> cases b.testBit i <;> cases carry a b i <;> rfl

/-- if `d + b` and `a` agree below `2^64`, the borrows of `a - b` are the carries of `d + b` -/
theorem sub_state {a b d : Nat} (h : ∀ j, j < 64 → (d + b).testBit j = a.testBit j) : ∀ i, i ≤ 64 →
    stateAt subBorrow (fun j => [a.testBit j, b.testBit j]) false i = carry d b i
  | 0, _ => (carry_zero d b).symm
  | i + 1, hi => by
    rw [carry_succ, stateAt, sub_state h i (by omega)]
    have := h i (by omega)
    rw [testBit_sum] at this
    rw [← this]
    cases d.testBit i <;> cases b.testBit i <;> cases carry d b i <;> rfl

theorem neg_state {a d : Nat} (h : ∀ j, j < 64 → (d + a).testBit j = false) : ∀ i, i ≤ 64 →
    stateAt negCarry (fun j => [a.testBit j]) false i = carry d a i
  | 0, _ => (carry_zero d a).symm
  | i + 1, hi => by
    rw [carry_succ, stateAt, neg_state h i (by omega)]
    have := h i (by omega)
    rw [testBit_sum] at this
    revert this
    cases d.testBit i <;> cases a.testBit i <;> cases carry d a i <;> decide

theorem testBit_mod_eq {u v n i : Nat} (h : u % 2 ^ n = v % 2 ^ n) (hi : i < n) : u.testBit i = v.testBit i := by
  have := congrArg (Nat.testBit · i) h
  simp only [Nat.testBit_mod_two_pow, hi, decide_true, Bool.true_and] at this
  exact this

theorem sub64_output {a b : Nat} (hb : b < 2 ^ 64) {i : Nat} (hi : i < 64) :
    sub64File.output (bitsOf 64 a ++ bitsOf 64 b) i = (bitsOf 64 (a + (2 ^ 64 - b)))[i]? := by
  have hd : ∀ j, j < 64 → (a + (2 ^ 64 - b) + b).testBit j = a.testBit j := fun j hj =>
    testBit_mod_eq (n := 64) (by omega) hj
  rw [sub64_ripple.output (by simp) (fun j => [a.testBit j, b.testBit j]) (fun _ _ => binSlices_ins) hi, bitsOf_get hi,
    sub_state hd i (by omega)]
  have := hd i hi
  rw [testBit_sum] at this
  rw [← this]
  cases (a + (2 ^ 64 - b)).testBit i <;> cases b.testBit i <;> cases carry (a + (2 ^ 64 - b)) b i <;> rfl

theorem neg64_output {a : Nat} (ha : a < 2 ^ 64) {i : Nat} (hi : i < 64) :
    neg64File.output (bitsOf 64 a) i = (bitsOf 64 (2 ^ 64 - a))[i]? := by
  have hd : ∀ j, j < 64 → (2 ^ 64 - a + a).testBit j = false := fun j hj => by
    rw [testBit_mod_eq (n := 64) (v := 0) (by omega) hj]; simp
  rw [neg64_ripple.output (by simp) (fun j => [a.testBit j]) (fun _ _ => negSlices_ins) hi, bitsOf_get hi,
    neg_state hd i (by omega)]
  have := hd i hi
  rw [testBit_sum] at this
  revert this
  cases (2 ^ 64 - a).testBit i <;> cases a.testBit i <;> cases carry (2 ^ 64 - a) a i <;> decide

/-! ### the properties -/

/-- the given circuit is new: no gates, inputs or outputs -/
def New (w : World) (r : Ref) : Prop := ∃ s, w.circs[r]? = some (Circuit.new s)

/-- C44: `build_adder64` on a new circuit succeeds, and evaluating the circuit adds modulo `2^64`. -/
theorem C44_adder64 {w : World} (h : Reachable w) {r : Ref} (hr : New w r) : ∃ w', buildAdder64 r w = (.ok (), w') ∧
    ∃ F, ∀ fuel ≥ F, ∀ a b : Nat, a < 2 ^ 64 → b < 2 ^ 64 →
      evalOutput w' fuel r (bitsOf 64 a ++ bitsOf 64 b) = .ok (bitsOf 64 ((a + b) % 2 ^ 64)) := by
  obtain ⟨s, hc⟩ := hr
  obtain ⟨w', h1, F, h2⟩ := eval_of_output (file?_some adder64_ripple.text) (valid?_true adder64_ripple.valid)
    (outputsUnread?_true adder64_ripple.unread) h hc
  refine ⟨w', h1, F, fun fuel hf a b _ _ => h2 fuel hf _ _ ?_ ?_ ?_⟩
  · rw [adder64_ripple.hin]; simp
  · rw [adder64_ripple.hout]; simp
  · rw [adder64_ripple.hout, bitsOf_mod]
    exact fun i hi => adder64_output a b hi

/-- C45: `build_sub64` on a new circuit succeeds, and evaluating the circuit subtracts modulo `2^64`. -/
theorem C45_sub64 {w : World} (h : Reachable w) {r : Ref} (hr : New w r) : ∃ w', buildSub64 r w = (.ok (), w') ∧
    ∃ F, ∀ fuel ≥ F, ∀ a b : Nat, a < 2 ^ 64 → b < 2 ^ 64 →
      evalOutput w' fuel r (bitsOf 64 a ++ bitsOf 64 b) = .ok (bitsOf 64 (((a : Int) - b) % 2 ^ 64).toNat) := by
  obtain ⟨s, hc⟩ := hr
  obtain ⟨w', h1, F, h2⟩ := eval_of_output (file?_some sub64_ripple.text) (valid?_true sub64_ripple.valid)
    (outputsUnread?_true sub64_ripple.unread) h hc
  refine ⟨w', h1, F, fun fuel hf a b _ hb => h2 fuel hf _ _ ?_ ?_ ?_⟩
  · rw [sub64_ripple.hin]; simp
  · rw [sub64_ripple.hout]; simp
  · rw [sub64_ripple.hout]
    intro i hi
    have he : bitsOf 64 (a + (2 ^ 64 - b)) = bitsOf 64 (((a : Int) - b) % 2 ^ 64).toNat := bitsOf_congr (by omega)
    rw [sub64_output hb hi, he]

/-- C46: `build_neg64` on a new circuit succeeds, and evaluating the circuit negates modulo `2^64`. -/
theorem C46_neg64 {w : World} (h : Reachable w) {r : Ref} (hr : New w r) : ∃ w', buildNeg64 r w = (.ok (), w') ∧
    ∃ F, ∀ fuel ≥ F, ∀ a : Nat, a < 2 ^ 64 →
      evalOutput w' fuel r (bitsOf 64 a) = .ok (bitsOf 64 ((-(a : Int)) % 2 ^ 64).toNat) := by
  obtain ⟨s, hc⟩ := hr
  obtain ⟨w', h1, F, h2⟩ := eval_of_output (file?_some neg64_ripple.text) (valid?_true neg64_ripple.valid)
    (outputsUnread?_true neg64_ripple.unread) h hc
  refine ⟨w', h1, F, fun fuel hf a ha => h2 fuel hf _ _ ?_ ?_ ?_⟩
  · rw [neg64_ripple.hin]; simp
  · rw [neg64_ripple.hout]; simp
  · rw [neg64_ripple.hout]
    intro i hi
    have he : bitsOf 64 (2 ^ 64 - a) = bitsOf 64 ((-(a : Int)) % 2 ^ 64).toNat := bitsOf_congr (by omega)
    rw [neg64_output ha hi, he]

/-- C44, in the middle of a larger circuit: building into any circuit `r` adds 128 inputs and 64 outputs. If the inputs
`r` already had carry `pre` and the new ones the bits of `a` and `b`, the new outputs have the bits of `a + b`. -/
theorem C44_into {w : World} (h : Reachable w) {r : Ref} {c : Circuit} (hc : w.circs[r]? = some c) :
    ∃ w' c', buildAdder64 r w = (.ok (), w') ∧ w'.circs[r]? = some c' ∧ c'.inputLen = c.inputLen + 128 ∧
      c'.outputLen = c.outputLen + 64 ∧ ∀ (pre : List Bool) (a b : Nat), pre.length = c.inputLen → ∀ i, i < 64 →
      ∃ o, c'.outputMap (c.outputLen + i) = some o ∧
        Val w' r (pre ++ (bitsOf 64 a ++ bitsOf 64 b)) o ((a + b).testBit i) := by
  obtain ⟨w', c', h1, h2, h3, h4, h5⟩ := val_of_output (file?_some adder64_ripple.text) (valid?_true adder64_ripple.valid) h hc
  rw [adder64_ripple.hin] at h3 h5
  rw [adder64_ripple.hout] at h4 h5
  refine ⟨w', c', h1, h2, h3, h4, fun pre a b hp i hi => ?_⟩
  obtain ⟨o, v, k1, k2, k3⟩ := h5 pre (bitsOf 64 a ++ bitsOf 64 b) (bitsOf 64 (a + b)) hp (by simp)
    (fun i hi => adder64_output a b hi) i hi
  rw [bitsOf_get hi] at k2; cases k2
  exact ⟨o, k1, k3⟩

/-- the hypotheses are met by a heap with another circuit and a new one -/
example : Reachable (run (nested ++ [.newCircuit 0])) ∧ New (run (nested ++ [.newCircuit 0])) 2 :=
  ⟨run_reachable _, 0, rfl⟩

end CC.Props
