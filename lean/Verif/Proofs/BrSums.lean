import Verif.Model.BristolSums
import Verif.Proofs.BrVerdict

/-!
# The sums of a Bristol header
-/

namespace CC.Bristol
open CC CC.Spec CC.Spec.Bristol

theorem m_assoc {α β γ : Type} (x : M α) (f : α → M β) (g : β → M γ) : x >>= f >>= g = x >>= fun a => f a >>= g := by
  funext w
  simp only [M.bind_apply]
  rcases x w with ⟨_ | _, _⟩ <;> rfl

/-- everything up to the final subtraction: the map, `num_wire` and `output_len_sum` -/
def readTo (A : Arith) (r : Ref) (gow : GOW) (text : List Char) : M (GOW × Nat × Nat) := do
  let (l1, ls) ← lift (nextLine 1 (linesOf text))
  let (_, ts) ← lift (nextUsize (tokensOf l1))
  let (numWire, _) ← lift (nextUsize ts)
  let (l2, ls) ← lift (nextLine 2 ls)
  let (numInput, ts) ← lift (nextUsize (tokensOf l2))
  let gow ← readInputsA A r gow 0 numInput ts
  let (l3, ls) ← lift (nextLine 3 ls)
  let (numOutput, ts) ← lift (nextUsize (tokensOf l3))
  let outSum ← lift (readOutputLensA A 0 numOutput ts)
  let (_, ls) ← lift (nextLine 4 ls)
  let gow ← readGates r gow ls
  pure (gow, numWire, outSum)

/-- the rest -/
def readEnd (A : Arith) (r : Ref) (x : GOW × Nat × Nat) : M GOW := do
  let start ← lift (A.sub x.2.1 x.2.2)
  readFinal r x.1 (rangeFromTo start x.2.1)
  pure x.1

theorem readA_eq (A : Arith) (r : Ref) (gow : GOW) (text : List Char) :
    readA A r gow text = readTo A r gow text >>= readEnd A r := by
  unfold readTo
  simp only [m_assoc]
  rfl

/-- sums that fit are right -/
def Arith.Fits (A : Arith) : Prop := ∀ a b, a + b < 2 ^ 64 → A.add a b = .ok (a + b)

theorem fits_ideal : Arith.ideal.Fits := fun _ _ _ => rfl

theorem fits_debug : Arith.debug.Fits := fun a b h => by simp only [Arith.debug, if_pos h]

theorem fits_release : Arith.release.Fits := fun a b h => by simp only [Arith.release, Nat.mod_eq_of_lt h]

variable {A : Arith} {r : Ref}

theorem readInputBitsA_eq (hA : A.Fits) {sum : Nat} : ∀ {k j : Nat} {gow : GOW}, sum + (j + k) < 2 ^ 64 →
    readInputBitsA A r gow sum j k = readInputBits r gow (sum + j) k
  | 0, _, _, _ => rfl
  | k + 1, j, gow, h => by
    rw [readInputBitsA, readInputBits]
    funext w
    rw [bind_lift_ok (hA sum j (by omega))]
    have ih : ∀ g, readInputBitsA A r (gow.insert (sum + j) g) sum (j + 1) k = _ := fun g =>
      readInputBitsA_eq hA (by omega)
    simp only [ih, Nat.add_assoc]

theorem readInputsA_eq (hA : A.Fits) : ∀ {k sum : Nat} {gow : GOW} {ts : List Str}, sum < 2 ^ 64 → ¬ Exceeds sum k ts →
    readInputsA A r gow sum k ts = readInputs r gow sum k ts
  | 0, _, _, _, _, _ => rfl
  | k + 1, sum, gow, ts, hs, hn => by
    rw [readInputsA, readInputs]
    funext w
    rcases hx : nextUsize ts with e | ⟨n, ts'⟩
    · rw [bind_lift_error rfl, bind_lift_error rfl]
    · obtain ⟨t, rfl, ht⟩ := nextUsize_ok.mp hx
      have hlt : sum + n < 2 ^ 64 := by
        by_cases h : sum + n < 2 ^ 64
        · exact h
        · exact absurd (.now ht (by omega)) hn
      rw [bind_lift_ok rfl, bind_lift_ok rfl]
      simp only []
      rw [readInputBitsA_eq hA (by omega), Nat.add_zero, M.bind_apply, M.bind_apply]
      rcases readInputBits r gow sum n w with ⟨_ | _, w'⟩
      · rfl
      · simp only []
        rw [bind_lift_ok (hA sum n hlt), readInputsA_eq hA hlt fun h => hn (.later ht hlt h)]

theorem readOutputLensA_eq (hA : A.Fits) : ∀ {k sum : Nat} {ts : List Str}, sum < 2 ^ 64 → ¬ Exceeds sum k ts →
    readOutputLensA A sum k ts = readOutputLens sum k ts
  | 0, _, _, _, _ => rfl
  | k + 1, sum, ts, hs, hn => by
    rw [readOutputLensA, readOutputLens]
    rcases hx : nextUsize ts with e | ⟨n, ts'⟩
    · rfl
    · obtain ⟨t, rfl, ht⟩ := nextUsize_ok.mp hx
      have hlt : sum + n < 2 ^ 64 := by
        by_cases h : sum + n < 2 ^ 64
        · exact h
        · exact absurd (.now ht (by omega)) hn
      rw [ebind_ok rfl, ebind_ok rfl]
      simp only []
      rw [ebind_ok (hA sum n hlt), readOutputLensA_eq hA hlt fun h => hn (.later ht hlt h)]

/-- numbers that were read without exceeding 64 bits -/
theorem counted_sum {l : Str} {ns : List Nat} (h : CountedNumbers l ns) (hn : ¬ ExceedsLine l) : ns.sum < 2 ^ 64 := by
  obtain ⟨s, ts, rest, hl, hs, hts⟩ := h
  have key : ∀ {ns : List Nat} {ts : List Str} {sum : Nat}, sum < 2 ^ 64 → All2 Numeral ts ns →
      ¬ Exceeds sum ns.length (ts ++ rest) → sum + ns.sum < 2 ^ 64 := by
    intro ns
    induction ns with
    | nil => intro ts sum h _ _; simpa using h
    | cons n ns ih =>
      intro ts sum h hts hn
      cases ts with
      | nil => exact hts.elim
      | cons t ts =>
        have hlt : sum + n < 2 ^ 64 := by
          by_cases h : sum + n < 2 ^ 64
          · exact h
          · exact absurd (.now hts.1 (by omega)) hn
        have := ih hlt hts.2 fun h => hn (.later hts.1 hlt h)
        rw [List.sum_cons]; omega
  have := key (sum := 0) (by omega) hts fun h => hn ⟨s, ns.length, ts ++ rest, by simpa using hl, hs, h⟩
  omega

theorem readInputs_fails {k : Nat} {ts : List Str} {e : Err} (h : BadNums k ts e) : ∀ {sum : Nat} {gow gow' : GOW} {w w' : World},
    readInputs r gow sum k ts w ≠ (.ok gow', w') := by
  induction h with
  | missing => intro sum gow gow' w w' h; rw [readInputs, bind_lift_error nextUsize_nil] at h; cases h
  | notNum ht => intro sum gow gow' w w' h; rw [readInputs, bind_lift_error (nextUsize_bad ht)] at h; cases h
  | @next k t n ts e ht _ ih =>
    intro sum gow gow' w w' h
    rw [readInputs, bind_lift_ok (nextUsize_cons ht)] at h
    simp only [] at h
    rw [M.bind_apply] at h
    rcases hx : readInputBits r gow sum n w with ⟨_ | g, w1⟩
    · rw [hx] at h; cases h
    · rw [hx] at h; exact ih h

theorem readTo_eq (hA : A.Fits) {B : Arith} (hB : B.Fits) {text : Str} (h : ¬ Oversized text) (gow : GOW) :
    readTo A r gow text = readTo B r gow text := by
  have hls : Lines (linesOf text) text := lines_iff.mpr rfl
  unfold readTo
  generalize linesOf text = ls at hls
  funext w
  rcases ls with _ | ⟨l1, ls⟩
  · rfl
  rw [bind_lift_ok (x := nextLine 1 (l1 :: ls)) rfl, bind_lift_ok (x := nextLine 1 (l1 :: ls)) rfl]
  simp only []
  rcases two_cases l1 with ⟨ts, e, h1, h2⟩ | ⟨a, b, s1, t1, rest1, hl1, hs1, ht1⟩
  · rw [layout_iff.mp h1]
    rcases nextUsize2_bad h2 with h | ⟨n, ts', h1, h2⟩
    · rw [bind_lift_error h, bind_lift_error h]
    · rw [bind_lift_ok h1, bind_lift_ok h1]
      simp only []
      rw [bind_lift_error h2, bind_lift_error h2]
  have hh1 : TwoNumbers l1 a b := ⟨s1, t1, rest1, hl1, hs1, ht1⟩
  rw [layout_iff.mp hl1, bind_lift_ok (nextUsize_cons hs1), bind_lift_ok (nextUsize_cons hs1)]
  simp only []
  rw [bind_lift_ok (nextUsize_cons ht1), bind_lift_ok (nextUsize_cons ht1)]
  simp only []
  rcases ls with _ | ⟨l2, ls⟩
  · rfl
  rw [bind_lift_ok (x := nextLine 2 (l2 :: ls)) rfl, bind_lift_ok (x := nextLine 2 (l2 :: ls)) rfl]
  simp only []
  have hx2 : ¬ ExceedsLine l2 := fun hx => h (.ins hls hh1 hx)
  rcases hk : nextUsize (tokensOf l2) with e | ⟨k, ts⟩
  · rfl
  obtain ⟨s2, heq, hs2⟩ := nextUsize_ok.mp hk
  have hnx : ¬ Exceeds 0 k ts := fun hx => hx2 ⟨s2, k, ts, layout_iff.mpr heq, hs2, hx⟩
  rw [bind_lift_ok rfl, bind_lift_ok rfl]
  simp only []
  rw [readInputsA_eq hA (by omega) hnx, readInputsA_eq hB (by omega) hnx, M.bind_apply, M.bind_apply]
  rcases hri : readInputs r gow 0 k ts w with ⟨_ | gow1, w1⟩
  · rfl
  simp only []
  rcases ls with _ | ⟨l3, ls⟩
  · rfl
  rw [bind_lift_ok (x := nextLine 3 (l3 :: ls)) rfl, bind_lift_ok (x := nextLine 3 (l3 :: ls)) rfl]
  simp only []
  have hx3 : ¬ ExceedsLine l3 := by
    intro hx
    rcases counted_cases l2 with ⟨ts', e, k1, k2⟩ | ⟨is, k1⟩
    · -- the inputs were not read
      rw [layout_iff.mp k1] at heq
      subst heq
      cases k2 with
      | count hb =>
        have := nextUsize1_bad hb
        rw [nextUsize_cons hs2] at this; cases this
      | items ht hb =>
        rw [hs2.det ht] at hri
        exact absurd hri (readInputs_fails hb)
    · exact h (.outs hls hh1 k1 (counted_sum k1 hx2) hx)
  rcases hk3 : nextUsize (tokensOf l3) with e | ⟨k3, ts3⟩
  · rfl
  obtain ⟨s3, heq3, hs3⟩ := nextUsize_ok.mp hk3
  have hnx3 : ¬ Exceeds 0 k3 ts3 := fun hx => hx3 ⟨s3, k3, ts3, layout_iff.mpr heq3, hs3, hx⟩
  rw [bind_lift_ok rfl, bind_lift_ok rfl]
  simp only []
  rw [readOutputLensA_eq hA (by omega) hnx3, readOutputLensA_eq hB (by omega) hnx3]

/-! ### without bound -/

theorem readInputBitsA_ideal {sum : Nat} : ∀ {k j : Nat} {gow : GOW},
    readInputBitsA .ideal r gow sum j k = readInputBits r gow (sum + j) k
  | 0, _, _ => rfl
  | k + 1, j, gow => by
    rw [readInputBitsA, readInputBits]
    funext w
    rw [bind_lift_ok (x := Arith.ideal.add sum j) rfl]
    have ih : ∀ g, readInputBitsA .ideal r (gow.insert (sum + j) g) sum (j + 1) k = _ := fun g =>
      readInputBitsA_ideal
    simp only [ih, Nat.add_assoc]

theorem readInputsA_ideal : ∀ {k sum : Nat} {gow : GOW} {ts : List Str},
    readInputsA .ideal r gow sum k ts = readInputs r gow sum k ts
  | 0, _, _, _ => rfl
  | k + 1, sum, gow, ts => by
    rw [readInputsA, readInputs]
    congr 1
    funext ⟨n, ts'⟩
    simp only []
    rw [readInputBitsA_ideal, Nat.add_zero]
    congr 1
    funext gow
    exact readInputsA_ideal

theorem readOutputLensA_ideal : ∀ {k sum : Nat} {ts : List Str}, readOutputLensA .ideal sum k ts = readOutputLens sum k ts
  | 0, _, _ => rfl
  | k + 1, sum, ts => by
    rw [readOutputLensA, readOutputLens]
    congr 1
    funext ⟨n, ts'⟩
    exact readOutputLensA_ideal

theorem readA_ideal (gow : GOW) (text : Str) : readA .ideal r gow text = read r gow text := by
  unfold readA read
  simp only [readInputsA_ideal, readOutputLensA_ideal]
  have fin : ∀ (numWire outSum : Nat) (gow : GOW), (do
      let start ← lift (Arith.ideal.sub numWire outSum)
      readFinal r gow (rangeFromTo start numWire)
      pure gow : M GOW) = (if numWire < outSum then M.throw (.panic .underflow)
      else do
        readFinal r gow (rangeFromTo (numWire - outSum) numWire)
        pure gow) := by
    intro a b gow
    simp only [Arith.ideal]
    split <;> rfl
  simp only [fin]

/-! ### with checks -/

theorem readA_debug {text : Str} (h : ¬ Oversized text) (gow : GOW) : readA .debug r gow text = read r gow text := by
  rw [← readA_ideal, readA_eq, readA_eq, readTo_eq fits_debug fits_ideal h]
  have : readEnd .debug r = readEnd .ideal r := by
    funext x
    simp only [readEnd, Arith.debug, Arith.ideal]
  rw [this]

theorem readInputBitsA_debug {sum : Nat} : ∀ {k j : Nat} {gow : GOW} {w : World} {c : Circuit}, WFw w → w.circs[r]? = some c →
    ∃ w' c', WFw w' ∧ w'.circs[r]? = some c' ∧ (readInputBitsA .debug r gow sum j k w = (.error (.panic .overflow), w') ∨
      ∃ gow', readInputBitsA .debug r gow sum j k w = (.ok gow', w'))
  | 0, _, gow, w, c, hw, hc => ⟨w, c, hw, hc, .inr ⟨gow, rfl⟩⟩
  | k + 1, j, gow, w, c, hw, hc => by
    by_cases h : sum + j < 2 ^ 64
    · obtain ⟨he, hg⟩ := gainsInput hw hc
      obtain ⟨w', c', h1, h2, h3⟩ := readInputBitsA_debug (sum := sum) (k := k) (j := j + 1)
        (gow := gow.insert (sum + j) c.gateIndex) hg.wf hg.circ
      refine ⟨w', c', h1, h2, ?_⟩
      rw [readInputBitsA, bind_lift_ok (fits_debug sum j h), bind_ok he]
      exact h3
    · refine ⟨w, c, hw, hc, .inl ?_⟩
      rw [readInputBitsA]
      exact bind_lift_error (by simp only [Arith.debug, if_neg h]) _ _

theorem readInputsA_over {sum k : Nat} {ts : List Str} (h : Exceeds sum k ts) : ∀ {gow : GOW} {w : World} {c : Circuit}, WFw w →
    w.circs[r]? = some c → ∃ w', readInputsA .debug r gow sum k ts w = (.error (.panic .overflow), w') := by
  induction h with
  | @now s k t n ts ht hge =>
    intro gow w c hw hc
    obtain ⟨w', c', h1, h2, h3⟩ := readInputBitsA_debug (r := r) (sum := s) (k := n) (j := 0) (gow := gow) hw hc
    refine ⟨w', ?_⟩
    rw [readInputsA, bind_lift_ok (nextUsize_cons ht)]
    rcases h3 with h3 | ⟨gow', h3⟩
    · exact bind_error' h3 _
    · refine (bind_ok h3).trans (bind_lift_error ?_ _ _)
      simp only [Arith.debug]; rw [if_neg (by omega)]
  | @later s k t n ts ht hlt _ ih =>
    intro gow w c hw hc
    obtain ⟨w1, c1, h1, h2, h3⟩ := readInputBitsA_debug (r := r) (sum := s) (k := n) (j := 0) (gow := gow) hw hc
    rcases h3 with h3 | ⟨gow', h3⟩
    · refine ⟨w1, ?_⟩
      rw [readInputsA, bind_lift_ok (nextUsize_cons ht)]
      exact bind_error' h3 _
    · obtain ⟨w2, h4⟩ := ih (gow := gow') h1 h2
      refine ⟨w2, ?_⟩
      rw [readInputsA, bind_lift_ok (nextUsize_cons ht)]
      refine (bind_ok h3).trans ?_
      rw [bind_lift_ok (fits_debug s n hlt)]
      exact h4

theorem readOutputLensA_over {sum k : Nat} {ts : List Str} (h : Exceeds sum k ts) :
    readOutputLensA .debug sum k ts = .error (.panic .overflow) := by
  induction h with
  | @now s k t n ts ht hge =>
    rw [readOutputLensA, ebind_ok (nextUsize_cons ht)]
    refine ebind_error ?_ _
    simp only [Arith.debug]; rw [if_neg (by omega)]
  | @later s k t n ts ht hlt _ ih =>
    rw [readOutputLensA, ebind_ok (nextUsize_cons ht)]
    refine (ebind_ok (fits_debug s n hlt) _).trans ih

theorem exceeds_not {rest : List Str} : ∀ {is : List Nat} {ts : List Str} {sum : Nat}, All2 Numeral ts is → sum + is.sum < 2 ^ 64 →
    ¬ Exceeds sum is.length (ts ++ rest) := by
  intro is
  induction is with
  | nil => intro ts sum _ _ h; cases h
  | cons n is ih =>
    intro ts sum ha hlt h
    cases ts with
    | nil => exact ha.elim
    | cons t ts =>
      rw [List.sum_cons] at hlt
      cases h with
      | now ht hge => rw [ht.det ha.1] at hge; omega
      | later ht _ h => rw [ht.det ha.1] at h; exact ih ha.2 (by omega) h

theorem readA_over {text : Str} {w : World} {c : Circuit} (hw : WFw w) (hc : w.circs[r]? = some c) (h : Oversized text)
    (gow : GOW) : ∃ w', readA .debug r gow text w = (.error (.panic .overflow), w') := by
  cases h with
  | @ins l1 l2 ls a b hls h1 hx =>
    obtain ⟨s1, t1, rest1, hl1, hs1, ht1⟩ := h1
    obtain ⟨s, k, ts, hl, hs, hx⟩ := hx
    obtain ⟨w', hw'⟩ := readInputsA_over (r := r) hx (gow := gow) hw hc
    refine ⟨w', ?_⟩
    unfold readA
    rw [lines_iff.mp hls, bind_lift_ok (x := nextLine 1 (l1 :: l2 :: ls)) rfl]
    simp only []
    rw [layout_iff.mp hl1, bind_lift_ok (nextUsize_cons hs1)]
    simp only []
    rw [bind_lift_ok (nextUsize_cons ht1)]
    simp only []
    rw [bind_lift_ok (x := nextLine 2 (l2 :: ls)) rfl]
    simp only []
    rw [layout_iff.mp hl, bind_lift_ok (nextUsize_cons hs)]
    exact bind_error' hw' _
  | @outs l1 l2 l3 ls a b is hls h1 h2 hlt hx =>
    obtain ⟨s1, t1, rest1, hl1, hs1, ht1⟩ := h1
    obtain ⟨s2, ts2, rest2, hl2, hs2, hts2⟩ := h2
    obtain ⟨s, k, ts, hl, hs, hx⟩ := hx
    obtain ⟨w1, c1, he1, g1⟩ := readInputs_ok (r := r) is 0 (rest := rest2) (gow := gow) hw hc hts2
    rw [← readInputsA_eq fits_debug (by omega) (exceeds_not hts2 (by omega))] at he1
    refine ⟨w1, ?_⟩
    unfold readA
    rw [lines_iff.mp hls, bind_lift_ok (x := nextLine 1 (l1 :: l2 :: l3 :: ls)) rfl]
    simp only []
    rw [layout_iff.mp hl1, bind_lift_ok (nextUsize_cons hs1)]
    simp only []
    rw [bind_lift_ok (nextUsize_cons ht1)]
    simp only []
    rw [bind_lift_ok (x := nextLine 2 (l2 :: l3 :: ls)) rfl]
    simp only []
    rw [layout_iff.mp hl2, List.cons_append, bind_lift_ok (nextUsize_cons hs2)]
    simp only []
    rw [bind_ok he1, bind_lift_ok (x := nextLine 3 (l3 :: ls)) rfl]
    simp only []
    rw [layout_iff.mp hl, bind_lift_ok (nextUsize_cons hs)]
    exact bind_lift_error (readOutputLensA_over hx) _ _

/-! ### with wrap-around -/

theorem release_sub_lt {a b : Nat} (hb : b < 2 ^ 64) (h : a < b) : ∃ s, Arith.release.sub a b = .ok s ∧ a ≤ s := by
  refine ⟨(a + 2 ^ 64 - b) % 2 ^ 64, rfl, ?_⟩
  rw [Nat.mod_eq_of_lt (by omega)]; omega

theorem release_sub_ge {a b : Nat} (ha : a < 2 ^ 64) (h : b ≤ a) : Arith.release.sub a b = .ok (a - b) := by
  have : (a + 2 ^ 64 - b) % 2 ^ 64 = a - b := by
    rw [show a + 2 ^ 64 - b = (a - b) + 2 ^ 64 by omega, Nat.add_mod_right, Nat.mod_eq_of_lt (by omega)]
  simp only [Arith.release, this]

theorem range_empty {a s : Nat} (h : a ≤ s) : rangeFromTo s a = [] := by
  unfold rangeFromTo
  rw [Nat.sub_eq_zero_of_le h]; rfl

theorem readEnd_ok {gow : GOW} {a b s : Nat} (h : A.sub a b = .ok s) (w : World) :
    readEnd A r (gow, a, b) w = (readFinal r gow (rangeFromTo s a) >>= fun _ => pure gow) w := bind_lift_ok h _ w

theorem readEnd_error {gow : GOW} {a b : Nat} {e : Err} (h : A.sub a b = .error e) (w : World) :
    readEnd A r (gow, a, b) w = (.error e, w) := bind_lift_error h _ w

theorem readEnd_release {gow : GOW} {a b : Nat} (ha : a < 2 ^ 64) (hb : b < 2 ^ 64) (w : World) :
    (b ≤ a ∧ readEnd .release r (gow, a, b) w = readEnd .ideal r (gow, a, b) w) ∨
    (a < b ∧ readEnd .ideal r (gow, a, b) w = (.error (.panic .underflow), w) ∧
      readEnd .release r (gow, a, b) w = (.ok gow, w)) := by
  by_cases hlt : a < b
  · right
    have hi : Arith.ideal.sub a b = .error (.panic .underflow) := by simp only [Arith.ideal, if_pos hlt]
    obtain ⟨s, hs, hle⟩ := release_sub_lt hb hlt
    refine ⟨hlt, readEnd_error hi w, ?_⟩
    rw [readEnd_ok hs, range_empty hle]; rfl
  · left
    have hi : Arith.ideal.sub a b = .ok (a - b) := by simp only [Arith.ideal, if_neg hlt]
    refine ⟨by omega, ?_⟩
    rw [readEnd_ok hi, readEnd_ok (release_sub_ge ha (by omega))]

theorem lift_bind_inv {α β} {x : Except Err α} {f : α → M β} {w w' : World} {b : β} (h : (lift x >>= f) w = (.ok b, w')) :
    ∃ a, x = .ok a ∧ f a w = (.ok b, w') := by
  cases x with
  | error e => cases h
  | ok a => exact ⟨a, rfl, h⟩

theorem m_bind_inv {α β} {x : M α} {f : α → M β} {w w' : World} {b : β} (h : (x >>= f) w = (.ok b, w')) :
    ∃ a w1, x w = (.ok a, w1) ∧ f a w1 = (.ok b, w') := by
  rw [M.bind_apply] at h
  rcases hx : x w with ⟨e | a, w1⟩
  · rw [hx] at h; cases h
  · rw [hx] at h; exact ⟨a, w1, rfl, h⟩

/-- what was read up to the end of the gate lines -/
theorem readTo_header {gow gow' : GOW} {text : Str} {w w' : World} {a b : Nat}
    (hx : readTo .ideal r gow text w = (.ok (gow', a, b), w')) :
    ∃ l1 l2 l3 l4 ls n is os, Lines (l1 :: l2 :: l3 :: l4 :: ls) text ∧ TwoNumbers l1 n a ∧ CountedNumbers l2 is ∧
      CountedNumbers l3 os ∧ b = os.sum := by
  have hls : Lines (linesOf text) text := lines_iff.mpr rfl
  unfold readTo at hx
  generalize linesOf text = ls at hls hx
  obtain ⟨⟨l1, ls1⟩, e1, hx⟩ := lift_bind_inv hx
  obtain ⟨⟨n, ts1⟩, e2, hx⟩ := lift_bind_inv hx
  obtain ⟨⟨m, ts2⟩, e3, hx⟩ := lift_bind_inv hx
  obtain ⟨⟨l2, ls2⟩, e4, hx⟩ := lift_bind_inv hx
  obtain ⟨⟨k2, ts3⟩, e5, hx⟩ := lift_bind_inv hx
  obtain ⟨gow1, w1, e6, hx⟩ := m_bind_inv hx
  obtain ⟨⟨l3, ls3⟩, e7, hx⟩ := lift_bind_inv hx
  obtain ⟨⟨k3, ts4⟩, e8, hx⟩ := lift_bind_inv hx
  obtain ⟨outSum, e9, hx⟩ := lift_bind_inv hx
  obtain ⟨⟨l4, ls4⟩, e10, hx⟩ := lift_bind_inv hx
  obtain ⟨gow2, w2, e11, hx⟩ := m_bind_inv hx
  cases hx
  have hl : ls = l1 :: l2 :: l3 :: l4 :: ls4 := by
    rcases ls with _ | ⟨x1, ls⟩
    · cases e1
    cases e1
    rcases ls1 with _ | ⟨x2, ls1⟩
    · cases e4
    cases e4
    rcases ls2 with _ | ⟨x3, ls2⟩
    · cases e7
    cases e7
    rcases ls3 with _ | ⟨x4, ls3⟩
    · cases e10
    cases e10
    rfl
  subst hl
  obtain ⟨s1, h1, hs1⟩ := nextUsize_ok.mp e2
  obtain ⟨t1, rfl, ht1⟩ := nextUsize_ok.mp e3
  obtain ⟨s2, h2, hs2⟩ := nextUsize_ok.mp e5
  obtain ⟨s3, h3, hs3⟩ := nextUsize_ok.mp e8
  rw [readInputsA_ideal] at e6
  rw [readOutputLensA_ideal] at e9
  rcases nums_cases k2 ts3 with ⟨e, he⟩ | ⟨as, is, rest, rfl, hlen, has⟩
  · exact absurd e6 (readInputs_fails he)
  rcases nums_cases k3 ts4 with ⟨e, he⟩ | ⟨bs, os, rest', rfl, hlen', hbs⟩
  · rw [readOutputLens_bad he] at e9; cases e9
  subst hlen hlen'
  rw [readOutputLens_ok os 0 hbs] at e9
  cases e9
  exact ⟨l1, l2, l3, l4, ls4, n, is, os, hls, ⟨s1, t1, ts2, layout_iff.mpr h1, hs1, ht1⟩,
    ⟨s2, as, rest, layout_iff.mpr h2, hs2, has⟩, ⟨s3, bs, rest', layout_iff.mpr h3, hs3, hbs⟩, by omega⟩

theorem readTo_small {gow gow' : GOW} {text : Str} {w w' : World} {a b : Nat} (h : ¬ Oversized text)
    (hx : readTo .ideal r gow text w = (.ok (gow', a, b), w')) : a < 2 ^ 64 ∧ b < 2 ^ 64 := by
  obtain ⟨l1, l2, l3, l4, ls, n, is, os, hls, h1, h2, h3, rfl⟩ := readTo_header hx
  have ha : a < 2 ^ 64 := by
    obtain ⟨s, t, rest, _, _, _, _, _, _, _, ht⟩ := h1
    exact ht
  exact ⟨ha, counted_sum h3 fun hx3 => h (.outs hls h1 h2 (counted_sum h2 fun hx2 => h (.ins hls h1 hx2)) hx3)⟩

theorem readA_release {text : Str} (h : ¬ Oversized text) (gow : GOW) (w : World) :
    readA .release r gow text w = read r gow text w ∨
    ∃ w' gow', read r gow text w = (.error (.panic .underflow), w') ∧ readA .release r gow text w = (.ok gow', w') := by
  rw [← readA_ideal, readA_eq, readA_eq, readTo_eq fits_release fits_ideal h]
  rcases hx : readTo .ideal r gow text w with ⟨e | ⟨gow', a, b⟩, w'⟩
  · left; rw [M.bind_apply, M.bind_apply, hx]
  · obtain ⟨ha, hb⟩ := readTo_small h hx
    rw [bind_ok hx, bind_ok hx]
    rcases readEnd_release (gow := gow') ha hb w' with ⟨_, h1⟩ | ⟨_, h1, h2⟩
    · exact .inl h1
    · exact .inr ⟨w', gow', h1, h2⟩

theorem readOutputLensA_release : ∀ {ns : List Nat} {sum : Nat} {ts rest : List Str}, sum < 2 ^ 64 → All2 Numeral ts ns →
    readOutputLensA .release sum ns.length (ts ++ rest) = .ok ((sum + ns.sum) % 2 ^ 64) := by
  intro ns
  induction ns with
  | nil =>
    intro sum ts rest hs _
    rw [List.sum_nil, Nat.add_zero, Nat.mod_eq_of_lt hs]; rfl
  | cons n ns ih =>
    intro sum ts rest hs h
    cases ts with
    | nil => exact h.elim
    | cons t ts =>
      rw [List.length_cons, List.cons_append, readOutputLensA, ebind_ok (nextUsize_cons h.1)]
      simp only []
      rw [ebind_ok (show Arith.release.add sum n = .ok ((sum + n) % 2 ^ 64) from rfl), ih (Nat.mod_lt _ (by decide)) h.2,
        List.sum_cons]
      congr 1
      rw [Nat.mod_add_mod, Nat.add_assoc]

theorem readInputs_congr : ∀ {is : List Nat} {ts ts' rest rest' : List Str} {sum : Nat} {gow : GOW}, All2 Numeral ts is →
    All2 Numeral ts' is → readInputs r gow sum is.length (ts ++ rest) = readInputs r gow sum is.length (ts' ++ rest') := by
  intro is
  induction is with
  | nil => intros; rfl
  | cons n is ih =>
    intro ts ts' rest rest' sum gow h h'
    cases ts with
    | nil => exact h.elim
    | cons t ts =>
    cases ts' with
    | nil => exact h'.elim
    | cons t' ts' =>
      rw [List.length_cons, List.cons_append, List.cons_append, readInputs, readInputs, nextUsize_cons h.1, nextUsize_cons h'.1]
      funext w
      rw [bind_lift_ok rfl, bind_lift_ok rfl]
      simp only []
      rw [M.bind_apply, M.bind_apply]
      rcases readInputBits r gow sum n w with ⟨_ | g, w'⟩
      · rfl
      · simp only [ih (rest := rest) (rest' := rest') h.2 h'.2]

theorem dec_all {ts : List Str} {is : List Nat} (h : All2 Numeral ts is) : All2 Numeral (is.map dec) is := by
  induction is generalizing ts with
  | nil => trivial
  | cons n is ih =>
    cases ts with
    | nil => exact h.elim
    | cons t ts =>
      obtain ⟨_, _, _, _, _, hn⟩ := h.1
      exact ⟨dec_numeral hn, ih h.2⟩

/-- in a release build only the sum of the output widths modulo `2^64` matters -/
theorem readTo_release {text : Str} {a b : Nat} {is os : List Nat} {ls : List Str} (h : Header text a b is os ls)
    (hi : is.sum < 2 ^ 64) (gow : GOW) (w : World) : readTo .release r gow text w =
      (readInputs r gow 0 is.length (is.map dec ++ []) >>= fun gow => readGates r gow ls >>= fun gow =>
        (pure (gow, b, os.sum % 2 ^ 64) : M (GOW × Nat × Nat))) w := by
  obtain ⟨l1, l2, l3, l4, hls, ⟨s1, t1, rest1, hl1, hs1, ht1⟩, ⟨s2, ts2, rest2, hl2, hs2, hts2⟩,
    ⟨s3, ts3, rest3, hl3, hs3, hts3⟩⟩ := h
  unfold readTo
  rw [lines_iff.mp hls, bind_lift_ok (x := nextLine 1 (l1 :: l2 :: l3 :: l4 :: ls)) rfl]
  simp only []
  rw [layout_iff.mp hl1, bind_lift_ok (nextUsize_cons hs1)]
  simp only []
  rw [bind_lift_ok (nextUsize_cons ht1)]
  simp only []
  rw [bind_lift_ok (x := nextLine 2 (l2 :: l3 :: l4 :: ls)) rfl]
  simp only []
  rw [layout_iff.mp hl2, List.cons_append, bind_lift_ok (nextUsize_cons hs2)]
  simp only []
  rw [readInputsA_eq fits_release (by omega) (exceeds_not hts2 (by omega)),
    readInputs_congr (rest' := []) hts2 (dec_all hts2), M.bind_apply, M.bind_apply]
  rcases readInputs r gow 0 is.length (is.map dec ++ []) w with ⟨_ | g, w'⟩
  · rfl
  simp only []
  rw [bind_lift_ok (x := nextLine 3 (l3 :: l4 :: ls)) rfl]
  simp only []
  rw [layout_iff.mp hl3, List.cons_append, bind_lift_ok (nextUsize_cons hs3)]
  simp only []
  rw [bind_lift_ok (readOutputLensA_release (by omega) hts3), bind_lift_ok (x := nextLine 4 (l4 :: ls)) rfl, Nat.zero_add]

theorem readA_silent {f : File} {text : Str} {w : World} {c : Circuit} (hw : WFw w) (hc : w.circs[r]? = some c)
    (hp : Parses f text) (hlt : f.numWire < f.numOut) (hs : ¬ Oversized text) :
    ∃ gow w' c', readA .release r Map.empty text w = (.ok gow, w') ∧ w'.circs[r]? = some c' ∧
      c'.inputLen = c.inputLen + f.numIn ∧ c'.outputLen = c.outputLen := by
  obtain ⟨ls, tail, rows, hh, hrows, hu, hgs, htail⟩ := hp
  obtain ⟨l1, l2, l3, l4, hls, h1, h2, h3⟩ := id hh
  have hi : f.ins.sum < 2 ^ 64 := counted_sum h2 fun hx => hs (.ins hls h1 hx)
  have ho : f.outs.sum < 2 ^ 64 := counted_sum h3 fun hx => hs (.outs hls h1 h2 hi hx)
  have hn : f.numWire < 2 ^ 64 := Nat.lt_trans hlt ho
  obtain ⟨s, ts, rest, _, _, hts⟩ := id h2
  obtain ⟨w1, c1, he1, g1⟩ := readInputs_ok (r := r) f.ins 0 (rest := []) (gow := Map.empty) hw hc (dec_all hts)
  rw [show (fun x => x < f.numIn) = (· < f.ins.sum) from rfl, ← bindRange_empty (g := c.gateIndex)] at hu
  obtain ⟨gow2, w2, he2, g2, r2⟩ := readRows_ok g1.wf g1.circ hrows htail hu
  obtain ⟨c2, hc2, _, hin, hout, _⟩ := g2.circ c1 g1.circ
  refine ⟨gow2, w2, c2, ?_, hc2, by rw [hin, g1.inputLen]; rfl, by rw [hout, g1.adds.outputLen]⟩
  have hto : readTo .release r Map.empty text w = (.ok (gow2, f.numWire, f.outs.sum), w2) := by
    rw [readTo_release hh hi, bind_ok he1, bind_ok he2, Nat.mod_eq_of_lt ho]; rfl
  rw [readA_eq, bind_ok hto]
  rcases readEnd_release (r := r) (gow := gow2) hn ho w2 with ⟨hle, _⟩ | ⟨_, _, h⟩
  · unfold File.numOut at hlt; omega
  · exact h

theorem readA_wraps {text text' : Str} {a a' b : Nat} {is os os' : List Nat} {ls : List Str} (h : Header text a b is os ls)
    (h' : Header text' a' b is os' ls) (hi : is.sum < 2 ^ 64) (hs : os.sum % 2 ^ 64 = os'.sum % 2 ^ 64) (gow : GOW) :
    readA .release r gow text = readA .release r gow text' := by
  rw [readA_eq, readA_eq]
  have : readTo .release r gow text = readTo .release r gow text' := by
    funext w
    rw [readTo_release h hi, readTo_release h' hi, hs]
  rw [this]

end CC.Bristol
