import Verif.Props.Stable
import Verif.Props.Equality
import Verif.Proofs.BrBack

/-!
# Property C70: circuits that are written and read back, compared with `==`

Mathlib is not needed.
-/

namespace CC.Props
open CC Spec CC.Bristol Spec.Bristol

/-! ### C70 -/

theorem full_of_nodup {n : Nat} {l : List Nat} (h1 : l.Nodup) (h2 : ∀ x ∈ l, x < n) (h3 : l.length = n) : ∀ g, g < n → g ∈ l := by
  intro g hg
  apply Classical.byContradiction
  intro hn
  have h4 := nodup_sum_le (fun _ => 1) n (g :: l) (List.nodup_cons.mpr ⟨hn, h1⟩) (by
    intro x hx
    rcases List.mem_cons.mp hx with rfl | hx
    · exact hg
    · exact h2 x hx)
  have h5 : ∀ n, sumTo n (fun _ => 1) = n := by
    intro n
    induction n with
    | zero => rfl
    | succ n ih => simp [sumTo, ih]
  have h6 : ∀ l : List Nat, (l.map fun _ => 1).sum = l.length := by
    intro l
    induction l with
    | nil => rfl
    | cons _ _ ih => simp [ih]; omega
  rw [h5, h6, List.length_cons] at h4
  omega

theorem getElem?_range'_ite (lo n k : Nat) : (List.range' lo n)[k]? = if k < n then some (lo + k) else none := by
  split
  · next h => rw [List.getElem?_range' h, Nat.one_mul]
  · next h => exact List.getElem?_eq_none (by simpa using h)

theorem inOrder_flat {c : Circuit} (h : InOrder c) : Flat c := by
  intro g gate hg
  rcases h.plain g gate hg with h | ⟨x, y, h | h | h | h⟩
  · exact .inl h
  all_goals
    rw [hg] at h; cases h
  · exact .inr ⟨_, .not x⟩
  · exact .inr ⟨_, .xor x y⟩
  · exact .inr ⟨_, .and x y⟩
  · exact .inr ⟨_, .or x y⟩

/-- C70: a circuit that is written and read back into an empty circuit compares equal to what is read exactly if its inputs come first and
in order, its outputs come last and in order, and in between its gates are in the order of a depth-first traversal from the
operands of the outputs. The header numbers are assumed to fit in 64 bits. -/
theorem C70_exact {w : World} (h : ValidRun w) {r : Ref} {c : Circuit} (hc : w.circs[r]? = some c) {numFirst : Nat}
    (hn : numFirst ≤ c.inputLen + c.numConst) (hs : c.numWire + c.numConst < 2 ^ 64) (ho : c.outputLen < 2 ^ 64) :
    ∃ res ls, Wrote w r c numFirst res ls ∧ ∀ w2, Reachable w2 → ∀ r2 s2, w2.circs[r2]? = some (Circuit.new s2) →
      ((∃ gow w3 c3, read r2 Map.empty res.st.out w2 = (.ok gow, w3) ∧ w3.circs[r2]? = some c3 ∧ c.Same c3) ↔ InOrder c) := by
  obtain ⟨res, ls, hb⟩ := readback h hc hn hs ho
  have hwf := h.wf.circ r c hc
  have ht : Topo c := (h.allBuilt r c hc).topo hc
  have hbal := h.balance hc
  refine ⟨res, ls, hb.wrote, fun w2 h2 r2 s2 hc2 => ⟨?_, fun hin => ?_⟩⟩
  · rintro ⟨gow, w3, c3, hread, hc3, hsame⟩
    have h0 : c.outputLen = 0 ∨ (c.numConst = 0 ∧ ls.length = c.numGate ∧ c.outputLen ≤ c.inputLen + c.numGate) := by
      obtain ⟨res', ls', hw', hiff⟩ := C22_reads_iff h hc hn hs ho
      obtain ⟨rfl, rfl⟩ := hb.wrote.det hw'
      apply Classical.byContradiction
      intro hno
      have := (hiff w2 h2 r2 _ hc2).2 (by
        rintro (e | ⟨e1, e2, e3⟩)
        · exact hno (.inl e)
        · exact hno (.inr ⟨e2, (hb.file.inlined.det e3).1, by omega⟩))
      obtain ⟨p, w4, e⟩ := this
      rw [hread] at e; cases e
    obtain ⟨w3', c3', e1, e2, e3, e4, e5⟩ := hb.mirror h0 hc2
    rw [hread] at e1
    cases e1
    rw [hc3] at e2
    cases e2
    obtain ⟨s1, s2', s3, _, _, s6, s7, s8, s9, s10⟩ := hsame
    have hk : c.numConst = 0 := by rw [e3.inputLen] at s6; omega
    rw [hk, Nat.add_zero] at e3
    have hflat : Flat c := by
      intro g gate hg
      rw [s3, e3.gate] at hg
      split at hg
      · cases hg; exact .inl ⟨g, rfl⟩
      · obtain ⟨l, _, hl⟩ := Option.bind_eq_some_iff.mp hg
        unfold gateOf at hl
        split at hl <;> cases hl
        · exact .inr ⟨_, .not _⟩
        · exact .inr ⟨_, .xor _ _⟩
        · exact .inr ⟨_, .and _ _⟩
        · exact .inr ⟨_, .or _ _⟩
    have hgi : c.gateIndex = c.inputLen + ls.length := by rw [s10, e3.gateIndex]
    have hng : c.numGate = ls.length := by rw [s9, e3.numGate]
    have hins : ∀ k, k < c.inputLen → c.inputMap k = some k := by
      intro k hk
      rw [s1, e3.inputMap, if_pos hk]
    have houts : ∀ k, c.outputMap k = if k < c.outputLen then some (c.gateIndex - c.outputLen + k) else none := by
      intro k
      rw [s2', e5, hgi, hng]
    obtain ⟨F, hF⟩ := hb.wrote.1
    have hF := hF F (Nat.le_refl _)
    obtain ⟨ls', hmir⟩ := write_mir hwf hc ht hflat hk hF
    have els : ls' = ls := by
      have h1 := hmir.out
      simp only at h1
      rw [hb.wrote.2, ← header_text] at h1
      exact (gatesText_inj (List.append_cancel_left h1)).symm
    subst els
    obtain ⟨mid, L, v1, v2, v3⟩ := write_order hwf hc ht hflat hk (ins := List.range c.inputLen)
      (outs := List.range' (c.gateIndex - c.outputLen) c.outputLen) (by simp) (by
        intro k
        by_cases hk : k < c.inputLen
        · rw [hins k hk, List.getElem?_range hk]
        · rw [List.getElem?_eq_none (by simpa using hk), s1, e3.inputMap, if_neg hk]) (by simp) (by
        intro k
        rw [houts, getElem?_range'_ite]) hF
    have hL : L.length = c.gateIndex := by
      have := v3.num
      have := hmir.wire
      simp only at *
      omega
    have hpos : ∀ g x, L[x]? = some g → (res.wog g).getD 0 = x := by
      intro g x hx
      have := (v3.wire g x).mpr hx
      simp only at this
      rw [this]; rfl
    have hlt : ∀ g ∈ L, g < c.gateIndex := by
      intro g hg
      obtain ⟨x, hx⟩ := List.mem_iff_getElem?.mp hg
      have hx := (v3.wire g x).mpr hx
      by_cases hlt : x < c.inputLen
      · exact hwf.lt_of_some (hmir.low g x hx hlt)
      · obtain ⟨gate, l, k1, _⟩ := hmir.line g x hx (by omega)
        exact hwf.lt_of_some k1
    have hnd : L.Nodup := by
      unfold List.Nodup
      rw [List.pairwise_iff_getElem]
      intro i j hi hj hij he
      have h1 := hpos L[i] i (List.getElem?_eq_getElem hi)
      have h2 := hpos L[j] j (List.getElem?_eq_getElem hj)
      rw [he] at h1
      omega
    have hid := order_of_same hwf ht hflat hins v1 v2 hL (fun g => (res.wog g).getD 0) hpos (by
      intro x g gate hx hg
      rw [s3]
      exact hmir.gateOf e3 ((v3.wire g x).mpr hx) hg) (full_of_nodup hnd hlt hL) hlt
    rw [hid] at v2
    refine ⟨?_, hk, by rw [s8, e3.numWire]; omega, hins, ?_, mid, v1, v2⟩
    · intro g gate hg
      rcases hflat g gate hg with h | ⟨op, ho⟩
      · exact .inl h
      · right
        cases ho with
        | not x => exact ⟨x, 0, .inl hg⟩
        | xor x y => exact ⟨x, y, .inr (.inl hg)⟩
        | and x y => exact ⟨x, y, .inr (.inr (.inl hg))⟩
        | or x y => exact ⟨x, y, .inr (.inr (.inr hg))⟩
    · intro k hk
      rw [houts, if_pos hk]
  · have hflat := inOrder_flat hin
    have hk := hin.noConst
    have hw := hin.wires
    obtain ⟨F, hF⟩ := hb.wrote.1
    have hF := hF F (Nat.le_refl _)
    obtain ⟨ls', hmir⟩ := write_mir hwf hc ht hflat hk hF
    have els : ls' = ls := by
      have h1 := hmir.out
      simp only at h1
      rw [hb.wrote.2, ← header_text] at h1
      exact (gatesText_inj (List.append_cancel_left h1)).symm
    subst els
    have hins : ∀ k, c.inputMap k = if k < c.inputLen then some k else none := by
      intro k
      by_cases hk : k < c.inputLen
      · rw [hin.inputs k hk, if_pos hk]
      · rw [if_neg hk]
        cases e : c.inputMap k with
        | none => rfl
        | some g => exact absurd ((hwf.input_dom k).mp (by rw [e]; rfl)) hk
    have houts : ∀ k, c.outputMap k = if k < c.outputLen then some (c.gateIndex - c.outputLen + k) else none := by
      intro k
      by_cases hk : k < c.outputLen
      · rw [hin.outputs k hk, if_pos hk]
      · rw [if_neg hk]
        cases e : c.outputMap k with
        | none => rfl
        | some g => exact absurd ((hwf.output_dom k).mp (by rw [e]; rfl)) hk
    obtain ⟨mid, L, v1, v2, v3⟩ := write_order hwf hc ht hflat hk (ins := List.range c.inputLen)
      (outs := List.range' (c.gateIndex - c.outputLen) c.outputLen) (by simp) (by
        intro k
        rw [hins]
        split
        · next hk => rw [List.getElem?_range hk]
        · next hk => rw [List.getElem?_eq_none (by simpa using hk)]) (by simp) (by
        intro k
        rw [houts, getElem?_range'_ite]) hF
    obtain ⟨mid', o1, o2⟩ := hin.order
    have := v1.det o1
    subst this
    have := v2.det o2
    subst this
    have hnw := v3.num
    have hmw := hmir.wire
    simp only [List.length_range] at hnw hmw
    have hroom : c.outputLen ≤ c.gateIndex := by
      apply Classical.byContradiction
      intro hgt
      have h1 := hwf.output_gate _ _ (hin.outputs (c.outputLen - 1) (by omega))
      omega
    obtain ⟨w3, c3, e1, e2, e3, e4, e5⟩ := hb.mirror (.inr ⟨hk, by omega, by omega⟩) hc2
    have hw3 : Reachable w3 := (plays_read _ _).reachable h2 e1
    have hwf3 := (WFw.of_reachable hw3).circ r2 c3 e2
    rw [hk, Nat.add_zero] at e3
    refine ⟨_, w3, c3, e1, e2, same_of_gates hwf hwf3 (tracks h.reachable hc) (tracks hw3 e2) ?_ ?_ ?_ ?_⟩
    · funext g
      by_cases hg : g < c.gateIndex
      · obtain ⟨gate, hgate⟩ := hwf.some_of_lt hg
        have hwog : ∀ g, g < c.gateIndex → res.wog g = some g := fun g hg =>
          (v3.wire g g).mpr (List.getElem?_range hg)
        have h1 := hmir.gateOf e3 (hwog g hg) hgate
        rw [h1, hgate]
        have h2 : ∀ x ∈ gate.operands, (res.wog x).getD 0 = x := by
          intro x hx
          have := ht g gate hgate x hx
          have := lead_le g gate
          rw [hwog x (by omega)]; rfl
        rcases hflat g gate hgate with ⟨k, rfl⟩ | ⟨op, ho⟩
        · rfl
        · cases ho with
          | not x => simp [rename, h2 x (by simp [Gate.operands])]
          | xor x y | and x y | or x y => simp [rename, h2 x (by simp [Gate.operands]), h2 y (by simp [Gate.operands])]
      · rw [hwf.none_of_ge (by omega), hwf3.none_of_ge (by rw [e3.gateIndex]; omega)]
    · funext k
      rw [houts, e5]
      split
      · congr 1; omega
      · rfl
    · rw [e3.numWire]; omega
    · rw [e3.numGate]; omega

/-- C70: whatever the order of its gates was, after one round it is settled. For a circuit as in C57, what is read back is written to a text
that reads back to an equal circuit. -/
theorem C70_again {w : World} (h : ValidRun w) {r : Ref} {c : Circuit} (hc : w.circs[r]? = some c) (hm : NoModules c)
    (ht : TidyOutputs c) (hk : c.numConst = 0) (hl : Inlined w r c.numGate []) {numFirst : Nat} (hn : numFirst ≤ c.inputLen)
    (hs : c.numWire < 2 ^ 64) : ∃ res ls, Wrote w r c numFirst res ls ∧ ∀ w2, Reachable w2 → ∀ r2 s2,
      w2.circs[r2]? = some (Circuit.new s2) → ∃ gow w3 c3, read r2 Map.empty res.st.out w2 = (.ok gow, w3) ∧
        w3.circs[r2]? = some c3 ∧ ∃ res3, Wrote w3 r2 c3 numFirst res3 ls ∧ ∀ w4, Reachable w4 → ∀ r4 s4,
          w4.circs[r4]? = some (Circuit.new s4) → ∃ gow' w5 c5, read r4 Map.empty res3.st.out w4 = (.ok gow', w5) ∧
            w5.circs[r4]? = some c5 ∧ c3.Same c5 := by
  have hbal := h.balance hc
  have holen : c.outputLen ≤ c.numGate := by
    obtain ⟨res, ls, _, h2, h3⟩ := wrote_file h.wf (h.allBuilt r c hc) hc (numFirst := 0) (by omega)
    have e := (h2.inlined.bounds h c hc)
    have := (h3 (.gates hc ht) e.2).1
    omega
  obtain ⟨res, ls, hb⟩ := readback h hc (numFirst := numFirst) (by omega) (by omega) (by omega)
  have hlen : ls.length = c.numGate := (hb.file.inlined.det hl).1
  have h0 : c.outputLen = 0 ∨ (c.numConst = 0 ∧ ls.length = c.numGate ∧ c.outputLen ≤ c.inputLen + c.numGate) :=
    .inr ⟨hk, hlen, by omega⟩
  refine ⟨res, ls, hb.wrote, fun w2 h2 r2 s2 hc2 => ?_⟩
  obtain ⟨gow, w3, c3, θ, e1, e2, e3, _⟩ := C57_same_circuit h hc hm ht hk hl hn hs hb.wrote hc2
  obtain ⟨res3, h1, h3, _⟩ := C57_numbering h hc hm e2 e3 hb.wrote
  obtain ⟨w3', c3', a1, a2, a3, a4, a5⟩ := hb.mirror h0 hc2
  rw [e1] at a1; cases a1
  rw [e2] at a2; cases a2
  refine ⟨_, w3, c3, e1, e2, res3, h1, fun w4 h4 r4 s4 hc4 => ?_⟩
  rw [h3]
  obtain ⟨w5, c5, b1, b2, b3, b4, b5⟩ := hb.mirror h0 hc4
  refine ⟨_, w5, c5, b1, b2, ?_⟩
  have hw3 : Reachable w3 := (plays_read _ _).reachable h2 e1
  have hw5 : Reachable w5 := (plays_read _ _).reachable h4 b1
  refine (C54_iff hw3 hw5 e2 b2).mpr ⟨?_, ?_, ?_, ?_⟩
  · funext g; rw [a3.gate, b3.gate]
  · funext k; rw [a5, b5]
  · rw [a3.numWire, b3.numWire]
  · rw [a3.numGate, b3.numGate]

/-! ### checking the order -/

/-- computes the list of `Visit` -/
def visit (c : Circuit) : Nat → List GateId → List GateId → Option (List GateId)
  | 0, _, _ => none
  | _ + 1, d, [] => some d
  | n + 1, d, g :: gs =>
    if g ∈ d then visit c n d gs
    else
      match c.gateMap g with
      | none => none
      | some gate =>
        match visit c n d gate.operands with
        | none => none
        | some mid => visit c n (mid ++ [g]) gs

theorem visit_sound {c : Circuit} : ∀ {n : Nat} {d t d' : List GateId}, visit c n d t = some d' → Visit c d t d'
  | 0, _, _, _, h => by cases h
  | _ + 1, d, [], _, h => by cases h; exact .nil d
  | n + 1, d, g :: gs, d', h => by
    unfold visit at h
    split at h
    · next hg => exact .seen hg (visit_sound h)
    · next hg =>
      split at h
      · cases h
      · next gate hgate =>
        split at h
        · cases h
        · next mid hmid => exact .new hg hgate (visit_sound hmid) (visit_sound h)

/-- the list of all gates that the outputs give -/
def listing (c : Circuit) : Option (List GateId) :=
  match visit c 100 (List.range c.inputLen) ((List.range' (c.gateIndex - c.outputLen) c.outputLen).flatMap (operandsOf c)) with
  | none => none
  | some mid => visit c 100 mid (List.range' (c.gateIndex - c.outputLen) c.outputLen)

def plainB (c : Circuit) : Bool := (List.range c.gateIndex).all fun g =>
  match c.gateMap g with
  | some (.const _) => false
  | some (.module _ _ _ _ _) => false
  | _ => true

theorem inOrder_of_check {c : Circuit} (hwf : WFc c) (h : (plainB c && decide (c.numConst = 0) && decide (c.numWire = c.gateIndex) &&
    (List.range c.inputLen).all (fun k => c.inputMap k == some k) &&
    (List.range c.outputLen).all (fun k => c.outputMap k == some (c.gateIndex - c.outputLen + k)) &&
    listing c == some (List.range c.gateIndex)) = true) : InOrder c := by
  simp only [Bool.and_eq_true, decide_eq_true_eq, List.all_eq_true, List.mem_range, beq_iff_eq] at h
  obtain ⟨⟨⟨⟨⟨h1, h2⟩, h3⟩, h4⟩, h5⟩, h6⟩ := h
  refine ⟨fun g gate hg => ?_, h2, h3, h4, h5, ?_⟩
  · have := List.all_eq_true.mp h1 g (List.mem_range.mpr (hwf.lt_of_some hg))
    rw [hg] at this
    cases gate with
    | const v => cases this
    | module => cases this
    | input k => exact .inl ⟨k, rfl⟩
    | not x => exact .inr ⟨x, 0, .inl hg⟩
    | xor x y => exact .inr ⟨x, y, .inr (.inl hg)⟩
    | and x y => exact .inr ⟨x, y, .inr (.inr (.inl hg))⟩
    | or x y => exact .inr ⟨x, y, .inr (.inr (.inr hg))⟩
  · unfold listing at h6
    split at h6
    · cases h6
    · next mid hmid => exact ⟨mid, visit_sound hmid, visit_sound h6⟩

theorem not_inOrder_of_listing {c : Circuit} {L : List GateId} (h : listing c = some L) (hne : L ≠ List.range c.gateIndex) :
    ¬ InOrder c := by
  intro hin
  obtain ⟨mid, o1, o2⟩ := hin.order
  unfold listing at h
  split at h
  · cases h
  · next mid' hmid =>
    have := (visit_sound hmid).det o1
    subst this
    exact hne ((visit_sound h).det o2)

/-! ### the tests -/

/-- `not_test`, `xor_test`, `and_test`, `or_test` — src/bristol_converter.rs:561-641: the circuits -/
def testCircuits : List (List Op) :=
  [[.newStorage, .newCircuit 0, .input 0, .not 0 0, .output 0 1],
   [.newStorage, .newCircuit 0, .input 0, .input 0, .xor 0 0 1, .output 0 2],
   [.newStorage, .newCircuit 0, .input 0, .input 0, .and 0 0 1, .output 0 2],
   [.newStorage, .newCircuit 0, .input 0, .input 0, .or 0 0 1, .output 0 2]]

/-- the circuit is written with `num_first` 0, and what is read from the text into an empty circuit, on any heap, is equal to it -/
def Survives (w : World) (r : Ref) : Prop := ∃ c, w.circs[r]? = some c ∧ ∃ res ls, Wrote w r c 0 res ls ∧
    ∀ w2, Reachable w2 → ∀ r2 s2, w2.circs[r2]? = some (Circuit.new s2) →
      ∃ gow w3 c3, read r2 Map.empty res.st.out w2 = (.ok gow, w3) ∧ w3.circs[r2]? = some c3 ∧ c.Same c3

theorem survives_of {ops : List Op} {c : Circuit} (hv : validRunB World.empty ops = true) (hc : (run ops).circs[0]? = some c)
    (h1 : c.numWire + c.numConst < 2 ^ 64) (h2 : c.outputLen < 2 ^ 64) (hin : WFc c → InOrder c) : Survives (run ops) 0 := by
  have h : ValidRun (run ops) := validRun_of_check ops .nil hv
  obtain ⟨res, ls, hw, hiff⟩ := C70_exact h hc (numFirst := 0) (by omega) h1 h2
  exact ⟨c, hc, res, ls, hw, fun w2 k2 r2 s2 hc2 => (hiff w2 k2 r2 s2 hc2).mpr (hin (h.wf.circ 0 c hc))⟩

/-- C70: the assertions `assert_eq!(c_ref, read_circuit)` of these tests hold. -/
theorem C70_tests : ∀ ops ∈ testCircuits, Survives (run ops) 0 := by
  intro ops hops
  simp only [testCircuits, List.mem_cons, List.not_mem_nil, or_false] at hops
  rcases hops with rfl | rfl | rfl | rfl <;>
    exact survives_of (by decide) rfl (by decide) (by decide) fun hwf => inOrder_of_check hwf (by decide)

/-- the full adder of C57 with its gates in order -/
def orderedAdder : List Op :=
  [.newStorage, .newCircuit 0, .input 0, .input 0, .input 0, .xor 0 0 1, .and 0 2 3, .and 0 0 1, .xor 0 3 2, .or 0 4 5,
   .output 0 6, .output 0 7]

/-- C70: a full adder survives -/
example : Survives (run orderedAdder) 0 :=
  survives_of (by decide) rfl (by decide) (by decide) fun hwf => inOrder_of_check hwf (by decide)

/-- C70 does not hold of all circuits that can be read back: the full adder of C57 can be written and read, and what is read computes the
same, but it is not equal to the original. -/
theorem C70_false : ¬ Survives (run fullAdder) 0 ∧ ∃ c, (run fullAdder).circs[0]? = some c ∧ ∃ res ls, Wrote (run fullAdder) 0 c 0 res ls ∧
    ∀ w2, Reachable w2 → ∀ r2 s2, w2.circs[r2]? = some (Circuit.new s2) →
      ∃ gow w3 c3, read r2 Map.empty res.st.out w2 = (.ok gow, w3) ∧ w3.circs[r2]? = some c3 ∧ ¬ c.Same c3 ∧
        ∀ ins outs, ins.length = 3 → (Outputs (run fullAdder) 0 ins outs ↔ Outputs w3 r2 ins outs) := by
  have hno : ¬ InOrder (run fullAdder).circs[0] := not_inOrder_of_listing (L := [0, 1, 2, 4, 5, 3, 6, 7]) (by decide) (by decide)
  obtain ⟨res, ls, hw, hiff⟩ := C70_exact fullAdder_valid (r := 0) (c := (run fullAdder).circs[0]) rfl (numFirst := 0) (by decide) (by decide) (by decide)
  refine ⟨?_, ?_⟩
  · rintro ⟨c, hc, res', ls', hw', hall⟩
    cases (show some (run fullAdder).circs[0] = some c from hc)
    obtain ⟨rfl, rfl⟩ := hw.det hw'
    exact hno ((hiff _ (run_reachable [.newStorage, .newCircuit 0]) 0 0 rfl).mp
      (hall _ (run_reachable [.newStorage, .newCircuit 0]) 0 0 rfl))
  · have hi : Inlined (run fullAdder) 0 5 [] := by
      obtain ⟨res, hw, hcs, _⟩ := fullAdder_wrote
      have hi := inlined_of_wrote fullAdder_valid rfl (by decide) hw
      rw [hcs] at hi
      exact hi
    have hwf := fullAdder_valid.wf.circ 0 _ rfl
    obtain ⟨res', ls', hw', hall⟩ := C22_roundtrip_partial fullAdder_valid (r := 0) (c := (run fullAdder).circs[0]) rfl
      (.gates rfl (tidy_of_check hwf (by decide))) rfl hi (numFirst := 0) (by decide) (by decide)
    obtain ⟨rfl, rfl⟩ := hw.det hw'
    refine ⟨_, rfl, res, ls, hw, fun w2 k2 r2 s2 hc2 => ?_⟩
    obtain ⟨gow, w3, c3, e1, e2, _, _, e5, _⟩ := hall w2 k2 r2 s2 hc2
    exact ⟨gow, w3, c3, e1, e2, fun hsame => hno ((hiff w2 k2 r2 s2 hc2).mp ⟨gow, w3, c3, e1, e2, hsame⟩), e5⟩

/-- C70_again: but what is read survives -/
example : ∃ res ls, Wrote (run fullAdder) 0 (run fullAdder).circs[0] 0 res ls ∧
    ∃ gow w3 c3, read 0 Map.empty res.st.out (run [.newStorage, .newCircuit 0]) = (.ok gow, w3) ∧ w3.circs[0]? = some c3 ∧
      ∃ res3, Wrote w3 0 c3 0 res3 ls ∧ ∃ gow' w5 c5, read 0 Map.empty res3.st.out (run [.newStorage, .newCircuit 0]) = (.ok gow', w5) ∧
        w5.circs[0]? = some c5 ∧ c3.Same c5 := by
  obtain ⟨res, ls, h1, h2⟩ := C70_again fullAdder_valid (r := 0) rfl fullAdder_plain
    (tidy_of_check (fullAdder_valid.wf.circ 0 _ rfl) (by decide)) rfl fullAdder_inlined (numFirst := 0) (by decide) (by decide)
  obtain ⟨gow, w3, c3, h3, h4, res3, h5, h6⟩ := h2 _ (run_reachable [.newStorage, .newCircuit 0]) 0 0 rfl
  exact ⟨res, ls, h1, gow, w3, c3, h3, h4, res3, h5, h6 _ (run_reachable [.newStorage, .newCircuit 0]) 0 0 rfl⟩

/-- `module_1_test` — src/bristol_converter.rs:644-673: the circuits -/
def moduleTest : List Op :=
  [.newStorage, .newCircuit 0, .input 0, .input 0, .newStorage, .newCircuit 1, .input 1, .input 1, .xor 1 0 1, .not 1 2,
   .output 1 3, .registerModule 0 1, .module 0 0 [0, 1], .output 0 2]

/-- C70: `assert!(read_result.is_ok())` of `module_1_test` holds; but the two circuits would not compare equal. -/
theorem C70_module_test : ∃ c, (run moduleTest).circs[0]? = some c ∧ ∃ res ls, Wrote (run moduleTest) 0 c 0 res ls ∧
    ∀ w2, Reachable w2 → ∀ r2 s2, w2.circs[r2]? = some (Circuit.new s2) →
      ∃ gow w3 c3, read r2 Map.empty res.st.out w2 = (.ok gow, w3) ∧ w3.circs[r2]? = some c3 ∧ ¬ c.Same c3 := by
  have hv : ValidRun (run moduleTest) := validRun_of_check moduleTest .nil (by decide)
  obtain ⟨res, hw, hcs, _⟩ := wrote_of_run (w := run moduleTest) (fuel := 9) (r := 0) (c := (run moduleTest).circs[0])
    (numFirst := 0) (n := 0) (cs := []) (xs := []) (ls := [⟨.xor, [0, 1], 2⟩, ⟨.inv, [2], 3⟩]) (by rfl)
  have hi := inlined_of_wrote hv rfl (by decide) hw
  rw [hcs] at hi
  obtain ⟨res', ls', hw', hall⟩ := C22_reads_iff hv (r := 0) (c := (run moduleTest).circs[0]) rfl (numFirst := 0) (by decide)
    (by decide) (by decide)
  obtain ⟨rfl, rfl⟩ := hw.det hw'
  obtain ⟨res', ls', hw', hiff⟩ := C70_exact hv (r := 0) (c := (run moduleTest).circs[0]) rfl (numFirst := 0) (by decide)
    (by decide) (by decide)
  obtain ⟨rfl, rfl⟩ := hw.det hw'
  refine ⟨_, rfl, res, _, hw, fun w2 k2 r2 s2 hc2 => ?_⟩
  obtain ⟨gow, w3, hread⟩ := (hall w2 k2 r2 _ hc2).1 (.inr ⟨by decide, rfl, hi⟩)
  obtain ⟨c3, hc3⟩ : ∃ c3, w3.circs[r2]? = some c3 := by
    have := (plays_read (r := r2) Map.empty res.st.out) w2
    rw [hread] at this
    obtain ⟨c3, hc3, _⟩ := (ext_of_later (WFw.of_reachable k2) this).2.circs r2 _ hc2
    exact ⟨c3, hc3⟩
  refine ⟨gow, w3, c3, hread, hc3, fun hsame => ?_⟩
  have hin := (hiff w2 k2 r2 s2 hc2).mp ⟨gow, w3, c3, hread, hc3, hsame⟩
  rcases hin.plain 2 (.module 2 1 [0, 1] 0 0) rfl with ⟨k, hk⟩ | ⟨x, y, hk | hk | hk | hk⟩ <;> cases hk

end CC.Props
