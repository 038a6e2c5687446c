import Verif.Proofs.Lossy
import Verif.Proofs.Select

/-!
# Programs of bitwise operations, selections and gates: nothing in their circuits is in vain
-/

namespace CC.Neat
open Spec Logic Arith Mixed Thrift
open Unused (News)
open Waste (Solid Lossy)

/-- nothing in a circuit with one gate per output is in vain -/
theorem full_rows {w : World} {r : Ref} {c : Circuit} {a k : Nat} (h : Rows c a k) (hwf : WFc c) (hc : w.circs[r]? = some c) : Full w r := by
  have hcase : ∀ g gate, c.gateMap g = some gate → (∃ i, gate = .input i) ∨ (∃ i, i < k ∧ g = a + i) := by
    intro g gate hg
    have hlt := hwf.lt_of_some hg
    rw [h.idx] at hlt
    by_cases hga : g < a
    · obtain ⟨i, hi⟩ := h.low g hga
      rw [hg] at hi
      exact .inl ⟨i, Option.some.inj hi⟩
    · exact .inr ⟨g - a, by omega, by omega⟩
  have hmod : ∀ g nIn nOut ids oi mid, c.gateMap g ≠ some (.module nIn nOut ids oi mid) := by
    intro g nIn nOut ids oi mid hg
    rcases hcase g _ hg with ⟨i, e⟩ | ⟨i, hi, rfl⟩
    · cases e
    · obtain ⟨⟨p, q, hl⟩, _⟩ := h.row i hi
      rw [hg] at hl
      simp at hl
  refine .mk hc h.numConst ?_ ?_ ?_ (fun g nIn nOut ids oi mid hg => (hmod _ _ _ _ _ _ hg).elim) ?_
  · intro g v hg
    rcases hcase g _ hg with ⟨i, e⟩ | ⟨i, hi, rfl⟩
    · cases e
    · obtain ⟨⟨p, q, hl⟩, _⟩ := h.row i hi
      rw [hg] at hl
      simp at hl
  · rw [h.idx, sumTo_split, sumTo_zero (n := a), sumTo_congr (g := fun _ => 1), h.numGate]
    · rw [Nat.zero_add]
      clear h hc hcase hmod
      induction k with
      | zero => rfl
      | succ k ih => simp [sumTo, ih]
    · intro i hi
      exact weight_logic (h.row i hi).1
    · intro g hg
      obtain ⟨i, hi⟩ := h.low g hg
      rw [weight_plain hi (by simp)]; rfl
  · intro g gate hg hi
    rcases hcase g _ hg with ⟨i, e⟩ | ⟨i, hik, rfl⟩
    · exact (hi i e).elim
    · exact ⟨i, a + i, h.out i hik, .refl⟩
  · rintro q ⟨g, nIn, nOut, ids, oi, mid, hg, _⟩
    exact (hmod _ _ _ _ _ _ hg).elim

/-- every new gate that is not an input, and every operand, is reached from a result, and new gates use only operands and new gates -/
structure Used (w : World) (c : Circuit) (ops gs : List GateId) (c' : Circuit) : Prop where
  trim : Trim w c'
  gates : ∀ g gate, c.gateIndex ≤ g → c'.gateMap g = some gate → (∀ i, gate ≠ .input i) → ∃ q ∈ gs, Reach c' q g
  operands : ∀ x ∈ ops, ∃ q ∈ gs, Reach c' q x
  old : ∀ g, g < c.gateIndex → c'.gateMap g = c.gateMap g
  within : ∀ g gate, c.gateIndex ≤ g → c'.gateMap g = some gate → ∀ x ∈ gate.operands, x ∈ ops ∨ c.gateIndex ≤ x
  siblings : ∀ g nIn nOut ids oi mid, c.gateIndex ≤ g → c'.gateMap g = some (.module nIn nOut ids oi mid) → c.gateIndex ≤ g - oi
  res : ∀ q ∈ gs, q ∈ ops ∨ c.gateIndex ≤ q

theorem Used.live {w : World} {c c' : Circuit} {ops gs : List GateId} (hwf : WFc c') (h : Live w c ops gs c') (hn : News c ops gs c') {q : GateId} (hq : q ∈ gs) :
    Used w c ops gs c' :=
  ⟨h.trim, fun g _ h1 h2 _ => ⟨q, hq, h.gates q hq g h1 (hwf.lt_of_some h2)⟩, fun x hx => ⟨q, hq, h.operands q hq x hx⟩,
    hn.old, hn.operands, hn.siblings, fun q hq => .inr (hn.res q hq)⟩

/-- the gates of a value can be written last: they are different logic gates, or all results of one call -/
def Ends (w : World) (n : Nat) (c : Circuit) (gs : List GateId) : Prop :=
  (gs ≠ [] ∧ gs.Nodup ∧ ∀ q ∈ gs, IsLogic c q) ∨ ∃ g nIn ids mid mr m, gs = List.range' g n ∧ c.gateMap g = some (.module nIn n ids 0 mid) ∧
    w.module? c mid = some mr ∧ w.circs[mr]? = some m ∧ TidyOutputs m ∧ ∃ d, IsLogic m d

theorem Ends.one {w : World} {n : Nat} {c : Circuit} {q : GateId} (h : IsLogic c q) : Ends w n c [q] :=
  .inl ⟨by simp, by simp, by simpa using h⟩

theorem Ends.ext {w : World} {n : Nat} {c c' : Circuit} {gs : List GateId} (h : Ends w n c gs) (he : ExtC c c') : Ends w n c' gs := by
  rcases h with ⟨h0, h1, h2⟩ | ⟨g, nIn, ids, mid, mr, m, h1, h2, h3, h4⟩
  · refine .inl ⟨h0, h1, fun q hq => ?_⟩
    obtain ⟨a, b, h | h | h | h⟩ := h2 q hq
    · exact ⟨a, b, .inl (he.gates _ _ h)⟩
    · exact ⟨a, b, .inr (.inl (he.gates _ _ h))⟩
    · exact ⟨a, b, .inr (.inr (.inl (he.gates _ _ h)))⟩
    · exact ⟨a, b, .inr (.inr (.inr (he.gates _ _ h)))⟩
  · exact .inr ⟨g, nIn, ids, mid, mr, m, h1, he.gates _ _ h2, by rw [← h3]; exact World.module?_congr rfl he.storage mid, h4⟩

/-! ### selection -/

section
variable {w : World} {s : Ref} {c : Circuit}

theorem runs_and (hlt : s < w.circs.length) (hwf : WFc c) (x y : GateId) :
    RunsC w s (CC.and s x y) c fun g c' => g = c.gateIndex ∧ WFc c' ∧ AddsGate c c' (.and x y) :=
  ⟨_, _, by rw [and_eq (get_of_lt hlt c), setC_setC], rfl, hwf.and x y, adds_and hwf x y⟩

theorem runs_xor (hlt : s < w.circs.length) (hwf : WFc c) (x y : GateId) :
    RunsC w s (CC.xor s x y) c fun g c' => g = c.gateIndex ∧ WFc c' ∧ AddsGate c c' (.xor x y) :=
  ⟨_, _, by rw [xor_eq (get_of_lt hlt c), setC_setC], rfl, hwf.xor x y, adds_xor hwf x y⟩

theorem runs_not (hlt : s < w.circs.length) (hwf : WFc c) (x : GateId) :
    RunsC w s (CC.not s x) c fun g c' => g = c.gateIndex ∧ WFc c' ∧ AddsGate c c' (.not x) :=
  ⟨_, _, by rw [not_eq (get_of_lt hlt c), setC_setC], rfl, hwf.not x, adds_not hwf x⟩

/-- the circuit after some of the bits have been selected -/
structure Chosen (w : World) (c0 : Circuit) (xs ys : List GateId) (inv sel : GateId) (acc : List GateId) (c : Circuit) : Prop where
  wf : WFc c
  trim : Trim w c
  new : ∀ g, c0.gateIndex ≤ g → g < c.gateIndex → ∃ q ∈ acc, Reach c q g
  le : c0.gateIndex ≤ c.gateIndex
  bits : ∀ (i : Nat) x, i < acc.length → (xs[i]? = some x ∨ ys[i]? = some x) → ∃ q ∈ acc, Reach c q x
  both : acc ≠ [] → ∀ x, x = inv ∨ x = sel → ∃ q ∈ acc, Reach c q x
  ext : ∀ g gate, c0.gateMap g = some gate → c.gateMap g = some gate
  logic : ∀ q ∈ acc, IsLogic c q
  lt : ∀ q ∈ acc, q < c.gateIndex
  nodup : acc.Nodup
  old : ∀ g, g < c0.gateIndex → c.gateMap g = c0.gateMap g
  within : ∀ g gate, c0.gateIndex ≤ g → c.gateMap g = some gate → ∀ x ∈ gate.operands, x = inv ∨ x = sel ∨ x ∈ xs ∨ x ∈ ys ∨ c0.gateIndex ≤ x
  calls : ∀ g nIn nOut ids oi mid, c0.gateIndex ≤ g → c.gateMap g ≠ some (.module nIn nOut ids oi mid)
  res : ∀ q ∈ acc, c0.gateIndex ≤ q

theorem Chosen.step {c0 c1 c2 c3 : Circuit} {xs ys acc : List GateId} {inv sel x y : GateId} (h : Chosen w c0 xs ys inv sel acc c)
    (hx : xs[acc.length]? = some x) (hy : ys[acc.length]? = some y) (a1 : AddsGate c c1 (.and x inv)) (a2 : AddsGate c1 c2 (.and y sel))
    (a3 : AddsGate c2 c3 (.xor c.gateIndex c1.gateIndex)) (hw : WFc c3) : Chosen w c0 xs ys inv sel (acc ++ [c2.gateIndex]) c3 := by
  have i1 := a1.appends.idx
  have i2 := a2.appends.idx
  have i3 := a3.appends.idx
  simp only [List.length_singleton] at i1 i2 i3
  have hle := h.le
  have e1 : ∀ g gate, c.gateMap g = some gate → c3.gateMap g = some gate := by
    intro g gate hg
    have := h.wf.lt_of_some hg
    rw [a3.get, if_pos (by omega), a2.get, if_pos (by omega), a1.get, if_pos (by omega)]
    exact hg
  have g1 : c3.gateMap c.gateIndex = some (.and x inv) := by
    rw [a3.get, if_pos (by omega), a2.get, if_pos (by omega), a1.get, if_neg (by omega), if_pos rfl]
  have g2 : c3.gateMap c1.gateIndex = some (.and y sel) := by
    rw [a3.get, if_pos (by omega), a2.get, if_neg (by omega), if_pos rfl]
  have g3 : c3.gateMap c2.gateIndex = some (.xor c.gateIndex c1.gateIndex) := by
    rw [a3.get, if_neg (by omega), if_pos rfl]
  have r0 : ∀ {g}, (∃ q ∈ acc, Reach c q g) → ∃ q ∈ acc ++ [c2.gateIndex], Reach c3 q g := by
    rintro g ⟨q, k1, k2⟩
    exact ⟨q, by simp [k1], reach_ext e1 k2⟩
  have hm : c2.gateIndex ∈ acc ++ [c2.gateIndex] := by simp
  have r1 : Reach c3 c2.gateIndex c.gateIndex := .operand .refl g3 (by simp [Gate.operands])
  have r2 : Reach c3 c2.gateIndex c1.gateIndex := .operand .refl g3 (by simp [Gate.operands])
  refine ⟨hw, ((h.trim.adds a1 (by simp)).adds a2 (by simp)).adds a3 (by simp), ?_, by omega, ?_, ?_, ?_, ?_, ?_, ?_, ?_, ?_, ?_, ?_⟩
  · intro g k1 k2
    by_cases hg : g < c.gateIndex
    · exact r0 (h.new g k1 hg)
    · refine ⟨_, hm, ?_⟩
      rcases (by omega : g = c.gateIndex ∨ g = c1.gateIndex ∨ g = c2.gateIndex) with rfl | rfl | rfl
      · exact r1
      · exact r2
      · exact .refl
  · intro i z hi hz
    by_cases hi' : i < acc.length
    · exact r0 (h.bits i z hi' hz)
    · obtain rfl : i = acc.length := by simp at hi; omega
      refine ⟨_, hm, ?_⟩
      rcases hz with hz | hz
      · rw [hx] at hz; cases hz
        exact .operand r1 g1 (by simp [Gate.operands])
      · rw [hy] at hz; cases hz
        exact .operand r2 g2 (by simp [Gate.operands])
  · rintro - z (rfl | rfl)
    · exact ⟨_, hm, .operand r1 g1 (by simp [Gate.operands])⟩
    · exact ⟨_, hm, .operand r2 g2 (by simp [Gate.operands])⟩
  · exact fun g gate hg => e1 _ _ (h.ext g gate hg)
  · intro q hq
    rcases List.mem_append.mp hq with hq | hq
    · obtain ⟨p, p', hl⟩ := h.logic q hq
      exact ⟨p, p', hl.imp (e1 _ _) (Or.imp (e1 _ _) (Or.imp (e1 _ _) (e1 _ _)))⟩
    · simp at hq; subst hq
      exact ⟨_, _, .inr (.inl g3)⟩
  · intro q hq
    rcases List.mem_append.mp hq with hq | hq
    · have := h.lt q hq; omega
    · simp at hq; omega
  · rw [List.nodup_append]
    refine ⟨h.nodup, by simp, ?_⟩
    intro q hq z hz
    simp at hz
    have := h.lt q hq
    omega
  · intro g hg
    rw [a3.get, if_pos (by omega), a2.get, if_pos (by omega), a1.get, if_pos (by omega)]
    exact h.old g hg
  · intro g gate k1 k2 z hz
    by_cases hg : g < c.gateIndex
    · rw [a3.get, if_pos (by omega), a2.get, if_pos (by omega), a1.get, if_pos (by omega)] at k2
      exact h.within g gate k1 k2 z hz
    · have := hw.lt_of_some k2
      rcases (by omega : g = c.gateIndex ∨ g = c1.gateIndex ∨ g = c2.gateIndex) with rfl | rfl | rfl
      · rw [g1] at k2; cases k2
        simp [Gate.operands] at hz
        rcases hz with rfl | rfl
        · exact .inr (.inr (.inl (List.mem_of_getElem? hx)))
        · exact .inl rfl
      · rw [g2] at k2; cases k2
        simp [Gate.operands] at hz
        rcases hz with rfl | rfl
        · exact .inr (.inr (.inr (.inl (List.mem_of_getElem? hy))))
        · exact .inr (.inl rfl)
      · rw [g3] at k2; cases k2
        simp [Gate.operands] at hz
        exact .inr (.inr (.inr (.inr (by omega))))
  · intro g nIn nOut ids oi mid k1 k2
    by_cases hg : g < c.gateIndex
    · rw [a3.get, if_pos (by omega), a2.get, if_pos (by omega), a1.get, if_pos (by omega)] at k2
      exact h.calls g _ _ _ _ _ k1 k2
    · have := hw.lt_of_some k2
      rcases (by omega : g = c.gateIndex ∨ g = c1.gateIndex ∨ g = c2.gateIndex) with rfl | rfl | rfl
      · rw [g1] at k2; cases k2
      · rw [g2] at k2; cases k2
      · rw [g3] at k2; cases k2
  · intro q hq
    rcases List.mem_append.mp hq with hq | hq
    · exact h.res q hq
    · simp at hq; omega

theorem mux_used (hlt : s < w.circs.length) (hwf : WFc c) (t : Trim w c) {n : Nat} (hn : 1 ≤ n) {x y : Bits} (hcr : x.config.cref = s)
    (hx : x.bits.length = n) (hy : y.bits.length = n) (sel : GateId) :
    RunsC w s (x.mux y n sel) c fun z c' => Used w c ([sel] ++ x.bits ++ y.bits) z.bits c' ∧ Ends w n c' z.bits := by
  unfold Bits.mux
  simp only []
  rw [hcr]
  refine RunsC.seq (runs_not hlt hwf sel) ?_
  rintro _ c1 ⟨rfl, hw1, a1⟩
  have hi1 := a1.appends.idx
  simp only [List.length_singleton] at hi1
  refine RunsC.seq (RunsC.mapRange (I := fun acc c' => Chosen w c1 x.bits y.bits c.gateIndex sel acc c') n
    ⟨hw1, t.adds a1 (by simp), fun g _ _ => by omega, Nat.le_refl _, by simp, by simp, fun _ _ h => h, by simp, by simp, by simp, fun _ _ => rfl,
      fun g _ k1 k2 => by have := hw1.lt_of_some k2; omega, fun g _ _ _ _ _ k1 k2 => by have := hw1.lt_of_some k2; omega, by simp⟩ ?_) ?_
  · rintro i acc c2 hi hacc h2
    have e1 := List.getElem?_eq_getElem (l := x.bits) (i := i) (by omega)
    have e2 := List.getElem?_eq_getElem (l := y.bits) (i := i) (by omega)
    refine RunsC.bind (RunsC.idx e1 (RunsC.seq (runs_and hlt h2.wf _ _) ?_))
    rintro _ c3 ⟨rfl, hw3, a3⟩
    refine RunsC.bind (RunsC.idx e2 (RunsC.seq (runs_and hlt hw3 _ _) ?_))
    rintro _ c4 ⟨rfl, hw4, a4⟩
    refine (runs_xor hlt hw4 _ _).mono ?_
    rintro _ c5 ⟨rfl, hw5, a5⟩
    subst hacc
    exact h2.step e1 e2 a3 a4 a5 hw5
  · rintro gs c2 ⟨h2, hl⟩
    have hne : gs ≠ [] := by intro e; rw [e] at hl; simp at hl; omega
    have g1 : c2.gateMap c.gateIndex = some (.not sel) := h2.ext _ _ (by rw [a1.get, if_neg (by omega), if_pos rfl])
    refine RunsC.pure ⟨⟨h2.trim, ?_, ?_, ?_, ?_, ?_, fun q hq => .inr (by have := h2.res q hq; omega)⟩, .inl ⟨hne, h2.nodup, h2.logic⟩⟩
    · intro g gate k1 k2 _
      by_cases hg : c1.gateIndex ≤ g
      · exact h2.new g hg (h2.wf.lt_of_some k2)
      · exact h2.both hne g (.inl (by omega))
    · intro z hz
      rcases List.mem_append.mp hz with hz | hz
      · rcases List.mem_append.mp hz with hz | hz
        · exact h2.both hne z (.inr (by simpa using hz))
        · obtain ⟨i, hi⟩ := List.getElem?_of_mem hz
          exact h2.bits i z (by have := lt_of_getElem? hi; omega) (.inl hi)
      · obtain ⟨i, hi⟩ := List.getElem?_of_mem hz
        exact h2.bits i z (by have := lt_of_getElem? hi; omega) (.inr hi)
    · intro g hg
      rw [h2.old g (by omega), a1.get, if_pos hg]
    · intro g gate k1 k2 z hz
      by_cases hg : c1.gateIndex ≤ g
      · rcases h2.within g gate hg k2 z hz with rfl | rfl | h | h | h
        · exact .inr (Nat.le_refl _)
        · exact .inl (by simp)
        · exact .inl (by simp [h])
        · exact .inl (by simp [h])
        · exact .inr (by omega)
      · obtain rfl : g = c.gateIndex := by omega
        rw [g1] at k2; cases k2
        simp [Gate.operands] at hz
        exact .inl (by simp [hz])
    · intro g nIn nOut ids oi mid k1 k2
      by_cases hg : c1.gateIndex ≤ g
      · exact (h2.calls g _ _ _ _ _ hg k2).elim
      · obtain rfl : g = c.gateIndex := by omega
        rw [g1] at k2; cases k2

/-! ### calls -/

/-- the module has one gate per output, and can be called by `s` -/
def Row (w : World) (s : Ref) (st : StoreRef) (n : Nat) (mid : ModuleId) : Prop :=
  ∃ stor mr m, w.stores[st]? = some stor ∧ stor.moduleMap mid = some mr ∧ mr ≠ s ∧ w.circs[mr]? = some m ∧ m.outputLen = n ∧
    m.inputLen + m.outputLen ≤ m.numWire ∧ Full w mr ∧ TidyOutputs m ∧ ∃ d, IsLogic m d

theorem call_used {K : Ctx} (hb : Bld w s K c) (t : Trim w c) {n : Nat} (hn : 1 ≤ n) {mid : ModuleId} (hr : Row w s K.st n mid) (ids : List GateId) :
    RunsC w s (CC.module s mid ids) c fun gs c' => Used w c ids gs c' ∧ Ends w n c' gs := by
  obtain ⟨stor, mr, m, h1, h2, h3, h4, h5, h6, h7, h8⟩ := hr
  have hmod : w.module? c mid = some mr := by rw [hb.module?_eq, h1]; exact h2
  have hmc' : (w.setC s c).circs[mr]? = some m := by rw [setC_get_ne _ h3]; exact h4
  obtain ⟨outs, e1, e2⟩ := Circuit.module_ok hb.wfc mid ids h6
  have hl := Live.call t e2 hmod h4 h7 (by omega)
  refine ⟨outs, (c.module m mid ids).2, by rw [module_eq hb.get hmod h3 hmc', setC_setC, e1], ?_, .inr ?_⟩
  · refine Used.live (hb.wfc.module m mid ids) hl (.call e2) (q := c.gateIndex) ?_
    rw [e2.outs_eq, List.mem_range'_1]
    omega
  · refine ⟨c.gateIndex, m.inputLen, ids, mid, mr, m, by rw [e2.outs_eq, h5], ?_, ?_, h4, h8⟩
    · have := e2.appends.new 0
      rw [moduleGates_get, if_pos (by omega), h5] at this
      simpa using this
    · rw [← hmod]; exact World.module?_congr rfl e2.appends.storage mid

/-! ### one statement -/

/-- the modules of the bitwise operations -/
structure Rowed (w : World) (s : Ref) (st : StoreRef) (n : Nat) (bc : BitsConfig) : Prop where
  not : Row w s st n bc.notMid
  and : Row w s st n bc.andMid
  or : Row w s st n bc.orMid
  xor : Row w s st n bc.xorMid

/-- all new gates are inputs -/
def Only (c c' : Circuit) : Prop := ∀ g gate, c.gateIndex ≤ g → c'.gateMap g = some gate → ∃ i, gate = .input i

theorem inputs_used (hlt : s < w.circs.length) (hwf : WFc c) (t : Trim w c) (n : Nat) :
    RunsC w s (M.replicate (CC.input s) n) c fun gs c' => Used w c [] gs c' ∧ Only c c' := by
  refine (RunsC.replicate (I := fun acc c' => (∀ g, g < c.gateIndex → c'.gateMap g = c.gateMap g) ∧ (∀ q ∈ acc, c.gateIndex ≤ q) ∧ WFc c' ∧ Trim w c' ∧ c.gateIndex ≤ c'.gateIndex ∧
    ∀ g gate, c.gateIndex ≤ g → c'.gateMap g = some gate → ∃ i, gate = .input i) n []
    ⟨fun _ _ => rfl, by simp, hwf, t, Nat.le_refl _, fun g gate h1 h2 => by have := hwf.lt_of_some h2; omega⟩ ?_).mono ?_
  · rintro acc c1 _ ⟨o1, o2, h1, h2, h3, h4⟩
    have ha := adds_input h1
    refine ⟨_, _, by rw [input_eq (get_of_lt hlt c1), setC_setC], ?_, ?_, h1.input, h2.adds ha (by simp), ?_, ?_⟩
    · intro g hg
      rw [ha.get, if_pos (by omega)]
      exact o1 g hg
    · intro q hq
      rcases List.mem_append.mp hq with hq | hq
      · exact o2 q hq
      · simp at hq; omega
    · have := ha.appends.idx; simp at this; omega
    · intro g gate k1 k2
      rw [ha.get] at k2
      split at k2
      · exact h4 g gate k1 k2
      · split at k2
        · exact ⟨_, (Option.some.inj k2).symm⟩
        · cases k2
  · rintro gs c1 ⟨⟨o1, o2, h1, h2, h3, h4⟩, _⟩
    refine ⟨⟨h2, fun g gate k1 k2 k3 => ?_, by simp, o1, fun g gate k1 k2 x hx => ?_, fun g _ _ _ _ _ k1 k2 => ?_, fun q hq => .inr (o2 q hq)⟩, h4⟩
    · obtain ⟨i, e⟩ := h4 g gate k1 k2
      exact (k3 i e).elim
    · obtain ⟨i, rfl⟩ := h4 g gate k1 k2
      simp [Gate.operands] at hx
    · obtain ⟨i, e⟩ := h4 g _ k1 k2
      cases e

theorem Used.same (t : Trim w c) (hwf : WFc c) (gs : List GateId) : Used w c gs gs c :=
  ⟨t, fun g gate h1 h2 => by have := hwf.lt_of_some h2; omega, fun x hx => ⟨x, hx, .refl⟩, fun _ _ => rfl,
    fun g gate h1 h2 => by have := hwf.lt_of_some h2; omega, fun g _ _ _ _ _ h1 h2 => by have := hwf.lt_of_some h2; omega, fun q hq => .inl hq⟩

/-- the gates of the values a statement uses -/
def opsOf (env : List Handle) (st : Cmd) : List GateId := st.reads.flatMap fun i => (env[i]?.map Handle.gates).getD []

theorem cmd_used {K : Ctx} {ins : List Bool} {n : Nat} {ic : IntConfig} {bc : BitsConfig} {env : List Handle} {vals : List (Value n)} {st : Cmd}
    (hb : Bld w s K c) (t : Trim w c) (hn : 1 ≤ n) (hr : Rowed w s K.st n bc) (hic : ic.cref = s) (hbc : bc.cref = s)
    (henv : All2 (CC.Holds w s ins c ic bc) env vals) {k : Kind} (hk : st.kind (env.map Handle.kind) = some k) (hst : st.Computes ∨ st.Passes) :
    RunsC w s (st.build s ic bc n env) c fun h c' => Used w c (opsOf env st) h.gates c' ∧ (st.Computes → Ends w n c' h.gates) ∧ (st.Passes → Only c c') ∧
      ∀ i, st.reuses = some i → h.gates = (env[i]?.map Handle.gates).getD [] := by
  have hwf := hb.wfc
  have hg := hb.get
  have one : ∀ {ops : List GateId} {gate : Gate} {c' : Circuit}, WFc c' → AddsGate c c' gate → (∃ p q, gate = .not p ∨ gate = .xor p q ∨ gate = .and p q ∨ gate = .or p q) →
      (∀ x, x ∈ ops ↔ x ∈ gate.operands) → Used w c ops [c.gateIndex] c' ∧ Ends w n c' [c.gateIndex] := by
    intro ops gate c' hw' ha hl ho
    refine ⟨Used.live hw' (Live.one t ha ?_ fun x => (ho x).1) (.one ha fun x => (ho x).2) (List.mem_singleton.mpr rfl), .one ?_⟩
    · rintro v rfl
      simp at hl
    · have hgt := ha.appends.new 0
      simp at hgt
      obtain ⟨p, q, hl⟩ := hl
      exact ⟨p, q, by rw [hgt]; simpa using hl⟩
  have two : ∀ {ops : List GateId} {gate : Gate} {c1 c' : Circuit}, WFc c' → AddsGate c c1 gate → AddsGate c1 c' (.not c.gateIndex) → (∀ v, gate ≠ .const v) →
      (∀ x, x ∈ ops ↔ x ∈ gate.operands) → Used w c ops [c.gateIndex + 1] c' ∧ Ends w n c' [c.gateIndex + 1] := by
    intro ops gate c1 c' hw' ha ha' hl ho
    refine ⟨Used.live hw' (Live.two t ha hl ha' (by simp) (by simp [Gate.operands]) fun x => (ho x).1) (.two ha ha' (fun x => (ho x).2) (by simp [Gate.operands])) (List.mem_singleton.mpr rfl), .one ?_⟩
    have hgt := ha'.appends.new 0
    have hi := ha.appends.idx
    simp at hgt hi
    rw [hi] at hgt
    exact ⟨_, 0, .inl hgt⟩
  cases st <;> first | (exfalso; simp [Cmd.Computes, Cmd.Passes] at hst; done) | skip
  case newInt =>
    simp only [Cmd.build, AInt.new, hic]
    refine RunsC.bind (RunsC.seq (inputs_used hb.lt hwf t n) fun gs c' h => RunsC.pure (RunsC.pure ⟨h.1, ?_, fun _ => h.2, by simp [Cmd.reuses]⟩))
    simp [Cmd.Computes]
  case newBits =>
    simp only [Cmd.build, Bits.new, hbc]
    refine RunsC.bind (RunsC.seq (inputs_used hb.lt hwf t n) fun gs c' h => RunsC.pure (RunsC.pure ⟨h.1, ?_, fun _ => h.2, by simp [Cmd.reuses]⟩))
    simp [Cmd.Computes]
  case input =>
    obtain ⟨gs, c', e, h⟩ := inputs_used hb.lt hwf t 1
    simp only [Cmd.build]
    have e1 : CC.input s (w.setC s c) = _ := input_eq hg
    unfold M.replicate at e
    rw [bind_ok e1] at e
    refine ⟨.bit c.gateIndex, c', ?_, ?_, by simp [Cmd.Computes], fun _ => h.2, by simp [Cmd.reuses]⟩
    · rw [bind_ok e1]
      injection e with _ e
      rw [← e]; rfl
    · injection e with e _
      injection e with e
      rw [← e] at h
      exact h.1
  case toInt i =>
    simp only [Cmd.kind, Option.ite_none_right_eq_some, Option.some.injEq] at hk
    obtain ⟨k1, rfl⟩ := hk
    obtain ⟨x, a, e1, e2, e3⟩ := env_bits henv k1
    have hl := e3.len
    refine RunsC.getBs e1 ?_
    unfold AInt.fromGateIds
    rw [if_pos (by omega), hl, Nat.sub_self]
    refine RunsC.bind (RunsC.bind (RunsC.pure (RunsC.pure (RunsC.pure ?_))))
    rw [List.append_nil]
    refine ⟨?_, by simp [Cmd.Computes], fun _ g gate h1 h2 => by have := hwf.lt_of_some h2; omega, by simp [Cmd.reuses, e1, Handle.gates]⟩
    have : opsOf env (.toInt i) = x.bits := by simp [opsOf, Cmd.reads, e1, Handle.gates]
    rw [this]
    exact .same t hwf _
  case toBits i =>
    simp only [Cmd.kind, Option.ite_none_right_eq_some, Option.some.injEq] at hk
    obtain ⟨k1, rfl⟩ := hk
    obtain ⟨x, a, e1, e2, e3⟩ := env_int henv k1
    have hl := e3.len
    refine RunsC.getI e1 ?_
    unfold Bits.fromGateIds
    rw [if_pos (by omega), hl, Nat.sub_self]
    refine RunsC.bind (RunsC.bind (RunsC.pure (RunsC.pure (RunsC.pure ?_))))
    rw [List.append_nil]
    refine ⟨?_, by simp [Cmd.Computes], fun _ g gate h1 h2 => by have := hwf.lt_of_some h2; omega, by simp [Cmd.reuses, e1, Handle.gates]⟩
    have : opsOf env (.toBits i) = x.val := by simp [opsOf, Cmd.reads, e1, Handle.gates]
    rw [this]
    exact .same t hwf _
  case notBits i =>
    simp only [Cmd.kind, Option.ite_none_right_eq_some, Option.some.injEq] at hk
    obtain ⟨k1, rfl⟩ := hk
    obtain ⟨x, a, e1, e2, e3⟩ := env_bits henv k1
    have : opsOf env (.notBits i) = x.bits := by simp [opsOf, Cmd.reads, e1, Handle.gates]
    rw [this]
    refine RunsC.getBs e1 ?_
    unfold Bits.not
    rw [e3.config, hbc]
    exact RunsC.bind (RunsC.seq (RunsC.expect (call_used hb t hn hr.not _)) fun gs c' h => RunsC.pure (RunsC.pure ⟨h.1, fun _ => h.2, by simp [Cmd.Passes], by simp [Cmd.reuses]⟩))
  case andBits i j =>
    simp only [Cmd.kind, Option.ite_none_right_eq_some, Option.some.injEq] at hk
    obtain ⟨⟨k1, k2⟩, rfl⟩ := hk
    obtain ⟨x, a, e1, e2, e3⟩ := env_bits henv k1
    obtain ⟨y, b, f1, f2, f3⟩ := env_bits henv k2
    have : opsOf env (.andBits i j) = x.bits ++ y.bits := by simp [opsOf, Cmd.reads, e1, f1, Handle.gates]
    rw [this]
    refine RunsC.getBs e1 (RunsC.getBs f1 ?_)
    unfold Bits.and
    rw [e3.config, hbc]
    exact RunsC.bind (RunsC.seq (RunsC.expect (call_used hb t hn hr.and _)) fun gs c' h => RunsC.pure (RunsC.pure ⟨h.1, fun _ => h.2, by simp [Cmd.Passes], by simp [Cmd.reuses]⟩))
  case orBits i j =>
    simp only [Cmd.kind, Option.ite_none_right_eq_some, Option.some.injEq] at hk
    obtain ⟨⟨k1, k2⟩, rfl⟩ := hk
    obtain ⟨x, a, e1, e2, e3⟩ := env_bits henv k1
    obtain ⟨y, b, f1, f2, f3⟩ := env_bits henv k2
    have : opsOf env (.orBits i j) = x.bits ++ y.bits := by simp [opsOf, Cmd.reads, e1, f1, Handle.gates]
    rw [this]
    refine RunsC.getBs e1 (RunsC.getBs f1 ?_)
    unfold Bits.or
    rw [e3.config, hbc]
    exact RunsC.bind (RunsC.seq (RunsC.expect (call_used hb t hn hr.or _)) fun gs c' h => RunsC.pure (RunsC.pure ⟨h.1, fun _ => h.2, by simp [Cmd.Passes], by simp [Cmd.reuses]⟩))
  case xorBits i j =>
    simp only [Cmd.kind, Option.ite_none_right_eq_some, Option.some.injEq] at hk
    obtain ⟨⟨k1, k2⟩, rfl⟩ := hk
    obtain ⟨x, a, e1, e2, e3⟩ := env_bits henv k1
    obtain ⟨y, b, f1, f2, f3⟩ := env_bits henv k2
    have : opsOf env (.xorBits i j) = x.bits ++ y.bits := by simp [opsOf, Cmd.reads, e1, f1, Handle.gates]
    rw [this]
    refine RunsC.getBs e1 (RunsC.getBs f1 ?_)
    unfold Bits.xor
    rw [e3.config, hbc]
    exact RunsC.bind (RunsC.seq (RunsC.expect (call_used hb t hn hr.xor _)) fun gs c' h => RunsC.pure (RunsC.pure ⟨h.1, fun _ => h.2, by simp [Cmd.Passes], by simp [Cmd.reuses]⟩))
  case mux si i j =>
    simp only [Cmd.kind, Option.ite_none_right_eq_some, Option.some.injEq] at hk
    obtain ⟨⟨k0, k1, k2⟩, rfl⟩ := hk
    obtain ⟨z, b0, d1, d2, d3⟩ := env_bit henv k0
    obtain ⟨x, a, e1, e2, e3⟩ := env_bits henv k1
    obtain ⟨y, b, f1, f2, f3⟩ := env_bits henv k2
    have : opsOf env (.mux si i j) = [z] ++ x.bits ++ y.bits := by simp [opsOf, Cmd.reads, d1, e1, f1, Handle.gates]
    rw [this]
    refine RunsC.getB d1 (RunsC.getBs e1 (RunsC.getBs f1 ?_))
    exact RunsC.seq (mux_used hb.lt hwf t hn (by rw [e3.config, hbc]) e3.len f3.len z) fun gs c' h => RunsC.pure ⟨h.1, fun _ => h.2, by simp [Cmd.Passes], by simp [Cmd.reuses]⟩
  case not i =>
    simp only [Cmd.kind, Option.ite_none_right_eq_some, Option.some.injEq] at hk
    obtain ⟨k1, rfl⟩ := hk
    obtain ⟨x, a, e1, e2, e3⟩ := env_bit henv k1
    have : opsOf env (.not i) = [x] := by simp [opsOf, Cmd.reads, e1, Handle.gates]
    rw [this]
    have h := one (ops := [x]) (hwf.not x) (adds_not hwf x) ⟨_, 0, .inl rfl⟩ (by simp [Gate.operands])
    exact RunsC.getB e1 ⟨.bit c.gateIndex, _, by rw [bind_ok (not_eq hg x), setC_setC]; rfl, h.1, fun _ => h.2, by simp [Cmd.Passes], by simp [Cmd.reuses]⟩
  case and i j =>
    simp only [Cmd.kind, Option.ite_none_right_eq_some, Option.some.injEq] at hk
    obtain ⟨⟨k1, k2⟩, rfl⟩ := hk
    obtain ⟨x, a, e1, e2, e3⟩ := env_bit henv k1
    obtain ⟨y, b, f1, f2, f3⟩ := env_bit henv k2
    have : opsOf env (.and i j) = [x, y] := by simp [opsOf, Cmd.reads, e1, f1, Handle.gates]
    rw [this]
    have h := one (ops := [x, y]) (hwf.and x y) (adds_and hwf x y) ⟨_, _, .inr (.inr (.inl rfl))⟩ (by simp [Gate.operands])
    exact RunsC.getB e1 (RunsC.getB f1 ⟨.bit c.gateIndex, _, by rw [bind_ok (and_eq hg x y), setC_setC]; rfl, h.1, fun _ => h.2, by simp [Cmd.Passes], by simp [Cmd.reuses]⟩)
  case or i j =>
    simp only [Cmd.kind, Option.ite_none_right_eq_some, Option.some.injEq] at hk
    obtain ⟨⟨k1, k2⟩, rfl⟩ := hk
    obtain ⟨x, a, e1, e2, e3⟩ := env_bit henv k1
    obtain ⟨y, b, f1, f2, f3⟩ := env_bit henv k2
    have : opsOf env (.or i j) = [x, y] := by simp [opsOf, Cmd.reads, e1, f1, Handle.gates]
    rw [this]
    have h := one (ops := [x, y]) (hwf.or x y) (adds_or hwf x y) ⟨_, _, .inr (.inr (.inr rfl))⟩ (by simp [Gate.operands])
    exact RunsC.getB e1 (RunsC.getB f1 ⟨.bit c.gateIndex, _, by rw [bind_ok (or_eq hg x y), setC_setC]; rfl, h.1, fun _ => h.2, by simp [Cmd.Passes], by simp [Cmd.reuses]⟩)
  case xor i j =>
    simp only [Cmd.kind, Option.ite_none_right_eq_some, Option.some.injEq] at hk
    obtain ⟨⟨k1, k2⟩, rfl⟩ := hk
    obtain ⟨x, a, e1, e2, e3⟩ := env_bit henv k1
    obtain ⟨y, b, f1, f2, f3⟩ := env_bit henv k2
    have : opsOf env (.xor i j) = [x, y] := by simp [opsOf, Cmd.reads, e1, f1, Handle.gates]
    rw [this]
    have h := one (ops := [x, y]) (hwf.xor x y) (adds_xor hwf x y) ⟨_, _, .inr (.inl rfl)⟩ (by simp [Gate.operands])
    exact RunsC.getB e1 (RunsC.getB f1 ⟨.bit c.gateIndex, _, by rw [bind_ok (xor_eq hg x y), setC_setC]; rfl, h.1, fun _ => h.2, by simp [Cmd.Passes], by simp [Cmd.reuses]⟩)
  case equivalent i j =>
    simp only [Cmd.kind, Option.ite_none_right_eq_some, Option.some.injEq] at hk
    obtain ⟨⟨k1, k2⟩, rfl⟩ := hk
    obtain ⟨x, a, e1, e2, e3⟩ := env_bit henv k1
    obtain ⟨y, b, f1, f2, f3⟩ := env_bit henv k2
    have : opsOf env (.equivalent i j) = [x, y] := by simp [opsOf, Cmd.reads, e1, f1, Handle.gates]
    rw [this]
    have h := two (ops := [x, y]) ((hwf.xor x y).not c.gateIndex) (adds_xor hwf x y) (adds_not (hwf.xor x y) c.gateIndex) (by simp)
      (by simp [Gate.operands])
    exact RunsC.getB e1 (RunsC.getB f1 ⟨.bit (c.gateIndex + 1), _, by rw [bind_ok (equivalent_eq hg x y), setC_setC]; rfl, h.1, fun _ => h.2, by simp [Cmd.Passes], by simp [Cmd.reuses]⟩)
  case identity i =>
    simp only [Cmd.kind, Option.ite_none_right_eq_some, Option.some.injEq] at hk
    obtain ⟨k1, rfl⟩ := hk
    obtain ⟨x, a, e1, e2, e3⟩ := env_bit henv k1
    have : opsOf env (.identity i) = [x] := by simp [opsOf, Cmd.reads, e1, Handle.gates]
    rw [this]
    have h := two (ops := [x]) ((hwf.not x).not c.gateIndex) (adds_not hwf x) (adds_not (hwf.not x) c.gateIndex) (by simp)
      (by simp [Gate.operands])
    exact RunsC.getB e1 ⟨.bit (c.gateIndex + 1), _, by rw [bind_ok (identity_eq hg x), setC_setC]; rfl, h.1, fun _ => h.2, by simp [Cmd.Passes], by simp [Cmd.reuses]⟩

/-! ### all statements -/

theorem reads_lt {ks : List Kind} {st : Cmd} {k : Kind} (h : st.kind ks = some k) {i : Nat} (hi : i ∈ st.reads) : i < ks.length := by
  have key : ∀ {j : Nat} {k : Kind}, ks[j]? = some k → j < ks.length := fun h => lt_of_getElem? h
  cases st <;> simp [Cmd.reads] at hi <;> simp only [Cmd.kind, Option.ite_none_right_eq_some] at h
  all_goals first
    | exact hi ▸ key h.1
    | rcases hi with rfl | rfl | rfl
      · exact key h.1.1
      · exact key h.1.2.1
      · exact key h.1.2.2
    | rcases hi with rfl | rfl
      · exact key h.1.1
      · exact key h.1.2

/-- a logic gate, or a call of a circuit with one -/
def Heavy (w : World) (c : Circuit) (q : GateId) : Prop := IsLogic c q ∨ ∃ mr, IsCall w c q mr ∧ Solid w mr

theorem Heavy.ext {w : World} {c c' : Circuit} {q : GateId} (h : Heavy w c q) (he : ExtC c c') : Heavy w c' q := by
  rcases h with h | ⟨mr, ⟨nIn, nOut, ids, mid, h1, h2⟩, h3⟩
  · exact .inl (Unused.logic_ext he.gates h)
  · exact .inr ⟨mr, ⟨nIn, nOut, ids, mid, he.gates _ _ h1, by rw [← h2]; exact World.module?_congr rfl he.storage mid⟩, h3⟩

theorem Ends.heavy {w : World} {n : Nat} (hn : 1 ≤ n) {c : Circuit} {gs : List GateId} (h : Ends w n c gs) : ∃ q ∈ gs, Heavy w c q := by
  rcases h with ⟨h0, _, h2⟩ | ⟨g, nIn, ids, mid, mr, m, h1, h2, h3, h4, _, d, h5⟩
  · obtain ⟨q, gs', rfl⟩ := List.exists_cons_of_ne_nil h0
    exact ⟨q, by simp, .inl (h2 q (by simp))⟩
  · exact ⟨g, by rw [h1, List.mem_range'_1]; omega, .inr ⟨mr, ⟨nIn, n, ids, mid, h2, h3⟩, m, d, h4, h5⟩⟩

/-- the gates outside `D` use no gate of `D` -/
def Closed (c : Circuit) (D : GateId → Prop) : Prop :=
  ∀ g gate, c.gateMap g = some gate → ¬ D g → (∀ x ∈ gate.operands, ¬ D x) ∧
    ∀ nIn nOut ids oi mid, gate = .module nIn nOut ids oi mid → ∀ k < nOut, ¬ D (g - oi + k)

theorem Closed.reach {c : Circuit} {D : GateId → Prop} (h : Closed c D) {a b : GateId} (hr : Reach c a b) (ha : ¬ D a) : ¬ D b := by
  induction hr with
  | refl => exact ha
  | operand _ h1 h2 ih => exact (h _ _ h1 ih).1 _ h2
  | sibling _ h1 h2 ih => exact (h _ _ h1 ih).2 _ _ _ _ _ rfl _ h2

/-- a statement of use -/
theorem Closed.keep {c c' : Circuit} {ops gs : List GateId} (hu : Used w c ops gs c') {D : GateId → Prop} (h : Closed c D) (hD : ∀ g, D g → g < c.gateIndex)
    (ho : ∀ x ∈ ops, ¬ D x) : Closed c' D := by
  intro g gate hg hn
  by_cases hlt : g < c.gateIndex
  · rw [hu.old g hlt] at hg
    exact h g gate hg hn
  · refine ⟨fun x hx => ?_, ?_⟩
    · rcases hu.within g gate (by omega) hg x hx with k | k
      · exact ho x k
      · intro hd; have := hD _ hd; omega
    · rintro nIn nOut ids oi mid rfl k _ hd
      have := hu.siblings g _ _ _ _ _ (by omega) hg
      have := hD _ hd
      omega

/-- a statement that is not -/
theorem Closed.grow {K : Ctx} {c' : Circuit} (hb : Bld w s K c) (hwf : WFc c') {ops gs : List GateId} (hu : Used w c ops gs c') {D : GateId → Prop} (h : Closed c D) :
    Closed c' fun g => D g ∨ (c.gateIndex ≤ g ∧ g < c'.gateIndex) := by
  intro g gate hg hn
  have := hwf.lt_of_some hg
  have hlt : g < c.gateIndex := by apply Nat.lt_of_not_le; intro hle; exact hn (.inr ⟨hle, this⟩)
  rw [hu.old g hlt] at hg
  obtain ⟨h1, h2⟩ := h g gate hg fun hd => hn (.inl hd)
  refine ⟨fun x hx => ?_, ?_⟩
  · rintro (hd | hd)
    · exact h1 x hx hd
    · have h1 := hb.topo g gate hg x hx
      have h2 : lead g gate ≤ g := by cases gate <;> simp [lead]
      omega
  · rintro nIn nOut ids oi mid rfl k hk (hd | hd)
    · exact h2 _ _ _ _ _ rfl k hk hd
    · have := hb.wfc.lt_of_some ((hb.wfc.group _ _ _ _ _ _ hg).2.2 k hk)
      omega

/-- what a program makes: `m` values were there before -/
structure Outcome (w : World) (n : Nat) (p : List Cmd) (c : Circuit) (env env' : List Handle) (c' : Circuit) : Prop where
  trim : Trim w c'
  uses : ∀ (j : Nat) st h, p[j]? = some st → env'[env.length + j]? = some h → ∀ i ∈ st.reads, ∀ hi, env'[i]? = some hi → ∀ x ∈ hi.gates, ∃ q ∈ h.gates, Reach c' q x
  gates : ∀ g gate, c.gateIndex ≤ g → c'.gateMap g = some gate → (∀ i, gate ≠ .input i) →
    ∃ (j : Nat) (st : Cmd) (h : Handle), p[j]? = some st ∧ st.Computes ∧ env'[env.length + j]? = some h ∧ ∃ q ∈ h.gates, Reach c' q g
  idle : ∀ (L : Nat → Prop) (D : GateId → Prop), (∀ (j : Nat) st, p[j]? = some st → L (env.length + j) → ∀ i ∈ st.reads, L i) → Closed c D →
    (∀ g, D g → g < c.gateIndex) → (∀ i h, L i → env[i]? = some h → ∀ x ∈ h.gates, ¬ D x) →
    ∃ D' : GateId → Prop, Closed c' D' ∧ (∀ g, D g → D' g) ∧ (∀ i h, L i → env'[i]? = some h → ∀ x ∈ h.gates, ¬ D' x) ∧
      ∀ (j : Nat) st, p[j]? = some st → st.Computes → ¬ L (env.length + j) → ∃ q, D' q ∧ Heavy w c' q
  ends : ∀ (j : Nat) st h, p[j]? = some st → st.Computes → env'[env.length + j]? = some h → Ends w n c' h.gates ∧ ∃ lo hi, Base c' lo hi false h.gates
  same : ∀ (j : Nat) st i h h', p[j]? = some st → st.reuses = some i → env'[env.length + j]? = some h → env'[i]? = some h' → h.gates = h'.gates

theorem build_used {K : Ctx} {ins : List Bool} {n : Nat} {ic : IntConfig} {bc : BitsConfig} (hn : 1 ≤ n)
    (hi : IntD w (fun d => d < K.out ∨ d = s) K.st n ic) (hB : BitsD w (fun d => d < K.out ∨ d = s) K.st n bc)
    (hr : Rowed w s K.st n bc) (hic : ic.cref = s) (hbc : bc.cref = s) :
    ∀ (p : List Cmd) {c : Circuit} (env : List Handle) (vals : List (Value n)) {ks : List Kind}, Bld w s K c → c.outputLen = 0 → Trim w c →
      All2 (CC.Holds w s ins c ic bc) env vals → Mixed.kinds p (env.map Handle.kind) = some ks → (∀ st ∈ p, st.Computes ∨ st.Passes) →
      c.inputLen + Mixed.inputs n p = ins.length →
      RunsC w s (Mixed.build s ic bc n p env) c fun env' c' => Step w s K c c' ∧ (∃ r, env' = env ++ r ∧ r.length = p.length) ∧
        (∃ vals' : List (Value n), All2 (CC.Holds w s ins c' ic bc) env' vals') ∧ Outcome w n p c env env' c'
  | [], c, env, vals, ks, hb, h0, t, henv, hks, hst, hin =>
    RunsC.pure ⟨hb.refl, ⟨[], by simp⟩, ⟨vals, henv⟩, t, by simp, fun g gate h1 h2 => by have := hb.wfc.lt_of_some h2; omega,
      fun L D _ h2 h3 h4 => ⟨D, h2, fun _ h => h, h4, by simp⟩, by simp, by simp⟩
  | st :: p, c, env, vals, ks, hb, h0, t, henv, hks, hst, hin => by
    simp only [Mixed.kinds, Option.bind_eq_bind, Option.bind_eq_some_iff] at hks
    obtain ⟨k, hk, hks⟩ := hks
    simp only [Mixed.inputs] at hin
    have hst1 := hst st (by simp)
    have hfit : st.Fits n := by
      cases st <;> first | trivial | (exfalso; simp [Cmd.Computes, Cmd.Passes] at hst1)
    refine RunsC.seq (RunsC.both hb.lt (cmd_ok (ins := ins) hb h0 hn hi hB hic hbc henv hk hfit (by omega))
      (cmd_used hb t hn hr hic hbc henv hk hst1)) ?_
    rintro x c1 ⟨h1, hu, hends, honly, hsame⟩
    obtain ⟨v, hv, hh⟩ := h1.val
    have henv1 : All2 (CC.Holds w s ins c1 ic bc) (env ++ [x]) (vals ++ [v]) :=
      (henv.mono fun _ _ hx => hx.step hb h1.step).append ⟨hh, trivial⟩
    have hil := h1.inputLen
    have hb1 := h1.step.bld
    refine (build_used hn hi hB hr hic hbc p (env ++ [x]) (vals ++ [v]) (ks := ks) hb1
      (h1.step.outputLen.trans h0) hu.trim henv1 (by simpa [h1.kind] using hks) (fun q hq => hst q (by simp [hq])) (by omega)).mono ?_
    rintro env' c' ⟨k1, ⟨r, k3, k3'⟩, k4, k5⟩
    have hx := k1.ext.gates
    have hq' : env'[env.length]? = some x := by
      rw [k3, List.append_assoc, List.getElem?_append_right (Nat.le_refl _)]; simp
    have hpre : ∀ {i : Nat}, i < env.length → env'[i]? = env[i]? := by
      intro i hlt
      rw [k3, List.append_assoc, List.getElem?_append_left hlt]
    have hlen : (env ++ [x]).length = env.length + 1 := by simp
    have hops : ∀ i ∈ st.reads, ∀ h, env[i]? = some h → ∀ y ∈ h.gates, y ∈ opsOf env st := by
      intro i hi h hih y hy
      unfold opsOf
      rw [List.mem_flatMap]
      exact ⟨i, hi, by rw [hih]; exact hy⟩
    have hnone : st.reuses = none → ∃ lo hi, c.gateIndex ≤ lo ∧ Base c1 lo hi st.source x.gates := by
      intro h
      have := h1.tag
      unfold MixTag at this
      rwa [h] at this
    have hcn : st.Computes → st.reuses = none := by cases st <;> simp [Cmd.Computes, Cmd.reuses]
    refine ⟨h1.step.trans k1, ⟨x :: r, by rw [k3]; simp, by simp [k3']⟩, k4, k5.trim, ?_, ?_, ?_, ?_, ?_⟩
    · intro j st' h hj hh i hi h' hih y hy
      cases j with
      | succ j =>
        simp only [List.getElem?_cons_succ] at hj
        exact k5.uses j st' h hj (by rw [hlen, Nat.add_assoc, Nat.add_comm 1 j]; exact hh) i hi h' hih y hy
      | zero =>
        simp only [List.getElem?_cons_zero, Option.some.injEq] at hj
        subst hj
        rw [Nat.add_zero, hq'] at hh; cases hh
        have hlt : i < env.length := by simpa using reads_lt hk hi
        rw [hpre hlt] at hih
        obtain ⟨q, q1, q2⟩ := hu.operands y (hops i hi h' hih y hy)
        exact ⟨q, q1, reach_ext hx q2⟩
    · intro g gate a1 a2 a3
      by_cases hg : g < c1.gateIndex
      · obtain ⟨gate', e⟩ := hb1.wfc.some_of_lt hg
        have := hx _ _ e
        rw [a2] at this; cases this
        obtain ⟨q, hq, hqg⟩ := hu.gates g gate a1 e a3
        rcases hst1 with hc | hc
        · exact ⟨0, st, x, rfl, hc, by simpa using hq', q, hq, reach_ext hx hqg⟩
        · obtain ⟨i, hi⟩ := honly hc g gate a1 e
          exact (a3 i hi).elim
      · obtain ⟨j, st', h, b1, b2, b3, b4⟩ := k5.gates g gate (by omega) a2 a3
        exact ⟨j + 1, st', h, by simpa using b1, b2, by rw [hlen, Nat.add_assoc, Nat.add_comm 1 j] at b3; exact b3, b4⟩
    · intro L D l1 l2 l3 l4
      by_cases hL : L env.length
      · have hr := l1 0 st rfl hL
        have hnD : ∀ y ∈ opsOf env st, ¬ D y := by
          intro y hy
          unfold opsOf at hy
          rw [List.mem_flatMap] at hy
          obtain ⟨i, i1, i2⟩ := hy
          cases he : env[i]? with
          | none => simp [he] at i2
          | some h =>
            rw [he] at i2
            exact l4 i h (hr i i1) he y i2
        have hnD' : ∀ i h, L i → (env ++ [x])[i]? = some h → ∀ y ∈ h.gates, ¬ D y := by
          intro i h hl hi y hy
          by_cases hlt : i < env.length
          · rw [List.getElem?_append_left hlt] at hi
            exact l4 i h hl hi y hy
          · rw [List.getElem?_append_right (by omega)] at hi
            have hm := List.mem_of_getElem? hi
            simp at hm
            subst hm
            rcases hu.res y hy with h | h
            · exact hnD y h
            · intro hd; have := l3 _ hd; omega
        obtain ⟨D', d1, d2, d3, d4⟩ := k5.idle L D (fun j st' hj hl => by
            rw [hlen, Nat.add_assoc, Nat.add_comm 1 j] at hl; exact l1 (j + 1) st' (by simpa using hj) hl)
          (l2.keep hu l3 hnD) (fun g hg => Nat.lt_of_lt_of_le (l3 g hg) h1.step.ext.gateIndex) hnD'
        · refine ⟨D', d1, d2, d3, ?_⟩
          intro j st' hj hc hl
          cases j with
          | zero => exact absurd hL hl
          | succ j => exact d4 j st' (by simpa using hj) hc (by rw [hlen, Nat.add_assoc, Nat.add_comm 1 j]; exact hl)
      · have hnD' : ∀ i h, L i → (env ++ [x])[i]? = some h → ∀ y ∈ h.gates, ¬ (D y ∨ (c.gateIndex ≤ y ∧ y < c1.gateIndex)) := by
          intro i h hl hi y hy
          have hilt : i < env.length := by
            have := lt_of_getElem? hi
            rw [hlen] at this
            rcases (by omega : i < env.length ∨ i = env.length) with h | rfl
            · exact h
            · exact absurd hl hL
          rw [List.getElem?_append_left hilt] at hi
          rintro (hd | ⟨hd, _⟩)
          · exact l4 i h hl hi y hy hd
          · obtain ⟨h', v', e1, _, e3⟩ := henv.get (i := i) hilt
            rw [hi] at e1; cases e1
            obtain ⟨m, hm⟩ := List.getElem?_of_mem hy
            obtain ⟨y', b, e4, _, e5⟩ := e3.vals.get (i := m) (lt_of_getElem? hm)
            rw [hm] at e4; cases e4
            have := e5.lt hb
            omega
        obtain ⟨D', d1, d2, d3, d4⟩ := k5.idle L (fun g => D g ∨ (c.gateIndex ≤ g ∧ g < c1.gateIndex)) (fun j st' hj hl => by
            rw [hlen, Nat.add_assoc, Nat.add_comm 1 j] at hl; exact l1 (j + 1) st' (by simpa using hj) hl)
          (l2.grow hb hb1.wfc hu) (fun g hg => by
            rcases hg with hg | hg
            · exact Nat.lt_of_lt_of_le (l3 g hg) h1.step.ext.gateIndex
            · exact hg.2) hnD'
        · refine ⟨D', d1, fun g hg => d2 g (.inl hg), d3, ?_⟩
          intro j st' hj hc hl
          cases j with
          | zero =>
            simp only [List.getElem?_cons_zero, Option.some.injEq] at hj
            subst hj
            obtain ⟨q, q1, q2⟩ := (hends hc).heavy hn
            obtain ⟨lo, hi, b1, b2⟩ := hnone (hcn hc)
            have := (b2.mem q q1).1
            refine ⟨q, d2 q (.inr ⟨by omega, ?_⟩), q2.ext k1.ext⟩
            rcases q2 with q2 | ⟨mr, q2, _⟩
            · exact CC.IsLogic.lt hb1.wfc q2
            · exact CC.IsCall.lt hb1.wfc q2
          | succ j => exact d4 j st' (by simpa using hj) hc (by rw [hlen, Nat.add_assoc, Nat.add_comm 1 j]; exact hl)
    · intro j st' h hj hc hh
      cases j with
      | zero =>
        simp only [List.getElem?_cons_zero, Option.some.injEq] at hj
        subst hj
        rw [Nat.add_zero, hq'] at hh; cases hh
        obtain ⟨lo, hi, _, hB'⟩ := hnone (hcn hc)
        rw [show st.source = false by revert hc; cases st <;> simp [Cmd.Computes, Cmd.source]] at hB'
        exact ⟨(hends hc).ext k1.ext, lo, hi, hB'.ext hb1 k1.ext⟩
      | succ j => exact k5.ends j st' h (by simpa using hj) hc (by rw [hlen, Nat.add_assoc, Nat.add_comm 1 j]; exact hh)
    · intro j st' i h h' hj hre hh hh'
      cases j with
      | zero =>
        simp only [List.getElem?_cons_zero, Option.some.injEq] at hj
        subst hj
        rw [Nat.add_zero, hq'] at hh; cases hh
        rw [hpre (by simpa using reuses_lt hk hre)] at hh'
        rw [hsame i hre, hh']; rfl
      | succ j => exact k5.same j st' i h h' (by simpa using hj) hre (by rw [hlen, Nat.add_assoc, Nat.add_comm 1 j]; exact hh) hh'

theorem reuses_before : ∀ {p : List Cmd} {ks ks' : List Kind}, Mixed.kinds p ks = some ks' → ∀ {j : Nat} {st : Cmd} {i : Nat}, p[j]? = some st →
    st.reuses = some i → i < ks.length + j
  | [], _, _, _, j, st, i, hj, _ => by simp at hj
  | st :: p, ks, ks', h, j, st', i, hj, hr => by
    simp only [Mixed.kinds, Option.bind_eq_bind, Option.bind_eq_some_iff] at h
    obtain ⟨k, hk, h⟩ := h
    cases j with
    | zero =>
      simp only [List.getElem?_cons_zero, Option.some.injEq] at hj
      subst hj
      exact reuses_lt hk hr
    | succ j =>
      have := reuses_before h (by simpa using hj) hr
      simp at this
      omega

theorem origins_length : ∀ (p : List Cmd) (os : List Nat), (origins p os).length = os.length + p.length
  | [], os => by simp [Mixed.origins]
  | st :: p, os => by rw [Mixed.origins, origins_length p]; simp; omega

theorem origins_prefix : ∀ (p : List Cmd) (os : List Nat) {k : Nat}, k < os.length → (origins p os)[k]? = os[k]?
  | [], os, k, _ => rfl
  | st :: p, os, k, h => by
    rw [Mixed.origins, origins_prefix p _ (by simp; omega), List.getElem?_append_left h]

/-- where the gates of a value come from: from the operand, or from the statement itself -/
theorem origins_at : ∀ (p : List Cmd) (os : List Nat) {j : Nat} {st : Cmd}, p[j]? = some st →
    (st.reuses = none → (origins p os)[os.length + j]? = some (os.length + j)) ∧
    ∀ i, st.reuses = some i → i < os.length + j → (origins p os)[os.length + j]? = (origins p os)[i]?
  | [], os, j, st, h => by simp at h
  | st' :: p, os, 0, st, h => by
    simp only [List.getElem?_cons_zero, Option.some.injEq] at h
    subst h
    refine ⟨fun h => ?_, fun i h hi => ?_⟩
    · rw [Mixed.origins, origins_prefix p _ (by simp), h]; simp
    · rw [Mixed.origins, origins_prefix p _ (by simp), origins_prefix p _ (by simp; omega), h]
      rw [Nat.add_zero] at hi ⊢
      rw [List.getElem?_append_left hi]
      simp [hi]
  | st' :: p, os, j + 1, st, h => by
    have := origins_at p (os ++ [match st'.reuses with | some i => os[i]?.getD 0 | none => os.length]) (j := j) (st := st) (by simpa using h)
    rw [List.length_append, List.length_singleton, Nat.add_assoc, Nat.add_comm 1 j] at this
    exact this

theorem origins_same {β : Type} {G : Nat → β} : ∀ (p : List Cmd) (os : List Nat),
    (∀ (j : Nat) st i, p[j]? = some st → st.reuses = some i → G (os.length + j) = G i ∧ i < os.length + j) →
    (∀ k i, os[k]? = some i → G k = G i) → ∀ k i, (origins p os)[k]? = some i → G k = G i
  | [], os, _, h2 => h2
  | st :: p, os, h1, h2 => by
    refine origins_same p _ (fun j st' i hj hr => ?_) ?_
    · have := h1 (j + 1) st' i (by simpa using hj) hr
      rw [List.length_append, List.length_singleton, Nat.add_assoc, Nat.add_comm 1 j]
      exact this
    · intro k i hk
      by_cases hlt : k < os.length
      · rw [List.getElem?_append_left hlt] at hk
        exact h2 k i hk
      · rw [List.getElem?_append_right (by omega)] at hk
        have h0 : k = os.length := by have := lt_of_getElem? hk; simp at this; omega
        subst h0
        simp only [Nat.sub_self, List.getElem?_cons_zero, Option.some.injEq] at hk
        cases hr : st.reuses with
        | none => rw [hr] at hk; simp at hk; rw [hk]
        | some i0 =>
          rw [hr] at hk
          obtain ⟨e1, e2⟩ := h1 0 st i0 rfl hr
          rw [Nat.add_zero] at e1 e2
          have e3 := List.getElem?_eq_getElem e2
          simp only [e3, Option.getD_some] at hk
          rw [e1]
          exact h2 i0 i (by rw [e3, hk])

/-- a program all of whose statements are of use -/
theorem program_used {K : Ctx} {n : Nat} {ic : IntConfig} {bc : BitsConfig} {st : StoreRef} (hn : 1 ≤ n) (hb : Bld w s K (Circuit.new st))
    (hi : IntD w (fun d => d < K.out ∨ d = s) K.st n ic) (hB : BitsD w (fun d => d < K.out ∨ d = s) K.st n bc)
    (hr : Rowed w s K.st n bc) (hic : ic.cref = s) (hbc : bc.cref = s) {p : List Cmd} (hty : (Mixed.kinds p []).isSome)
    (hst : ∀ st ∈ p, st.Computes ∨ st.Passes) {outs : List Nat} (houts : ∀ i ∈ outs, i < p.length) (hidle : NoneIdle p outs) :
    RunsC w s (do
        let env ← Mixed.build s ic bc n p []
        let _ ← M.mapList (fun i => do let z ← M.idx env i; z.output s n) outs
        pure s) (Circuit.new st) fun a c2 => a = s ∧ Full (w.setC s c2) s ∧
          ((∀ st ∈ p, ¬ st.Computes) → c2.numGate = 0 ∧ c2.numConst = 0) ∧
          ∀ o i d, outs = [o] → (origins p [])[o]? = some i → p[i]? = some d → d.Computes → LastOutputs (w.setC s c2) s := by
  obtain ⟨ks, hks⟩ := Option.isSome_iff_exists.mp hty
  refine RunsC.seq (build_used (ins := List.replicate (Mixed.inputs n p) false) hn hi hB hr hic hbc p [] [] (ks := ks) hb rfl
    (Trim.new w st) trivial hks hst (by simp [Circuit.new])) ?_
  rintro env c2 ⟨k1, ⟨r, k3, k4⟩, ⟨vals, k5⟩, ko⟩
  have k2 := ko.trim
  rw [List.nil_append] at k3
  subst k3
  have hb2 := k1.bld
  have hlead : ∀ i, Leads p outs i → ∀ h', env[i]? = some h' → ∀ x ∈ h'.gates, ∃ o ∈ outs, ∃ h, env[o]? = some h ∧ ∃ q ∈ h.gates, Reach c2 q x := by
    intro i hi
    induction hi with
    | @result i hi =>
      intro h' hh' x hx
      exact ⟨i, hi, h', hh', x, hx, .refl⟩
    | @read i j st1 hj hr _ ih =>
      intro h' hh' x hx
      obtain ⟨hj', hhj⟩ : ∃ hj', env[j]? = some hj' := ⟨_, List.getElem?_eq_getElem (by rw [k4]; exact lt_of_getElem? hj)⟩
      obtain ⟨q, q1, q2⟩ := ko.uses j st1 hj' hj (by simpa using hhj) i hr h' hh' x hx
      obtain ⟨o, o1, h, o2, q', q3, q4⟩ := ih hj' hhj q q1
      exact ⟨o, o1, h, o2, q', q3, reach_trans q4 q2⟩
  have ho := RunsC.outputHs hb2 hic hbc env vals k5 outs [] (by rw [k4]; exact houts)
  rw [withOutputs_nil hb2.wfc k1.outputLen] at ho
  refine RunsC.seq ho ?_
  rintro _ c3 rfl
  rw [List.nil_append]
  generalize hos : (outs.flatMap fun i => (env[i]?.map (·.gates)).getD []) = os
  have hks' : Keeps (· ≠ s) w (w.setC s (withOutputs c2 os)) := keeps_setC _
  have hne : ∀ {g nIn nOut ids oi mid q}, c2.gateMap g = some (.module nIn nOut ids oi mid) → w.module? c2 mid = some q → q ≠ s := by
    intro g nIn nOut ids oi mid q hg hq
    obtain ⟨mr, mc, a1, a2, _⟩ := hb2.calls g nIn nOut ids oi mid hg
    rw [hq] at a1; cases a1
    exact a2.ne
  refine RunsC.pure ⟨rfl, .mk (get_of_lt hb.lt _) k2.consts k2.noConst ?_ ?_ ?_ ?_, fun hno => ⟨?_, k2.consts⟩, ?_⟩
  · refine Eq.trans (sumTo_congr fun g _ => ?_) k2.sum
    refine weight_congr rfl fun nIn nOut ids oi mid hg => ?_
    obtain ⟨q, hq⟩ := k2.mods g nIn nOut ids oi mid hg
    obtain ⟨mc, hmc⟩ := (k2.calls q ⟨g, nIn, nOut, ids, oi, mid, hg, hq⟩).get
    exact ⟨q, mc, hq, hmc, hq, hks'.circ _ _ (hne hg hq) hmc⟩
  · intro g gate hg hni
    have hg : c2.gateMap g = some gate := hg
    obtain ⟨j, st1, h', a0, a1, a2', q', a2'', a3'⟩ := ko.gates g gate (Nat.zero_le _) hg hni
    obtain ⟨o, b1, h, b2, q, a2, a3⟩ := hlead j (hidle j st1 a0 a1) h' (by simpa using a2') q' a2''
    have a3 := reach_trans a3 a3'
    have hm : q ∈ os := by
      rw [← hos, List.mem_flatMap]
      exact ⟨o, b1, by rw [b2]; exact a2⟩
    obtain ⟨i, hi⟩ := List.getElem?_of_mem hm
    exact ⟨i, q, hi, reach_ext (c := c2) (c' := withOutputs c2 os) (fun _ _ h => h) a3⟩
  · exact k2.mods
  · rintro q ⟨g, nIn, nOut, ids, oi, mid, hg, hq⟩
    exact (k2.calls q ⟨g, nIn, nOut, ids, oi, mid, hg, hq⟩).keeps hks' (not_called_closed hb.base) (hne hg hq)
  · refine k2.sum.symm.trans ?_
    refine sumTo_zero fun g hg => ?_
    obtain ⟨gate, he⟩ := hb2.wfc.some_of_lt hg
    cases gate with
    | input i => rw [weight_plain he (by simp)]; rfl
    | _ =>
      obtain ⟨j, st1, h', a0, a1, _⟩ := ko.gates g _ (Nat.zero_le _) he (by simp)
      exact absurd a1 (hno _ (List.mem_of_getElem? a0))
  · intro o i d ho hori hpi hd
    subst ho
    have hgates : (env[o]?.map Handle.gates).getD [] = (env[i]?.map Handle.gates).getD [] := by
      refine origins_same (G := fun k => (env[k]?.map Handle.gates).getD []) p [] (fun j st1 i1 hj hre => ?_) (by simp) o i hori
      have hij : i1 < j := by simpa using reuses_before hks hj hre
      have hjl : j < env.length := by rw [k4]; exact lt_of_getElem? hj
      have e1 := List.getElem?_eq_getElem hjl
      have e2 := List.getElem?_eq_getElem (l := env) (i := i1) (by omega)
      have := ko.same j st1 i1 _ _ hj hre (by rw [List.length_nil, Nat.zero_add]; exact e1) e2
      refine ⟨?_, by simpa using hij⟩
      simp only [List.length_nil, Nat.zero_add, e1, e2, Option.map_some, Option.getD_some]
      exact this
    have hil : i < env.length := by rw [k4]; exact lt_of_getElem? hpi
    have e1 := List.getElem?_eq_getElem hil
    obtain ⟨l2, lo, hi', l3⟩ := ko.ends i d _ hpi hd (by rw [List.length_nil, Nat.zero_add]; exact e1)
    rw [e1] at hgates
    simp only [List.flatMap_cons, List.flatMap_nil, List.append_nil] at hos
    rw [hgates] at hos
    simp only [Option.map_some, Option.getD_some] at hos
    rw [hos] at l2 l3
    have hreach : ∀ {a b}, Reach (withOutputs c2 os) a b → Reach c2 a b := fun h => reach_ext (c := withOutputs c2 os) (c' := c2) (fun _ _ h => h) h
    clear hos
    rcases l2 with ⟨-, m1, m2⟩ | ⟨g, nIn, ids, mid, mr, m, m1, m2, m3, m4, m5, -⟩
    · refine .gates (get_of_lt hb.lt _) ⟨fun i o hi => m2 o (List.mem_of_getElem? hi), ?_, ?_⟩
      · intro i j o h1 h2
        have h1 : os[i]? = some o := h1
        have h2 : os[j]? = some o := h2
        exact (List.getElem?_inj (lt_of_getElem? h1) m1).mp (h1.trans h2.symm)
      · intro i j o q gate x h1 h2 h3 h4 h5
        have h1 : o ∈ os := List.mem_of_getElem? (show os[i]? = some o from h1)
        have h2 : q ∈ os := List.mem_of_getElem? (show os[j]? = some q from h2)
        have h3 : c2.gateMap q = some gate := h3
        have h5 := hreach h5
        have hap := l3.cross q h2 o h1
        have hqx : Reach c2 q x := .operand .refl h3 h4
        cases h5 with
        | refl => exact hap q gate .refl h3 h4
        | operand h6 h7 h8 => exact hap _ _ (reach_trans hqx h6) h7 h8
        | sibling h6 h7 h8 =>
          obtain ⟨_, _, h9⟩ := hb2.wfc.group _ _ _ _ _ _ h7
          have := h9 _ h8
          obtain ⟨a, b, hl⟩ := m2 _ h1
          rw [this] at hl
          simp at hl
    · subst m1
      have hms := hne m2 m3
      refine .call g (get_of_lt hb.lt _) m2 m3 (by simp [withOutputs]) ?_ (.gates (by rw [setC_get_ne _ hms]; exact m4) m5)
      intro i hi
      show (List.range' g n)[i]? = _
      rw [List.getElem?_range' hi, Nat.one_mul]

/-- a program with a statement that is of no use for its results -/
theorem program_idle {K : Ctx} {n : Nat} {ic : IntConfig} {bc : BitsConfig} {st : StoreRef} (hn : 1 ≤ n) (hb : Bld w s K (Circuit.new st))
    (hi : IntD w (fun d => d < K.out ∨ d = s) K.st n ic) (hB : BitsD w (fun d => d < K.out ∨ d = s) K.st n bc)
    (hr : Rowed w s K.st n bc) (hic : ic.cref = s) (hbc : bc.cref = s) {p : List Cmd} (hty : (Mixed.kinds p []).isSome)
    (hst : ∀ st ∈ p, st.Computes ∨ st.Passes) {outs : List Nat} (houts : ∀ i ∈ outs, i < p.length) (hidle : ¬ NoneIdle p outs) :
    RunsC w s (do
        let env ← Mixed.build s ic bc n p []
        let _ ← M.mapList (fun i => do let z ← M.idx env i; z.output s n) outs
        pure s) (Circuit.new st) fun a c2 => a = s ∧ Lossy (w.setC s c2) s := by
  obtain ⟨ks, hks⟩ := Option.isSome_iff_exists.mp hty
  refine RunsC.seq (build_used (ins := List.replicate (Mixed.inputs n p) false) hn hi hB hr hic hbc p [] [] (ks := ks) hb rfl
    (Trim.new w st) trivial hks hst (by simp [Circuit.new])) ?_
  rintro env c2 ⟨k1, ⟨r, k3, k4⟩, ⟨vals, k5⟩, ko⟩
  rw [List.nil_append] at k3
  subst k3
  have hb2 := k1.bld
  obtain ⟨i, hi⟩ := Classical.not_forall.mp hidle
  obtain ⟨st1, hi⟩ := Classical.not_forall.mp hi
  obtain ⟨h1, hi⟩ := Classical.not_forall.mp hi
  obtain ⟨h2, h3⟩ := Classical.not_forall.mp hi
  obtain ⟨D, d1, -, d3, d4⟩ := ko.idle (Leads p outs) (fun _ => False) (fun j st' hj hl i hi => .read hj hi (by simpa using hl))
    (fun g gate h => by simp [Circuit.new, Map.empty] at h) (fun _ h => h.elim) (fun _ _ _ h => by simp at h)
  obtain ⟨q, q1, q2⟩ := d4 i st1 h1 h2 (by simpa using h3)
  have ho := RunsC.outputHs hb2 hic hbc env vals k5 outs [] (by rw [k4]; exact houts)
  rw [withOutputs_nil hb2.wfc k1.outputLen] at ho
  refine RunsC.seq ho ?_
  rintro _ c3 rfl
  rw [List.nil_append]
  generalize hos : (outs.flatMap fun i => (env[i]?.map (·.gates)).getD []) = os
  have hnn : ¬ Needed (withOutputs c2 os) q := by
    rintro ⟨k, o, hk, hro⟩
    have hk : os[k]? = some o := hk
    have hm := List.mem_of_getElem? hk
    rw [← hos, List.mem_flatMap] at hm
    obtain ⟨i, i1, i2⟩ := hm
    cases he : env[i]? with
    | none => simp [he] at i2
    | some h =>
      rw [he] at i2
      exact d1.reach (reach_ext (c := withOutputs c2 os) (c' := c2) (fun _ _ h => h) hro) (d3 i h (.result i1) he o i2) q1
  refine RunsC.pure ⟨rfl, ?_⟩
  rcases q2 with q2 | ⟨mr, ⟨nIn, nOut, ids, mid, q2, q3⟩, m, d, q4, q5⟩
  · exact .gate (get_of_lt hb.lt _) q2 hnn
  · have hne : mr ≠ s := by
      obtain ⟨mr', mc, a1, a2, _⟩ := hb2.calls q nIn nOut ids 0 mid q2
      rw [q3] at a1; cases a1
      exact a2.ne
    exact .unused (get_of_lt hb.lt _) ⟨nIn, nOut, ids, mid, q2, q3⟩ hnn ⟨m, d, by rw [setC_get_ne _ hne]; exact q4, q5⟩

end

theorem row_of {w : World} {s : Ref} {st : StoreRef} {n a : Nat} {mid : ModuleId} (hn : 1 ≤ n) (hw : Reachable w) (hc : w.circs[s]? = some (Circuit.new st))
    (h : HasRows w s mid a n) : Row w s st n mid := by
  obtain ⟨c, mr, m, h1, h2, h3, h4, h5⟩ := h
  rw [hc] at h1; cases h1
  have hwf := (WFw.of_reachable hw).circ mr m h4
  have hwire : m.numWire = m.inputLen + m.numConst + m.numGate := wireSum_inv.reachable hw _ (List.mem_of_getElem? h4)
  unfold World.module? at h2
  cases hs : w.stores[st]? with
  | none => simp [Circuit.new, hs] at h2
  | some stor =>
    simp [Circuit.new, hs] at h2
    refine ⟨stor, mr, m, hs, h2, h3, h4, h5.outputLen, ?_, full_rows h5 hwf h4, h5.tidy hwf, a + 0, (h5.row 0 hn).1⟩
    rw [hwire, h5.outputLen, h5.numConst, h5.numGate]
    omega

/-- a new circuit with its configurations -/
theorem start_rowed {w : World} (hw : Reachable w) {st : StoreRef} (hst : st < w.stores.length) {n : Nat} (hn : 1 ≤ n) :
    ∃ (w1 : World) (s : Ref) (K : Ctx) (ic : IntConfig) (bc : BitsConfig), Bld w1 s K (Circuit.new st) ∧
      IntD w1 (fun d => d < K.out ∨ d = s) K.st n ic ∧ BitsD w1 (fun d => d < K.out ∨ d = s) K.st n bc ∧ Rowed w1 s K.st n bc ∧ ic.cref = s ∧ bc.cref = s ∧
      ∀ (p : List Cmd) (outs : List Nat) (Q : World → Prop), RunsC w1 s (do
          let env ← Mixed.build s ic bc n p []
          let _ ← M.mapList (fun i => do let z ← M.idx env i; z.output s n) outs
          pure s) (Circuit.new st) (fun a c2 => a = s ∧ Q (w1.setC s c2)) →
        ∃ w', Mixed.compile st n p outs w = (.ok s, w') ∧ Q w' := by
  obtain ⟨⟨ic, bc⟩, w1, s, K, e, hs, hK, hc1, hb, ⟨hic, hbc, hI, hBo⟩, hcall, -⟩ := start_any (configures_mixed hn) hw hst
  have e1 := newCircuit_ok hst
  have hr1 : Reachable { w with circs := w.circs ++ [Circuit.new st] } := by
    have := plays_newCircuit st w
    rw [e1] at this
    exact later_reachable hw this
  rw [bind_ok e1, ← hs] at e
  obtain ⟨hR, -, -, -, q1, q2, q3, q4⟩ := configs_rows hr1 e
  rw [← hK] at hI hBo
  refine ⟨w1, s, K, ic, bc, hb, hI.toD hcall, ⟨hcall _ _ _ _ hBo.not, hcall _ _ _ _ hBo.and, hcall _ _ _ _ hBo.or,
    hcall _ _ _ _ hBo.xor, hcall _ _ _ _ hBo.eq, hcall _ _ _ _ hBo.neq⟩,
    by rw [hK]; exact ⟨row_of hn hR hc1 q1, row_of hn hR hc1 q2, row_of hn hR hc1 q3, row_of hn hR hc1 q4⟩, hic, hbc, ?_⟩
  rintro p outs Q ⟨a, c2, hx, rfl, hQ⟩
  rw [setC_self hc1] at hx
  refine ⟨_, ?_, hQ⟩
  unfold Mixed.compile
  rw [bind_ok e1, ← hs, bind_ok e]
  exact hx

/-! ### results that are inputs -/

theorem inputs_append (n : Nat) : ∀ p q : List Cmd, Mixed.inputs n (p ++ q) = Mixed.inputs n p + Mixed.inputs n q
  | [], q => by simp [Mixed.inputs]
  | c :: p, q => by simp only [List.cons_append, Mixed.inputs, inputs_append n p q]; omega

theorem exec_prefix {n : Nat} : ∀ (p : List Cmd) {ins : List Bool} {env env' : List (Value n)}, Mixed.exec p ins env = some env' →
    ∃ r, env' = env ++ r
  | [], _, env, env', h => ⟨[], by simp [Mixed.exec] at h; simp [h]⟩
  | c :: p, ins, env, env', h => by
    simp only [Mixed.exec, Option.bind_eq_bind, Option.bind_eq_some_iff] at h
    obtain ⟨v, _, h⟩ := h
    obtain ⟨r, rfl⟩ := exec_prefix p h
    exact ⟨[v] ++ r, by simp⟩

theorem out_word {n : Nat} {bs : List Bool} (h : bs.length = n) : bitsOf n (Mixed.word n bs).toNat = bs := by
  unfold Mixed.word
  rw [BitVec.toNat_ofNat, bitsOf_mod, bitsOf_bitsVal h]

/-- the values of a program of new values and conversions: the next input bits, and the operand -/
theorem exec_passes {n : Nat} : ∀ (p : List Cmd) {ins : List Bool} {env env' : List (Value n)}, Mixed.exec p ins env = some env' →
    (∀ c ∈ p, c.Passes) → Mixed.inputs n p ≤ ins.length → ∀ (j : Nat) st, p[j]? = some st →
      (st.source = true → ∃ v, env'[env.length + j]? = some v ∧ v.out = (ins.drop (Mixed.inputs n (p.take j))).take (st.takes n)) ∧
      ∀ i, st.reuses = some i → ∃ v v', env'[env.length + j]? = some v ∧ env'[i]? = some v' ∧ v.out = v'.out
  | [], _, _, _, _, _, _, j, st, hj => by simp at hj
  | c :: p, ins, env, env', h, hp, hl, j, st, hj => by
    simp only [Mixed.exec, Option.bind_eq_bind, Option.bind_eq_some_iff] at h
    obtain ⟨v, hv, h⟩ := h
    simp only [Mixed.inputs] at hl
    cases j with
    | zero =>
      simp only [List.getElem?_cons_zero, Option.some.injEq] at hj
      subst hj
      obtain ⟨r, rfl⟩ := exec_prefix p h
      have hat : ((env ++ [v]) ++ r)[env.length + 0]? = some v := by simp
      have hc := hp c (by simp)
      have hsame : ∀ {i : Nat} {v' : Value n}, env[i]? = some v' → ((env ++ [v]) ++ r)[i]? = some v' := by
        intro i v' h
        have hlt : i < env.length := (List.getElem?_eq_some_iff.mp h).1
        rw [List.append_assoc, List.getElem?_append_left hlt, h]
      refine ⟨fun hs => ⟨v, hat, ?_⟩, fun i hi => ?_⟩
      · simp only [List.take_zero, Mixed.inputs, List.drop_zero]
        cases c <;> simp only [Cmd.Passes, Cmd.source, Bool.false_eq_true] at hc hs <;> simp only [Cmd.value, Option.some.injEq] at hv <;>
          subst hv <;> simp only [Cmd.takes] at hl ⊢
        · exact out_word (by simp; omega)
        · exact out_word (by simp; omega)
        · cases ins with
          | nil => simp at hl
          | cons b ins => simp [Value.out]
      · cases c <;> simp only [Cmd.Passes] at hc <;> simp only [Cmd.reuses, Option.some.injEq, reduceCtorEq] at hi
        · subst hi
          simp only [Cmd.value, Mixed.getBits, Option.bind_eq_bind, Option.bind_eq_some_iff] at hv
          obtain ⟨x, h1, h2⟩ := hv
          split at h1 <;> try cases h1
          rename_i q
          cases h2
          exact ⟨_, _, hat, hsame q, rfl⟩
        · subst hi
          simp only [Cmd.value, Mixed.getInt, Option.bind_eq_bind, Option.bind_eq_some_iff] at hv
          obtain ⟨x, h1, h2⟩ := hv
          split at h1 <;> try cases h1
          rename_i q
          cases h2
          exact ⟨_, _, hat, hsame q, rfl⟩
    | succ j =>
      have := exec_passes p h (fun c hc => hp c (by simp [hc])) (by simp; omega) j st (by simpa using hj)
      rw [List.length_append, List.length_singleton, Nat.add_assoc, Nat.add_comm 1 j] at this
      simp only [List.take_succ_cons, Mixed.inputs, List.drop_drop] at this ⊢
      exact this

/-- a result that comes from a new value is a piece of the inputs -/
theorem run_source {n : Nat} {p : List Cmd} (hty : (Mixed.kinds p []).isSome) (hp : ∀ c ∈ p, c.Passes) {o i : Nat} {d : Cmd}
    (hori : (origins p [])[o]? = some i) (hi : p[i]? = some d) (hd : d.source = true) {ins : List Bool}
    (hl : ins.length = Mixed.inputs n p) :
    Mixed.runProgram n p [o] ins = some ((ins.drop (Mixed.inputs n (p.take i))).take (d.takes n)) := by
  obtain ⟨ks, hks⟩ := Option.isSome_iff_exists.mp hty
  obtain ⟨env, h1, h2⟩ := exec_total (n := n) p [] ins hks
  have key := exec_passes p h1 hp (by omega)
  have ho : o < env.length := by
    have := lt_of_getElem? hori
    rw [origins_length] at this
    simpa [h2] using this
  have hG : (env[o]?.map Value.out) = (env[i]?.map Value.out) := by
    refine origins_same (G := fun k => env[k]?.map Value.out) p [] (fun j st i1 hj hre => ⟨?_, by simpa using reuses_before hks hj hre⟩) (by simp) o i hori
    obtain ⟨v, v', e1, e2, e3⟩ := (key j st hj).2 i1 hre
    simp only [List.length_nil] at e1 ⊢
    rw [e1, e2]; simp [e3]
  obtain ⟨v, e1, e2⟩ := (key i d hi).1 hd
  rw [List.length_nil, Nat.zero_add] at e1
  rw [e1, List.getElem?_eq_getElem ho] at hG
  simp only [Option.map_some, Option.some.injEq] at hG
  have hm : [o].mapM (fun i => env[i]?) = some [env[o]] := by
    rw [List.mapM_cons, List.getElem?_eq_getElem ho]; rfl
  unfold Mixed.runProgram
  simp only [h1, hm, Option.bind_eq_bind, Option.bind_some]
  show some ([env[o]].flatMap Value.out) = _
  simp [hG, e2]

/-- if nothing is idle and the result comes from a new value, nothing is computed -/
theorem source_passes {p : List Cmd} (hty : (Mixed.kinds p []).isSome) (hp : ∀ c ∈ p, c.Computes ∨ c.Passes) {o i : Nat} {d : Cmd}
    (hori : (origins p [])[o]? = some i) (hi : p[i]? = some d) (hd : d.source = true) (hidle : NoneIdle p [o]) : ∀ c ∈ p, c.Passes := by
  obtain ⟨ks, hks⟩ := Option.isSome_iff_exists.mp hty
  have hself : ∀ {j : Nat} {c : Cmd}, p[j]? = some c → c.Computes → (origins p [])[j]? = some j := by
    intro j c hj hc
    have := (origins_at p [] hj).1 (by revert hc; cases c <;> simp [Cmd.Computes, Cmd.reuses])
    simpa using this
  have hno : ∀ {j : Nat} {c : Cmd}, p[j]? = some c → c.Computes → (origins p [])[j]? ≠ some i := by
    intro j c hj hc h
    rw [hself hj hc] at h
    cases h
    rw [hi] at hj; cases hj
    revert hc hd; cases d <;> simp [Cmd.Computes, Cmd.source]
  have hlead : ∀ j, Leads p [o] j → (origins p [])[j]? = some i := by
    intro j hj
    induction hj with
    | result h => simp at h; subst h; exact hori
    | @read i' j c hj hr _ ih =>
      rcases hp c (List.mem_of_getElem? hj) with hc | hc
      · exact absurd ih (hno hj hc)
      · have hre : c.reuses = some i' := by revert hc hr; cases c <;> simp [Cmd.Passes, Cmd.reads, Cmd.reuses]; all_goals (intro h; exact h.symm)
        have := (origins_at p [] hj).2 i' hre (reuses_before hks hj hre)
        rw [List.length_nil, Nat.zero_add] at this
        rw [← this]; exact ih
  intro c hc
  rcases hp c hc with h | h
  · obtain ⟨j, hj⟩ := List.getElem?_of_mem hc
    exact absurd (hlead j (hidle j c hj h)) (hno hj h)
  · exact h

/-- programs of bitwise operations, selections and gates all of whose statements are of use -/
theorem compile_used {w : World} (hw : Reachable w) {st : StoreRef} (hst : st < w.stores.length) {n : Nat} (hn : 1 ≤ n) {p : List Cmd}
    (hty : (Mixed.kinds p []).isSome) (hp : ∀ st ∈ p, st.Computes ∨ st.Passes) {outs : List Nat} (houts : ∀ i ∈ outs, i < p.length)
    (hidle : NoneIdle p outs) :
    ∃ r w', Mixed.compile st n p outs w = (.ok r, w') ∧ Full w' r ∧
      ((∀ st ∈ p, ¬ st.Computes) → ∃ c, w'.circs[r]? = some c ∧ c.numGate = 0 ∧ c.numConst = 0) ∧
      ∀ o i d, outs = [o] → (origins p [])[o]? = some i → p[i]? = some d → d.Computes → LastOutputs w' r := by
  obtain ⟨w1, s, K, ic, bc, hb, hi, hB, hr, hic, hbc, h⟩ := start_rowed hw hst hn
  refine ⟨s, h p _ (fun w' => Full w' s ∧ ((∀ st ∈ p, ¬ st.Computes) → ∃ c, w'.circs[s]? = some c ∧ c.numGate = 0 ∧ c.numConst = 0) ∧
    ∀ o i d, outs = [o] → (origins p [])[o]? = some i → p[i]? = some d → d.Computes → LastOutputs w' s) ?_⟩
  refine RunsC.mono (program_used hn hb hi hB hr hic hbc hty hp houts hidle) ?_
  rintro a c ⟨h1, h2, h3, h4⟩
  exact ⟨h1, h2, fun hno => ⟨c, get_of_lt hb.lt _, h3 hno⟩, h4⟩

theorem compile_idle {w : World} (hw : Reachable w) {st : StoreRef} (hst : st < w.stores.length) {n : Nat} (hn : 1 ≤ n) {p : List Cmd}
    (hty : (Mixed.kinds p []).isSome) (hp : ∀ st ∈ p, st.Computes ∨ st.Passes) {outs : List Nat} (houts : ∀ i ∈ outs, i < p.length)
    (hidle : ¬ NoneIdle p outs) :
    ∃ r w', Mixed.compile st n p outs w = (.ok r, w') ∧ Lossy w' r := by
  obtain ⟨w1, s, K, ic, bc, hb, hi, hB, hr, hic, hbc, h⟩ := start_rowed hw hst hn
  exact ⟨s, h p _ (Lossy · s) (program_idle hn hb hi hB hr hic hbc hty hp houts hidle)⟩

end CC.Neat
