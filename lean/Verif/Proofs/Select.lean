import Verif.Proofs.Rows
import Verif.Spec.ReadBack

/-!
# The circuit of a selection, gate by gate
-/

namespace CC
open Spec Logic Arith

/-- the inputs of a selection between words of `n` bits -/
abbrev selIn (n : Nat) : Nat := 1 + n + n

/-- the inputs, the negated selector, the three gates for each of the first `k` bits, of which the last is an output for the
first `j` bits -/
structure Sel (c : Circuit) (n k j : Nat) : Prop where
  inputLen : c.inputLen = selIn n
  idx : c.gateIndex = selIn n + 1 + 3 * k
  outputLen : c.outputLen = j
  numConst : c.numConst = 0
  numGate : c.numGate = 1 + 3 * k
  low : ∀ g, g < selIn n → ∃ i, c.gateMap g = some (.input i)
  inv : c.gateMap (selIn n) = some (.not 0)
  fst : ∀ i, i < k → c.gateMap (selIn n + 1 + 3 * i) = some (.and (1 + i) (selIn n))
  snd : ∀ i, i < k → c.gateMap (selIn n + 2 + 3 * i) = some (.and (1 + n + i) 0)
  sum : ∀ i, i < k → c.gateMap (selIn n + 3 + 3 * i) = some (.xor (selIn n + 1 + 3 * i) (selIn n + 2 + 3 * i))
  out : ∀ i, i < j → c.outputMap i = some (selIn n + 3 + 3 * i)

section
variable {c : Circuit} {n : Nat} (h : Sel c n n n) (hwf : WFc c)
include h hwf

theorem Sel.cases {g : GateId} {gate : Gate} (hg : c.gateMap g = some gate) :
    (g < selIn n ∧ ∃ i, gate = .input i) ∨ (g = selIn n ∧ gate = .not 0) ∨
      ∃ i, i < n ∧ ((g = selIn n + 1 + 3 * i ∧ gate = .and (1 + i) (selIn n)) ∨
        (g = selIn n + 2 + 3 * i ∧ gate = .and (1 + n + i) 0) ∨
        (g = selIn n + 3 + 3 * i ∧ gate = .xor (selIn n + 1 + 3 * i) (selIn n + 2 + 3 * i))) := by
  have hlt := hwf.lt_of_some hg
  rw [h.idx] at hlt
  by_cases hga : g < selIn n
  · obtain ⟨i, hi⟩ := h.low g hga
    rw [hg] at hi
    exact .inl ⟨hga, i, Option.some.inj hi⟩
  by_cases hge : g = selIn n
  · subst hge
    exact .inr (.inl ⟨rfl, Option.some.inj (hg.symm.trans h.inv)⟩)
  have hm : (g - selIn n - 1) % 3 = 0 ∨ (g - selIn n - 1) % 3 = 1 ∨ (g - selIn n - 1) % 3 = 2 := by omega
  refine .inr (.inr ⟨(g - selIn n - 1) / 3, by omega, ?_⟩)
  generalize hq : (g - selIn n - 1) / 3 = q
  rcases hm with e | e | e
  · obtain rfl : g = selIn n + 1 + 3 * q := by omega
    exact .inl ⟨rfl, Option.some.inj (hg.symm.trans (h.fst q (by omega)))⟩
  · obtain rfl : g = selIn n + 2 + 3 * q := by omega
    exact .inr (.inl ⟨rfl, Option.some.inj (hg.symm.trans (h.snd q (by omega)))⟩)
  · obtain rfl : g = selIn n + 3 + 3 * q := by omega
    exact .inr (.inr ⟨rfl, Option.some.inj (hg.symm.trans (h.sum q (by omega)))⟩)

theorem Sel.out_lt {i : Nat} {o : GateId} (ho : c.outputMap i = some o) : i < n ∧ o = selIn n + 3 + 3 * i := by
  have hi : i < n := by have := (hwf.output_dom i).mp (by rw [ho]; rfl); rw [h.outputLen] at this; exact this
  have := h.out i hi
  rw [ho] at this
  exact ⟨hi, Option.some.inj this⟩

/-- below a gate that is no output there is no output -/
theorem Sel.reach {x y : GateId} (hx : ∀ i, x ≠ selIn n + 3 + 3 * i) (hr : Reach c x y) : ∀ i, y ≠ selIn n + 3 + 3 * i := by
  induction hr with
  | refl => exact hx
  | operand _ hg hm ih =>
    rcases h.cases hwf hg with ⟨_, i, rfl⟩ | ⟨_, rfl⟩ | ⟨i, hi, ⟨_, rfl⟩ | ⟨_, rfl⟩ | ⟨e, _⟩⟩
    · simp [Gate.operands] at hm
    · simp only [Gate.operands, List.mem_singleton] at hm
      intro j; omega
    · simp only [Gate.operands, List.mem_cons, List.not_mem_nil, or_false] at hm
      intro j; unfold selIn at hm ⊢; omega
    · simp only [Gate.operands, List.mem_cons, List.not_mem_nil, or_false] at hm
      intro j; unfold selIn; omega
    · exact absurd e (ih i)
  | sibling _ hg _ ih =>
    rcases h.cases hwf hg with ⟨_, i, e⟩ | ⟨_, e⟩ | ⟨i, hi, ⟨_, e⟩ | ⟨_, e⟩ | ⟨_, e⟩⟩ <;> cases e

theorem Sel.tidy : TidyOutputs c := by
  refine ⟨fun i o ho => ?_, fun i j o hi hj => ?_, fun i j o p gate x ho hp hg hx hr => ?_⟩
  · obtain ⟨hi, rfl⟩ := h.out_lt hwf ho
    exact ⟨_, _, .inr (.inl (h.sum i hi))⟩
  · have h1 := (h.out_lt hwf hi).2
    have h2 := (h.out_lt hwf hj).2
    omega
  · obtain ⟨hi, rfl⟩ := h.out_lt hwf ho
    obtain ⟨hj, rfl⟩ := h.out_lt hwf hp
    rw [h.sum j hj] at hg
    cases hg
    simp [Gate.operands] at hx
    exact h.reach hwf (fun i => by omega) hr i rfl

theorem Sel.inlined (hn : 1 ≤ n) {w : World} {r : Ref} (hc : w.circs[r]? = some c) : Inlined w r (1 + 3 * n) [] := by
  have hcall : ∀ g mr, ¬ IsCall w c g mr := by
    rintro g mr ⟨nIn, nOut, ids, mid, hg, _⟩
    rcases h.cases hwf hg with ⟨_, i, e⟩ | ⟨_, e⟩ | ⟨i, hi, ⟨_, e⟩ | ⟨_, e⟩ | ⟨_, e⟩⟩ <;> cases e
  have hown : OwnConsts c [] := by
    refine ⟨[], .nil, fun g => ⟨fun hg => (List.not_mem_nil hg).elim, ?_⟩, trivial⟩
    rintro ⟨v, hv⟩
    rcases h.cases hwf hv with ⟨_, i, e⟩ | ⟨_, e⟩ | ⟨i, hi, ⟨_, e⟩ | ⟨_, e⟩ | ⟨_, e⟩⟩ <;> cases e
  have hsum : ∀ i, i < n → Needed c (selIn n + 3 + 3 * i) := fun i hi => ⟨i, _, h.out i hi, .refl⟩
  have hop : ∀ {x y : GateId} {gate : Gate}, Needed c x → c.gateMap x = some gate → y ∈ gate.operands → Needed c y := by
    rintro x y gate ⟨i, o, ho, hr⟩ hg hy
    exact ⟨i, o, ho, .operand hr hg hy⟩
  have hfst : ∀ i, i < n → Needed c (selIn n + 1 + 3 * i) := fun i hi => hop (hsum i hi) (h.sum i hi) (by simp [Gate.operands])
  have hsnd : ∀ i, i < n → Needed c (selIn n + 2 + 3 * i) := fun i hi => hop (hsum i hi) (h.sum i hi) (by simp [Gate.operands])
  have hinv : Needed c (selIn n) := hop (hfst 0 hn) (h.fst 0 hn) (by simp [Gate.operands])
  have := Inlined.mk (w := w) (List.range' (selIn n) (1 + 3 * n)) (fun _ => 1) (fun _ => []) hc hown List.nodup_range' (fun g => ?_)
    (fun g _ _ => ⟨rfl, rfl⟩) (fun g mr _ hg => (hcall g mr hg).elim)
  · have e1 : ((List.range' (selIn n) (1 + 3 * n)).map fun _ => 1).sum = 1 + 3 * n := by simp [List.map_const']
    have e2 : (List.range' (selIn n) (1 + 3 * n)).flatMap (fun _ => ([] : List Bool)) = [] := by simp
    rw [e1, e2] at this
    exact this
  · rw [List.mem_range'_1]
    constructor
    · rintro ⟨h1, h2⟩
      obtain ⟨gate, hg⟩ : ∃ gate, c.gateMap g = some gate := by
        have := (hwf.gate_dom g).mpr (by rw [h.idx]; omega)
        exact Option.isSome_iff_exists.mp this
      rcases h.cases hwf hg with ⟨h3, _⟩ | ⟨rfl, rfl⟩ | ⟨i, hi, ⟨rfl, rfl⟩ | ⟨rfl, rfl⟩ | ⟨rfl, rfl⟩⟩
      · omega
      · exact ⟨hinv, .inl ⟨0, 0, .inl hg⟩⟩
      · exact ⟨hfst i hi, .inl ⟨_, _, .inr (.inr (.inl hg))⟩⟩
      · exact ⟨hsnd i hi, .inl ⟨_, _, .inr (.inr (.inl hg))⟩⟩
      · exact ⟨hsum i hi, .inl ⟨_, _, .inr (.inl hg)⟩⟩
    · rintro ⟨_, ⟨p, q, hl⟩ | ⟨mr, hg⟩⟩
      · have : ∃ gate, c.gateMap g = some gate ∧ ∀ i, gate ≠ .input i := by
          rcases hl with e | e | e | e <;> exact ⟨_, e, fun i hi => by cases hi⟩
        obtain ⟨gate, hg, hne⟩ := this
        rcases h.cases hwf hg with ⟨_, i, e⟩ | ⟨rfl, _⟩ | ⟨i, hi, ⟨rfl, _⟩ | ⟨rfl, _⟩ | ⟨rfl, _⟩⟩
        · exact absurd e (hne i)
        all_goals constructor <;> omega
      · exact (hcall g mr hg).elim

end

/-! ### building it -/

section
variable {s : Ref} {n : Nat}

theorem Sel.start {c c' : Circuit} (h : Rows c (selIn n) 0) (ha : AddsGate c c' (.not 0)) : Sel c' n 0 0 := by
  have e1 := h.idx
  refine ⟨?_, ?_, ?_, ?_, ?_, fun g hg => ?_, ?_, fun i hi => ?_, fun i hi => ?_, fun i hi => ?_, fun i hi => ?_⟩
  · rw [ha.inputLen, h.inputLen]; rfl
  · rw [ha.idx, e1]
  · rw [ha.appends.outputLen, h.outputLen]
  · rw [ha.numConst, h.numConst]; rfl
  · rw [ha.numGate, h.numGate]; rfl
  · rw [ha.get, if_pos (by omega)]; exact h.low g hg
  · rw [ha.get, if_neg (by omega), if_pos (by omega)]
  all_goals omega

/-- the gates of one more bit -/
theorem Sel.step {c c1 c2 c3 : Circuit} {k : Nat} (h : Sel c n k 0) (a1 : AddsGate c c1 (.and (1 + k) (selIn n)))
    (a2 : AddsGate c1 c2 (.and (1 + n + k) 0)) (a3 : AddsGate c2 c3 (.xor c.gateIndex c1.gateIndex)) : Sel c3 n (k + 1) 0 := by
  have e0 := h.idx
  have e1 := a1.idx
  have e2 := a2.idx
  have e3 := a3.idx
  have old : ∀ g, g < c.gateIndex → c3.gateMap g = c.gateMap g := fun g hg => by
    rw [a3.get, if_pos (by omega), a2.get, if_pos (by omega), a1.get, if_pos (by omega)]
  refine ⟨?_, by omega, ?_, ?_, ?_, fun g hg => ?_, ?_, fun i hi => ?_, fun i hi => ?_, fun i hi => ?_, fun i hi => ?_⟩
  · rw [a3.inputLen, a2.inputLen, a1.inputLen, h.inputLen]; rfl
  · rw [a3.appends.outputLen, a2.appends.outputLen, a1.appends.outputLen, h.outputLen]
  · rw [a3.numConst, a2.numConst, a1.numConst, h.numConst]; rfl
  · rw [a3.numGate, a2.numGate, a1.numGate, h.numGate]; simp only [Gate.isLogic]; omega
  · rw [old g (by omega)]; exact h.low g hg
  · rw [old _ (by omega)]; exact h.inv
  · by_cases hik : i < k
    · rw [old _ (by omega)]; exact h.fst i hik
    · obtain rfl : i = k := by omega
      rw [a3.get, if_pos (by omega), a2.get, if_pos (by omega), a1.get, if_neg (by omega), if_pos (by omega)]
  · by_cases hik : i < k
    · rw [old _ (by omega)]; exact h.snd i hik
    · obtain rfl : i = k := by omega
      rw [a3.get, if_pos (by omega), a2.get, if_neg (by omega), if_pos (by omega)]
  · by_cases hik : i < k
    · rw [old _ (by omega)]; exact h.sum i hik
    · obtain rfl : i = k := by omega
      rw [a3.get, if_neg (by omega), if_pos (by omega), e1, e0, show selIn n + 1 + 3 * i + 1 = selIn n + 2 + 3 * i by omega]
  · omega

theorem does_select : ∀ (t k : Nat) {c : Circuit}, k + t = n → Sel c n k 0 →
    Does s (M.mapList (fun i => do
      let xi ← M.idx (List.range' 1 n) i
      let f ← CC.and s xi (selIn n)
      let ti ← M.idx (List.range' (1 + n) n) i
      let t ← CC.and s ti 0
      CC.xor s f t) (List.range' k t)) c fun l c' => l = (List.range' k t).map (fun i => selIn n + 3 + 3 * i) ∧ Sel c' n n 0
  | 0, k, c, hk, h => .pure ⟨rfl, by
      have e : k = n := by omega
      subst e
      exact h⟩
  | t + 1, k, c, hk, h => by
    rw [List.range'_succ]
    refine .seq (P := fun g c' => g = selIn n + 3 + 3 * k ∧ Sel c' n (k + 1) 0) ?_ ?_
    · refine .idx fun x hx => ?_
      rw [List.getElem?_range' (by omega)] at hx
      simp only [Nat.one_mul, Option.some.injEq] at hx
      subst hx
      refine .seq (P := fun g c' => g = c.gateIndex ∧ AddsGate c c' (.and (1 + k) (selIn n))) (.and fun c' _ ha => ⟨rfl, ha⟩) ?_
      rintro _ c1 ⟨rfl, a1⟩
      refine .idx fun x hx => ?_
      rw [List.getElem?_range' (by omega)] at hx
      simp only [Nat.one_mul, Option.some.injEq] at hx
      subst hx
      refine .seq (P := fun g c' => g = c1.gateIndex ∧ AddsGate c1 c' (.and (1 + n + k) 0)) (.and fun c' _ ha => ⟨rfl, ha⟩) ?_
      rintro _ c2 ⟨rfl, a2⟩
      refine .xor fun c3 _ a3 => ⟨?_, h.step a1 a2 a3⟩
      rw [a2.idx, a1.idx, h.idx]; omega
    · rintro _ c1 ⟨rfl, h1⟩
      refine .seq (does_select t (k + 1) (by omega) h1) ?_
      rintro _ c2 ⟨rfl, h2⟩
      exact .pure ⟨rfl, h2⟩

theorem does_mux {bc : BitsConfig} {c : Circuit} (h : Rows c (selIn n) 0) :
    Does bc.cref (Bits.mux ⟨List.range' 1 n, bc⟩ ⟨List.range' (1 + n) n, bc⟩ n 0) c fun z c' =>
      z = ⟨(List.range n).map (fun i => selIn n + 3 + 3 * i), bc⟩ ∧ Sel c' n n 0 := by
  unfold Bits.mux
  refine .seq (P := fun g c' => g = selIn n ∧ Sel c' n 0 0) (.not fun c' _ ha => ⟨h.idx, .start h ha⟩) ?_
  rintro _ c1 ⟨rfl, h1⟩
  rw [List.range_eq_range']
  refine .seq (does_select n 0 (by omega) h1) ?_
  rintro _ c2 ⟨rfl, h2⟩
  exact .pure ⟨rfl, h2⟩

theorem Sel.output {c : Circuit} {j : Nat} (h : Sel c n n j) :
    Sel { c with outputMap := c.outputMap.insert c.outputLen (selIn n + 3 + 3 * j), outputLen := c.outputLen + 1 } n n (j + 1) := by
  refine ⟨h.inputLen, h.idx, by show c.outputLen + 1 = _; rw [h.outputLen], h.numConst, h.numGate, h.low, h.inv, h.fst, h.snd,
    h.sum, fun i hi => ?_⟩
  show (c.outputMap.insert c.outputLen (selIn n + 3 + 3 * j)) i = _
  rw [Map.insert_apply, h.outputLen]
  by_cases hij : i = j
  · rw [if_pos hij, hij]
  · rw [if_neg hij]
    exact h.out i (by omega)

theorem does_selected : ∀ (t j : Nat) {c : Circuit}, j + t = n → Sel c n n j → Does s (M.mapList (fun i => do
      let g ← M.idx ((List.range n).map (fun i => selIn n + 3 + 3 * i)) i
      CC.output s g) (List.range' j t)) c fun _ c' => Sel c' n n n
  | 0, j, c, hj, h => .pure (by
      have e : j = n := by omega
      subst e
      exact h)
  | t + 1, j, c, hj, h => by
    rw [List.range'_succ]
    refine .seq (P := fun _ c' => Sel c' n n (j + 1)) ?_ fun _ c1 h1 =>
      .seq (does_selected t (j + 1) (by omega) h1) fun _ c2 h2 => .pure h2
    refine .idx fun g hg => ?_
    rw [List.getElem?_map, List.getElem?_range (by omega)] at hg
    simp only [Option.map_some, Option.some.injEq] at hg
    subst hg
    exact .output fun _ _ _ => h.output

end

section
open Mixed

theorem kept_reachable {r : Ref} : Kept r Reachable := fun _ _ _ h ho => later_reachable h ho.later

/-- a program whose body leaves a circuit with property `P`, if the circuit was empty -/
theorem compile_does {P : Circuit → Prop} {w w' : World} (hw : Reachable w) {st : StoreRef} {n : Nat} {p : List Cmd} {i : Nat} {r : Ref}
    (hx : Mixed.compile st n p [i] w = (.ok r, w'))
    (hbody : ∀ (ic : IntConfig) (bc : BitsConfig) s, ic.cref = s → bc.cref = s → ∀ c, Rows c 0 0 →
      DoesH s Reachable (Mixed.build s ic bc n p []) c fun env c' =>
        ∃ z, env[i]? = some z ∧ DoesH s Reachable (z.output s n) c' fun _ c2 => P c2) :
    1 ≤ n ∧ Reachable w' ∧ ∃ c, w'.circs[r]? = some c ∧ P c := by
  unfold Mixed.compile at hx
  rw [M.bind_apply] at hx
  rcases e1 : newCircuit st w with ⟨u | s, w1⟩
  · rw [e1] at hx; cases hx
  rw [e1] at hx
  simp only at hx
  have hR1 : Reachable w1 := by
    have := plays_newCircuit st w
    rw [e1] at this
    exact later_reachable hw this
  rw [M.bind_apply] at hx
  rcases e2 : Mixed.configs n s w1 with ⟨u | ⟨ic, bc⟩, w2⟩
  · rw [e2] at hx; cases hx
  rw [e2] at hx
  simp only at hx
  obtain ⟨hR2, hn, hb, hkeep, _⟩ := configs_rows hR1 e2
  have hi : ic.cref = s := (configs_heavy hR1 e2).2.1
  have hc2 := hkeep _ (newCircuit_new e1)
  rw [M.bind_apply] at hx
  rcases e3 : Mixed.build s ic bc n p [] w2 with ⟨u | env, w3⟩
  · rw [e3] at hx; cases hx
  rw [e3] at hx
  simp only at hx
  obtain ⟨hw3, hR3, c3, hc3, z, henv, hout⟩ := hbody ic bc s hi hb _ (Rows.new st) w2 env w3 (WFw.of_reachable hR2) hR2 hc2 e3
  have hall : DoesH s Reachable (do
      let _ ← M.mapList (fun i => do let z ← M.idx env i; z.output s n) [i]
      pure s) c3 fun t c' => t = s ∧ P c' := by
    refine .seq (P := fun _ c' => P c') ?_ fun _ _ h => .pure ⟨rfl, h⟩
    refine .seq (P := fun _ c' => P c') ?_ fun _ _ h => .pure h
    intro v b v' k1 k2 k3 k4
    simp only [M.bind_apply] at k4
    unfold M.idx at k4
    rw [henv] at k4
    exact hout v b v' k1 k2 k3 k4
  obtain ⟨_, hR4, c4, hc4, rfl, hP⟩ := hall w3 r w' hw3 hR3 hc3 hx
  exact ⟨hn, hR4, c4, hc4, hP⟩

/-- what the text of the circuit of a selection depends on -/
theorem mux_sel {w w' : World} (hw : Reachable w) {st : StoreRef} {n : Nat} {r : Ref}
    (hx : Mixed.compile st n [.input, .newBits, .newBits, .mux 0 1 2] [3] w = (.ok r, w')) :
    1 ≤ n ∧ Reachable w' ∧ ∃ c, w'.circs[r]? = some c ∧ Sel c n n n := by
  refine compile_does hw hx ?_
  intro ic bc s _ hb c hc
  refine .seq (P := fun x c' => x = .bit 0 ∧ Rows c' 1 0) ?_ ?_
  · refine .seq (P := fun x c' => x = 0 ∧ Rows c' 1 0) (.of kept_reachable (.input) (.input fun c' _ ha => ⟨hc.idx, hc.input ha⟩)) ?_
    rintro _ c' ⟨rfl, h⟩
    exact .pure ⟨rfl, h⟩
  rintro _ c0 ⟨rfl, h0⟩
  refine .seq (newBits_does kept_reachable hb h0) ?_
  rintro _ c1 ⟨rfl, h1⟩
  refine .seq (newBits_does kept_reachable hb h1) ?_
  rintro _ c2 ⟨rfl, h2⟩
  subst hb
  refine .seq (P := fun x c' => x = .bits ⟨(List.range n).map (fun i => selIn n + 3 + 3 * i), bc⟩ ∧ Sel c' n n 0) ?_ ?_
  · show DoesH bc.cref Reachable (Bits.mux ⟨List.range' 1 n, bc⟩ ⟨List.range' (1 + n) n, bc⟩ n 0 >>= fun z => pure (Handle.bits z)) c2 _
    refine .seq (.of kept_reachable (by unfold Bits.mux; stays) (does_mux h2)) ?_
    rintro _ c' ⟨rfl, h'⟩
    exact .pure ⟨rfl, h'⟩
  rintro _ c3 ⟨rfl, h3⟩
  refine .pure ⟨_, rfl, ?_⟩
  show DoesH bc.cref _ (Bits.output ⟨(List.range n).map (fun i => selIn n + 3 + 3 * i), bc⟩ n) c3 _
  unfold Bits.output
  refine .seq (.of kept_reachable (by stays) ?_) fun _ _ h => .pure h
  rw [List.range_eq_range' (n := n)]
  have := does_selected (s := bc.cref) n 0 (by omega) h3
  rw [List.range_eq_range'] at this
  exact this

/-! ### programs that only move bits -/

/-- no gates and no constants -/
def Bare (c : Circuit) : Prop := c.numGate = 0 ∧ c.numConst = 0

theorem does_bare_input {s : Ref} {c : Circuit} (h : Bare c) : Does s (CC.input s) c fun _ c' => Bare c' :=
  .input fun c' _ ha => ⟨by rw [ha.numGate, h.1]; rfl, by rw [ha.numConst, h.2]; rfl⟩

theorem does_bare_inputs {s : Ref} {c : Circuit} (n : Nat) (h : Bare c) : Does s (M.replicate (CC.input s) n) c fun _ c' => Bare c' :=
  .replicate (I := fun _ c => Bare c) n [] h fun _ _ h => does_bare_input h

theorem does_same {s : Ref} {α} {x : M α} {c : Circuit} {Q : Circuit → Prop} (hq : Q c) (hx : ∀ w, (x w).2 = w) : Does s x c fun _ c' => Q c' := by
  intro w a w' hw hc he
  have := hx w
  rw [he] at this
  cases this
  exact ⟨hw, c, hc, hq⟩

theorem does_bare_output {s : Ref} {c : Circuit} (l : List GateId) (is : List Nat) (h : Bare c) :
    Does s (M.mapList (fun i => do let g ← M.idx l i; CC.output s g) is) c fun _ c' => Bare c' := by
  have := Does.mapList (s := s) (f := fun i => do let g ← M.idx l i; CC.output s g) (I := fun _ c => Bare c) is [] h
    fun i _ acc c hc => .idx fun g _ => .output fun _ _ _ => hc
  intro w a w' h1 h2 h3
  obtain ⟨k1, c', k2, k3, _⟩ := this w a w' h1 h2 h3
  exact ⟨k1, c', k2, k3⟩

theorem cmd_bare {r : Ref} {ic : IntConfig} {bc : BitsConfig} {n : Nat} (hi : ic.cref = r) (hb : bc.cref = r) {env : List Handle}
    {c : Circuit} (h : Bare c) {cmd : Cmd} (hm : cmd.Moves) : Does r (cmd.build r ic bc n env) c fun _ c' => Bare c' := by
  cases cmd <;> try exact hm.elim
  · refine .seq (P := fun _ c' => Bare c') ?_ fun _ _ h => .pure h
    unfold AInt.new
    rw [hi]
    exact .seq (does_bare_inputs n h) fun _ _ h => .pure h
  · rename_i i k
    refine does_same h fun w => ?_
    have hidx : ∀ {α : Type} (l : List α) (i : Nat) (w : World), (M.idx l i w).2 = w := by
      intro α l i w; unfold M.idx; cases l[i]? <;> rfl
    have hb : ∀ {α β : Type} {x : M α} {f : α → M β}, (∀ w, (x w).2 = w) → (∀ a w, (f a w).2 = w) → ∀ w, ((x >>= f) w).2 = w := by
      intro α β x f h1 h2 w
      rw [M.bind_apply]
      have := h1 w
      rcases e : x w with ⟨a | a, w1⟩ <;> rw [e] at this <;> cases this
      · rfl
      · exact h2 a _
    have hl : ∀ {α β : Type} {f : α → M β} (l : List α), (∀ a w, (f a w).2 = w) → ∀ w, (M.mapList f l w).2 = w := by
      intro α β f l hf
      induction l with
      | nil => intro w; rfl
      | cons a l ih => exact hb (hf a) fun b => hb ih fun _ _ => rfl
    refine hb (hb (hidx _ _) fun a w => ?_) (fun x => hb ?_ fun _ _ => rfl) w
    · cases a <;> rfl
    · unfold AInt.shiftRight
      have hk : ∀ (s : GateId) w, ((if n < k then M.throw (Err.panic Panic.underflow)
          else do
            let low ← M.mapList (fun i => M.idx x.val (i + k)) (List.range (n - k))
            pure { val := low ++ List.replicate k s, config := x.config } : M AInt) w).2 = w := by
        intro s w
        split
        · rfl
        · exact hb (hl _ fun _ => hidx _ _) (fun _ _ => rfl) w
      split
      · exact hb (fun _ => rfl) hk
      · exact hb (hidx _ _) hk
  · refine .seq (P := fun _ c' => Bare c') ?_ fun _ _ h => .pure h
    unfold Bits.new
    rw [hb]
    exact .seq (does_bare_inputs n h) fun _ _ h => .pure h
  · exact .seq (does_bare_input h) fun _ _ h => .pure h

theorem build_bare {r : Ref} {ic : IntConfig} {bc : BitsConfig} {n : Nat} (hi : ic.cref = r) (hb : bc.cref = r) : ∀ (p : List Cmd)
    {env : List Handle} {c : Circuit}, (∀ a ∈ env, HandleOk ic bc a) → Bare c → (∀ cmd ∈ p, cmd.Moves) →
    Does r (Mixed.build r ic bc n p env) c fun env' c' => (∀ a ∈ env', HandleOk ic bc a) ∧ Bare c'
  | [], env, c, he, h, _ => .pure ⟨he, h⟩
  | cmd :: p, env, c, he, h, hm => by
    refine .seq (P := fun x c' => HandleOk ic bc x ∧ Bare c') ?_ ?_
    · intro w a w' h1 h2 h3
      obtain ⟨k1, c', k2, k3⟩ := cmd_bare hi hb h (hm cmd (by simp)) w a w' h1 h2 h3
      exact ⟨k1, c', k2, (cmd_stays hi hb he cmd w a w' h3).2, k3⟩
    · rintro x c' ⟨hx, h'⟩
      refine build_bare hi hb p (fun a ha => ?_) h' fun cmd hc => hm cmd (by simp [hc])
      rcases List.mem_append.mp ha with q | q
      · exact he a q
      · rw [List.mem_singleton.mp q]; exact hx

theorem output_bare {r : Ref} {ic : IntConfig} {bc : BitsConfig} {n : Nat} (hi : ic.cref = r) (hb : bc.cref = r) {x : Handle}
    (hx : HandleOk ic bc x) {c : Circuit} (h : Bare c) : Does r (x.output r n) c fun _ c' => Bare c' := by
  cases x with
  | int x =>
    show Does r (x.output n) c _
    unfold AInt.output
    rw [show x.config.cref = r from by rw [show x.config = ic from hx, hi]]
    exact .seq (does_bare_output _ _ h) fun _ _ h => .pure h
  | bits x =>
    show Does r (x.output n) c _
    unfold Bits.output
    rw [show x.config.cref = r from by rw [show x.config = bc from hx, hb]]
    exact .seq (does_bare_output _ _ h) fun _ _ h => .pure h
  | bit g => exact .seq (.output (Q := fun _ c' => Bare c') fun _ _ _ => h) fun _ _ h => .pure h

/-- a program that only moves bits makes no gates -/
theorem compile_bare {w w' : World} (hw : Reachable w) {st : StoreRef} {n : Nat} {p : List Cmd} {outs : List Nat} {r : Ref}
    (hx : Mixed.compile st n p outs w = (.ok r, w')) (hm : ∀ cmd ∈ p, cmd.Moves) : ∃ c, w'.circs[r]? = some c ∧ Bare c := by
  unfold Mixed.compile at hx
  rw [M.bind_apply] at hx
  rcases e1 : newCircuit st w with ⟨u | s, w1⟩
  · rw [e1] at hx; cases hx
  rw [e1] at hx
  simp only at hx
  have hR1 : Reachable w1 := by
    have := plays_newCircuit st w
    rw [e1] at this
    exact later_reachable hw this
  rw [M.bind_apply] at hx
  rcases e2 : Mixed.configs n s w1 with ⟨u | ⟨ic, bc⟩, w2⟩
  · rw [e2] at hx; cases hx
  rw [e2] at hx
  simp only at hx
  obtain ⟨hR2, hn, hb, hkeep, _⟩ := configs_rows hR1 e2
  have hi : ic.cref = s := (configs_heavy hR1 e2).2.1
  have hc2 := hkeep _ (newCircuit_new e1)
  have hall : Does s (do
      let env ← Mixed.build s ic bc n p []
      let _ ← M.mapList (fun i => do let z ← M.idx env i; z.output s n) outs
      pure s) (Circuit.new st) fun t c' => t = s ∧ Bare c' := by
    refine .seq (build_bare hi hb p (by simp) ⟨rfl, rfl⟩ hm) ?_
    rintro env c3 ⟨he, h3⟩
    refine .seq (P := fun _ c' => Bare c') ?_ fun _ _ h => .pure ⟨rfl, h⟩
    have := Does.mapList (s := s) (f := fun i => do let z ← M.idx env i; z.output s n) (I := fun _ c => Bare c) outs [] h3
      fun i _ acc c hc => .idx fun z hz => output_bare hi hb (he z (List.mem_of_getElem? hz)) hc
    intro w a w' h1 h2 h3
    obtain ⟨k1, c', k2, k3, _⟩ := this w a w' h1 h2 h3
    exact ⟨k1, c', k2, k3⟩
  obtain ⟨_, c4, hc4, rfl, h4⟩ := hall w2 r w' (WFw.of_reachable hR2) hc2 hx
  exact ⟨c4, hc4, h4⟩

end

end CC
