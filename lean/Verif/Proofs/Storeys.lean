import Verif.Proofs.Memory
import Verif.Props.Time
import Verif.Props.Depth

/-!
# A tower of circuits that each call the one below twice (C80)
-/

namespace CC
open Spec Props

/-- the circuits of the tower: a negation, and above it two calls each, the second on the result of the first -/
def storey : Nat → Circuit
  | 0 => (((Circuit.new 0).input.2.not 0).2.output 1).2
  | n + 1 => (((((Circuit.new 0).input.2.module (storey n) n [0]).2.module (storey n) n [1]).2).output 2).2

/-- a circuit that can be called with one argument for one result -/
structure One (c : Circuit) : Prop where
  inputs : c.inputLen = 1
  outputs : c.outputLen = 1
  wires : 2 ≤ c.numWire

theorem module_one {c m : Circuit} (h : One m) (mid : ModuleId) (x : GateId) : ∃ k k' k'' d,
    c.module m mid [x] = (.ok [c.gateIndex],
      { c with numWire := c.numWire + 1 + k, numGate := k', numConst := k'', depMap := d,
               gateMap := c.gateMap.insert c.gateIndex (.module 1 1 [x] 0 mid), gateIndex := c.gateIndex + 1 }) := by
  obtain ⟨h1, h2, h3⟩ := h
  unfold Circuit.module
  rw [if_neg (by omega), if_neg (by omega), h1, h2]
  simp only [Circuit.addModuleGates, Circuit.addGate, Circuit.addModuleDeps, List.foldl_cons, List.foldl_nil, Circuit.addDependence]
  have : ∀ a, c.numWire + a + 1 = c.numWire + 1 + a := fun a => by omega
  split <;> exact ⟨_, _, _, _, by rw [this]⟩

/-- a circuit above the first one -/
structure Twice (n : Nat) (c : Circuit) : Prop extends One c where
  storage : c.storage = 0
  index : c.gateIndex = 3
  gate : c.gateMap = ((Map.empty.insert 0 (.input 0)).insert 1 (.module 1 1 [0] 0 n)).insert 2 (.module 1 1 [1] 0 n)
  output : c.outputMap = Map.empty.insert 0 2

/-- its construction -/
theorem twice_steps {m : Circuit} (h : One m) (n : Nat) :
    let a := (Circuit.new 0).input.2
    let b := (a.module m n [0]).2
    let c := (b.module m n [1]).2
    (a.gateMap = Map.empty.insert 0 (.input 0) ∧ a.storage = 0) ∧
    (b.gateMap = (Map.empty.insert 0 (.input 0)).insert 1 (.module 1 1 [0] 0 n) ∧ b.storage = 0) ∧
    Twice n (c.output 2).2 := by
  intro a b c
  obtain ⟨k1, k2, k3, d, h1⟩ := module_one (c := a) h n 0
  have hb : b = _ := congrArg Prod.snd h1
  obtain ⟨j1, j2, j3, d', h2⟩ := module_one (c := b) h n 1
  have hc : c = _ := congrArg Prod.snd h2
  refine ⟨⟨rfl, rfl⟩, ?_, ?_⟩
  · rw [hb]; exact ⟨rfl, rfl⟩
  · have e : c.gateMap 2 = some (.module 1 1 [1] 0 n) := by rw [hc, hb]; rfl
    rw [Circuit.output, e]
    simp only
    rw [hc, hb]
    refine ⟨⟨rfl, rfl, ?_⟩, rfl, rfl, rfl, rfl⟩
    show 2 ≤ 0 + 1 + 1 + k1 + 1 + j1
    omega

theorem storey_one : ∀ n, One (storey n)
  | 0 => ⟨rfl, rfl, Nat.le_refl 2⟩
  | n + 1 => (twice_steps (storey_one n) n).2.2.toOne

theorem storey_twice (n : Nat) : Twice n (storey (n + 1)) := (twice_steps (storey_one n) n).2.2

theorem storey_zero : (storey 0).storage = 0 ∧ (storey 0).gateIndex = 2 ∧
    (storey 0).gateMap = (Map.empty.insert 0 (.input 0)).insert 1 (.not 0) ∧ (storey 0).outputMap = Map.empty.insert 0 1 := ⟨rfl, rfl, rfl, rfl⟩

/-! ### the heap -/

/-- the calls that build a tower with `n` storeys above the negation -/
def storeys : Nat → List Op
  | 0 => [.newStorage, .newCircuit 0, .input 0, .not 0 0, .output 0 1, .storeModule 0 0]
  | n + 1 => storeys n ++ [.newCircuit 0, .input (n + 1), .module (n + 1) n [0], .module (n + 1) n [1], .output (n + 1) 2,
      .storeModule 0 (n + 1)]

def storeysStore (n : Nat) : Storage := ⟨fun i => if i < n then some i else none, n⟩

/-- `n` circuits of the tower, and perhaps others -/
def storeysHeap (n : Nat) (cs : List Circuit) : World := ⟨(List.range n).map storey ++ cs, [storeysStore n]⟩

theorem storeysStore_register (n : Nat) : ((storeysStore n).register n).2 = storeysStore (n + 1) := by
  simp only [Storage.register, storeysStore, Storage.mk.injEq, and_true]
  funext i
  simp only [Map.insert]
  split
  · next e => subst e; simp
  · next e =>
    by_cases h : i < n
    · rw [if_pos h, if_pos (by omega)]
    · rw [if_neg h, if_neg (by omega)]

theorem storeysHeap_last (n : Nat) (c : Circuit) : (storeysHeap n [c]).circs[n]? = some c := by
  simp [storeysHeap]

theorem storeysHeap_set (n : Nat) (c d : Circuit) : (storeysHeap n [c]).setC n d = storeysHeap n [d] := by
  simp [storeysHeap, World.setC]

theorem storeysHeap_old {n k : Nat} (h : k < n) (cs : List Circuit) : (storeysHeap n cs).circs[k]? = some (storey k) := by
  simp [storeysHeap, List.getElem?_append_left, h]

theorem storeysHeap_notCalled (n : Nat) (cs : List Circuit) : ¬ Called (storeysHeap n cs) n := by
  rintro ⟨q, c, -, g, nIn, nOut, ids, oi, mid, -, hm⟩
  simp only [World.module?, storeysHeap] at hm
  split at hm
  · cases hm
  · next e =>
    have : c.storage = 0 := by
      have := (List.getElem?_eq_some_iff.mp e).1
      simpa using this
    rw [this] at e
    cases e
    simp only [storeysStore] at hm
    split at hm
    · cases hm; omega
    · cases hm

theorem storeysHeap_module {n k : Nat} (h : k < n) (cs : List Circuit) {c : Circuit} (hc : c.storage = 0) :
    (storeysHeap n cs).module? c k = some k := by
  simp [World.module?, storeysHeap, hc, storeysStore, h]

theorem storeysHeap_call {n : Nat} {c : Circuit} (hc : c.storage = 0) (x : GateId) :
    ((Op.module (n + 1) n [x]).call (storeysHeap (n + 1) [c])).2 = storeysHeap (n + 1) [(c.module (storey n) n [x]).2] := by
  simp only [Op.call, M.bind_apply, CC.module, storeysHeap_last, storeysHeap_module (Nat.lt_succ_self n) _ hc,
    storeysHeap_old (Nat.lt_succ_self n), if_neg (Nat.ne_of_lt (Nat.lt_succ_self n)), storeysHeap_set]
  cases (c.module (storey n) n [x]).1 <;> rfl

theorem storeysHeap_valid {n : Nat} {c : Circuit} (hc : c.storage = 0) (x : GateId) {gate : Gate} (hg : c.gateMap x = some gate) :
    (Op.module (n + 1) n [x]).Valid (storeysHeap (n + 1) [c]) := by
  refine ⟨storeysHeap_notCalled _ _, ?_, ?_⟩
  · intro y hy
    rw [List.mem_singleton.mp hy]
    exact ⟨gate, by simp [World.getGate, World.circuit, storeysHeap_last, hg, bind, Except.bind]⟩
  · intro mc hmc
    have : callee (storeysHeap (n + 1) [c]) (n + 1) n = some (storey n) := by
      simp [callee, storeysHeap_last, storeysHeap_module (Nat.lt_succ_self n) _ hc, storeysHeap_old (Nat.lt_succ_self n)]
    rw [this] at hmc; cases hmc
    exact (storey_one n).inputs.symm

theorem storeys_heap : ∀ n, ValidRun (run (storeys n)) ∧ run (storeys n) = storeysHeap (n + 1) []
  | 0 => by
    constructor
    · exact validRun_of_check _ .nil (by decide)
    · have e0 : Storage.new = storeysStore 0 := by
        simp only [Storage.new, storeysStore, Storage.mk.injEq, and_true]
        funext i
        simp [Map.empty]
      have e1 : run (storeys 0) = ⟨[storey 0], [(Storage.new.register 0).2]⟩ := rfl
      rw [e1, e0, storeysStore_register]
      rfl
  | n + 1 => by
    obtain ⟨hv, e⟩ := storeys_heap n
    have h1 := twice_steps (storey_one n) n
    simp only at h1
    obtain ⟨⟨a1, a2⟩, ⟨b1, b2⟩, h3⟩ := h1
    have hrun : run (storeys (n + 1)) = [Op.newCircuit 0, .input (n + 1), .module (n + 1) n [0], .module (n + 1) n [1],
        .output (n + 1) 2, .storeModule 0 (n + 1)].foldl (fun w op => (op.call w).2) (run (storeys n)) := by
      rw [storeys]; unfold run; rw [List.foldl_append]
    rw [hrun, e]
    rw [e] at hv
    simp only [List.foldl_cons, List.foldl_nil]
    have e1 : ((Op.newCircuit 0).call (storeysHeap (n + 1) [])).2 = storeysHeap (n + 1) [Circuit.new 0] := by
      simp [Op.call, M.bind_apply, CC.newCircuit, storeysHeap, M.pure_apply]
    have v1 := ValidRun.step (.newCircuit 0) hv trivial
    rw [e1] at v1 ⊢
    have e2 : ((Op.input (n + 1)).call (storeysHeap (n + 1) [Circuit.new 0])).2 = storeysHeap (n + 1) [(Circuit.new 0).input.2] := by
      simp [Op.call, M.bind_apply, CC.input, M.onCircuit, storeysHeap_last, storeysHeap_set, M.pure_apply]
    have v2 := ValidRun.step (.input (n + 1)) v1 (storeysHeap_notCalled _ _)
    rw [e2] at v2 ⊢
    have v3 := ValidRun.step (.module (n + 1) n [0]) v2 (storeysHeap_valid a2 0 (gate := .input 0) (by rw [a1]; rfl))
    rw [storeysHeap_call a2] at v3 ⊢
    have v4 := ValidRun.step (.module (n + 1) n [1]) v3 (storeysHeap_valid b2 1 (gate := .module 1 1 [0] 0 n) (by rw [b1]; rfl))
    rw [storeysHeap_call b2] at v4 ⊢
    have e5 : ∀ c, ((Op.output (n + 1) 2).call (storeysHeap (n + 1) [c])).2 = storeysHeap (n + 1) [(c.output 2).2] := by
      intro c
      simp only [Op.call, M.bind_apply, CC.output, M.onCircuit, storeysHeap_last, storeysHeap_set]
      cases (c.output 2).1 <;> rfl
    have v5 := ValidRun.step (.output (n + 1) 2) v4 (storeysHeap_notCalled _ _)
    rw [e5] at v5 ⊢
    have e6 : ∀ c, ((Op.storeModule 0 (n + 1)).call (storeysHeap (n + 1) [c])).2 =
        ⟨(List.range (n + 1)).map storey ++ [c], [storeysStore (n + 2)]⟩ := by
      intro c
      simp only [Op.call, M.bind_apply, CC.storeModule, storeysHeap_last]
      rw [← storeysStore_register]
      rfl
    have v6 := ValidRun.step (.storeModule 0 (n + 1)) v5 trivial
    rw [e6] at v6 ⊢
    have e7 : (⟨(List.range (n + 1)).map storey ++ [storey (n + 1)], [storeysStore (n + 2)]⟩ : World) = storeysHeap (n + 2) [] := by
      rw [storeysHeap, List.append_nil, List.range_succ (n := n + 1), List.map_append]; rfl
    exact ⟨e7 ▸ v6, e7⟩

theorem storeys_length : ∀ n, (storeys n).length = 6 * (n + 1)
  | 0 => rfl
  | n + 1 => by rw [storeys, List.length_append, storeys_length n]; simp; omega

/-! ### what it costs -/

section
variable {n : Nat}

local notation "W" => storeysHeap (n + 1) []

theorem storeys_circ {k : Nat} (h : k ≤ n) : (W).circs[k]? = some (storey k) := storeysHeap_old (by omega) []

theorem storeys_inv {k : Nat} {c : Circuit} (h : (W).circs[k]? = some c) : k ≤ n ∧ c = storey k := by
  have hk : k ≤ n := by
    have := (List.getElem?_eq_some_iff.mp h).1
    simp [storeysHeap] at this; omega
  rw [storeys_circ hk] at h
  exact ⟨hk, (Option.some.inj h).symm⟩

theorem storeys_gates : gates W = 3 * n + 2 := by
  have : ∀ m, ((List.range (m + 1)).map storey |>.map (·.gateIndex)).sum = 3 * m + 2 := by
    intro m
    induction m with
    | zero => rfl
    | succ m ih =>
      rw [List.range_succ, List.map_append, List.map_append, List.sum_append, ih]
      simp [(storey_twice m).index]; omega
  simpa [gates, storeysHeap] using this n

theorem storeys_readable {k i : Nat} {o : GateId} (h : (storey k).outputMap i = some o) : Readable (storey k) i o := by
  refine Or.inl fun g gate hg => ?_
  cases k with
  | zero =>
    rw [storey_zero.2.2.2] at h
    rw [storey_zero.2.2.1] at hg
    simp only [Map.insert, Map.empty] at h hg
    split at h
    · cases h
      split at hg
      · cases hg; simp [Gate.operands]
      · split at hg
        · cases hg; simp [Gate.operands]
        · cases hg
    · cases h
  | succ k =>
    rw [(storey_twice k).output] at h
    rw [(storey_twice k).gate] at hg
    simp only [Map.insert, Map.empty] at h hg
    split at h
    · cases h
      split at hg
      · cases hg; simp [Gate.operands]
      · split at hg
        · cases hg; simp [Gate.operands]
        · split at hg
          · cases hg; simp [Gate.operands]
          · cases hg
    · cases h

theorem storeys_evaluable (hv : ValidRun W) {k : Nat} (hk : k ≤ n) : Evaluable W k := by
  have hb := hv.allBuilt k _ (storeys_circ hk)
  induction hb with
  | mk hc ht hcalls hbs ih =>
    have := (storeys_inv hc).2
    subst this
    refine .mk hc ht (fun i o ho => storeys_readable ho) hcalls fun mr hmr => ?_
    have hb := hbs mr hmr
    cases hb with
    | mk hc' _ _ _ => exact ih mr hmr (storeys_inv hc').1

theorem storeys_effort : ∀ k, k ≤ n → Effort (logic W) W k (2 ^ k)
  | 0, hk => by
    have hc := storeys_circ hk
    have hg := storey_zero.2.2.1
    have g0 : (storey 0).gateMap 0 = some (.input 0) := by rw [hg]; rfl
    have g1 : (storey 0).gateMap 1 = some (.not 0) := by rw [hg]; rfl
    have gn : ∀ g, g ≠ 0 → g ≠ 1 → (storey 0).gateMap g = none := by
      intro g h0 h1; rw [hg]; simp [Map.insert, Map.empty, h0, h1]
    have := Effort.mk (κ := logic W) (gs := [1]) (m := fun _ => 0) hc (by simp) ?_ (fun _ _ _ => rfl) ?_
    · have e : logic W 0 1 = 1 := by simp [logic, hc, g1]
      simpa [e] using this
    · intro g
      constructor
      · intro h
        rw [List.mem_singleton.mp h]
        exact ⟨⟨0, 1, by rw [storey_zero.2.2.2]; rfl, .refl⟩, Or.inr (Or.inl ⟨0, 0, Or.inl g1⟩)⟩
      · rintro ⟨-, h⟩
        by_cases e0 : g = 0
        · subst e0
          simp [IsTask, IsConst, IsLogic, IsCall, g0] at h
        · by_cases e1 : g = 1
          · simp [e1]
          · simp [IsTask, IsConst, IsLogic, IsCall, gn g e0 e1] at h
    · rintro g mr h ⟨_, _, _, _, h2, _⟩
      rw [List.mem_singleton.mp h, g1] at h2
      cases h2
  | k + 1, hk => by
    have ih := storeys_effort k (by omega)
    have hc := storeys_circ hk
    have ht := storey_twice k
    have hg := ht.gate
    have g0 : (storey (k + 1)).gateMap 0 = some (.input 0) := by rw [hg]; rfl
    have g1 : (storey (k + 1)).gateMap 1 = some (.module 1 1 [0] 0 k) := by rw [hg]; rfl
    have g2 : (storey (k + 1)).gateMap 2 = some (.module 1 1 [1] 0 k) := by rw [hg]; rfl
    have gn : ∀ g, g ≠ 0 → g ≠ 1 → g ≠ 2 → (storey (k + 1)).gateMap g = none := by
      intro g h0 h1 h2; rw [hg]; simp [Map.insert, Map.empty, h0, h1, h2]
    have hm : (W).module? (storey (k + 1)) k = some k := storeysHeap_module (by omega) [] ht.storage
    have c1 : IsCall W (storey (k + 1)) 1 k := ⟨_, _, _, _, g1, hm⟩
    have c2 : IsCall W (storey (k + 1)) 2 k := ⟨_, _, _, _, g2, hm⟩
    have ho : (storey (k + 1)).outputMap 0 = some 2 := by rw [ht.output]; rfl
    have := Effort.mk (κ := logic W) (gs := [1, 2]) (m := fun _ => 2 ^ k) hc (by simp) ?_ ?_ ?_
    · have e1 : logic W (k + 1) 1 = 0 := by simp [logic, hc, g1]
      have e2 : logic W (k + 1) 2 = 0 := by simp [logic, hc, g2]
      have e : 2 ^ k + 2 ^ k = 2 ^ (k + 1) := by rw [Nat.pow_succ]; omega
      simpa [e1, e2, e] using this
    · intro g
      constructor
      · intro h
        have h : g = 1 ∨ g = 2 := by simpa using h
        have r2 : Reach (storey (k + 1)) 2 1 := .operand .refl g2 (by simp [Gate.operands])
        rcases h with rfl | rfl
        · exact ⟨⟨0, 2, ho, r2⟩, Or.inr (Or.inr ⟨k, c1⟩)⟩
        · exact ⟨⟨0, 2, ho, .refl⟩, Or.inr (Or.inr ⟨k, c2⟩)⟩
      · rintro ⟨-, h⟩
        by_cases e0 : g = 0
        · subst e0
          simp [IsTask, IsConst, IsLogic, IsCall, g0] at h
        · by_cases e1 : g = 1
          · simp [e1]
          · by_cases e2 : g = 2
            · simp [e2]
            · simp [IsTask, IsConst, IsLogic, IsCall, gn g e0 e1 e2] at h
    · intro g h hno
      have h : g = 1 ∨ g = 2 := by simpa using h
      rcases h with rfl | rfl
      · exact absurd c1 (hno k)
      · exact absurd c2 (hno k)
    · rintro g mr h ⟨_, _, _, _, h2, h3⟩
      have h : g = 1 ∨ g = 2 := by simpa using h
      have : mr = k := by
        rcases h with rfl | rfl
        · rw [g1] at h2; cases h2; rw [hm] at h3; exact (Option.some.inj h3).symm
        · rw [g2] at h2; cases h2; rw [hm] at h3; exact (Option.some.inj h3).symm
      exact this ▸ ih

end

/-! ### memory from the number of gates -/

theorem Spec.Built.space {w : World} {r : Ref} (h : Built w r) : ∀ (s : List Ref), s.Nodup → r ∈ s →
    (∀ x, CallsPlus w r x → x ∈ s) → Space w r (together w s) := by
  have hb := h
  induction h with
  | @mk r c hc ht hcalls hbs ih =>
    intro s hs hr hcl
    refine .mk (m := together w (s.erase r)) hc (fun mr hcall => ?_) ?_
    · have hne : mr ≠ r := by
        rintro rfl
        exact hb.acyclic (.one hc hcall)
      refine ih mr hcall (hbs mr hcall) (s.erase r) (hs.erase r) ((hs.mem_erase_iff).mpr ⟨hne, hcl _ (.one hc hcall)⟩) fun x hx => ?_
      refine (hs.mem_erase_iff).mpr ⟨?_, hcl _ (.step hc hcall hx)⟩
      rintro rfl
      exact hb.acyclic (.step hc hcall hx)
    · have e := together_erase w hr
      have e1 : size w r = c.gateIndex := by simp [size, hc]
      omega

theorem space_of_closed {w : World} {r : Ref} (hb : Built w r) {s : List Ref} (hs : s.Nodup) (hr : r ∈ s) (hcl : Closed w s) :
    Space w r (together w s) := by
  have hsub : ∀ x y, CallsPlus w x y → x ∈ s → y ∈ s := by
    intro x y hxy
    induction hxy with
    | one h1 h2 => intro hx; exact hcl _ hx _ _ h1 h2
    | step h1 h2 _ ih => intro hx; exact ih (hcl _ hx _ _ h1 h2)
  exact hb.space s hs hr fun x hx => hsub r x hx hr

theorem Spec.Built.exist {w : World} {r x : Ref} (h : CallsPlus w r x) (hb : Built w r) : x < w.circs.length := by
  induction h with
  | @one r c x h1 h2 =>
    have hb2 : Built w x := by
      cases hb with
      | mk hc _ _ hbs => rw [h1] at hc; cases hc; exact hbs _ h2
    cases hb2 with
    | mk hc _ _ _ => exact (List.getElem?_eq_some_iff.mp hc).1
  | step h1 h2 _ ih =>
    cases hb with
    | mk hc _ _ hbs => rw [h1] at hc; cases hc; exact ih (hbs _ h2)

theorem Spec.Built.spaced {w : World} {r : Ref} (hb : Built w r) : ∃ N, Space w r N := by
  refine ⟨_, hb.space (List.range w.circs.length) List.nodup_range ?_ fun x hx => List.mem_range.mpr (Built.exist hx hb)⟩
  cases hb with
  | mk hc _ _ _ => exact List.mem_range.mpr (List.getElem?_eq_some_iff.mp hc).1

end CC
