import Verif.Proofs.Account
import Verif.Proofs.Session
import Verif.Proofs.Plays

/-!
# The adder has a gate that nobody reads, and what this does to the circuits that call it
-/

namespace CC
open Spec Arith

/-! ### what a successful program leaves in circuit `s` -/

/-- whenever `x` succeeds in a heap where circuit `s` is `c`, `Q` holds of its result and of circuit `s` afterwards -/
def Does (s : Ref) {α} (x : M α) (c : Circuit) (Q : α → Circuit → Prop) : Prop :=
  ∀ w a w', WFw w → w.circs[s]? = some c → x w = (.ok a, w') → WFw w' ∧ ∃ c', w'.circs[s]? = some c' ∧ Q a c'

namespace Does
variable {s : Ref} {c : Circuit}

theorem pure {α} {a : α} {Q : α → Circuit → Prop} (h : Q a c) : Does s (Pure.pure a) c Q := by
  intro w b w' hw hc hx
  cases hx
  exact ⟨hw, c, hc, h⟩

theorem seq {α β} {x : M α} {f : α → M β} {P : α → Circuit → Prop} {Q : β → Circuit → Prop} (h : Does s x c P)
    (k : ∀ a c', P a c' → Does s (f a) c' Q) : Does s (x >>= f) c Q := by
  intro w b w' hw hc hx
  rw [M.bind_apply] at hx
  rcases e : x w with ⟨a | a, w1⟩
  · rw [e] at hx; cases hx
  · rw [e] at hx
    obtain ⟨hw1, c1, hc1, hp⟩ := h w a w1 hw hc e
    exact k a c1 hp w1 b w' hw1 hc1 hx

theorem idx {α β} {l : List α} {i : Nat} {f : α → M β} {Q : β → Circuit → Prop} (h : ∀ a, l[i]? = some a → Does s (f a) c Q) :
    Does s (M.idx l i >>= f) c Q := by
  refine seq (P := fun a c' => c' = c ∧ l[i]? = some a) ?_ (by rintro a _ ⟨rfl, ha⟩; exact h a ha)
  intro w a w' hw hc hx
  unfold M.idx at hx
  cases e : l[i]? with
  | none => rw [e] at hx; cases hx
  | some b => rw [e] at hx; cases hx; exact ⟨hw, c, hc, rfl, rfl⟩

theorem adds {x : M GateId} {gate : Gate} {d : Circuit} {Q : GateId → Circuit → Prop}
    (hx : ∀ w, w.circs[s]? = some c → x w = (.ok c.gateIndex, w.setC s d)) (hg : Good x) (ha : WFc c → AddsGate c d gate)
    (hq : WFc c → AddsGate c d gate → Q c.gateIndex d) : Does s x c Q := by
  intro w a w' hw hc he
  have h1 := (hg w hw).1
  rw [hx w hc] at he h1
  cases he
  have hwf := hw.circ s c hc
  exact ⟨h1, d, setC_get hc _, hq hwf (ha hwf)⟩

theorem mapList {α β} {f : α → M β} {I : List β → Circuit → Prop} : ∀ (l : List α) {c : Circuit} (acc : List β), I acc c →
    (∀ a ∈ l, ∀ acc c, I acc c → Does s (f a) c fun b c' => I (acc ++ [b]) c') →
    Does s (M.mapList f l) c fun bs c' => I (acc ++ bs) c' ∧ bs.length = l.length
  | [], c, acc, h, _ => pure ⟨by rw [List.append_nil]; exact h, rfl⟩
  | a :: l, c, acc, h, hf => by
    refine seq (hf a (by simp) acc c h) fun b c1 h1 => ?_
    refine seq (mapList l (acc ++ [b]) h1 fun a ha => hf a (by simp [ha])) ?_
    rintro bs c2 ⟨h2, h3⟩
    exact pure ⟨by rw [List.append_assoc] at h2; exact h2, by simp [h3]⟩

theorem foldList {σ α} {f : σ → α → M σ} {I : σ → Circuit → Prop} : ∀ (l : List α) {c : Circuit} (x : σ), I x c →
    (∀ a ∈ l, ∀ x c, I x c → Does s (f x a) c I) → Does s (M.foldList f x l) c I
  | [], c, x, h, _ => pure h
  | a :: l, c, x, h, hf => by
    refine seq (hf a (by simp) x c h) fun y c1 h1 => ?_
    exact foldList l y h1 fun a ha => hf a (by simp [ha])

theorem replicate {α} {x : M α} {I : List α → Circuit → Prop} : ∀ (n : Nat) {c : Circuit} (acc : List α), I acc c →
    (∀ acc c, I acc c → Does s x c fun a c' => I (acc ++ [a]) c') → Does s (M.replicate x n) c fun as c' => I (acc ++ as) c'
  | 0, c, acc, h, _ => pure (by rw [List.append_nil]; exact h)
  | n + 1, c, acc, h, hx => by
    refine seq (hx acc c h) fun b c1 h1 => ?_
    refine seq (replicate n (acc ++ [b]) h1 hx) ?_
    intro bs c2 h2
    exact pure (by rw [List.append_assoc] at h2; exact h2)

end Does

/-! ### a gate that nobody reads -/

/-- no gate is a module gate -/
def Flat (c : Circuit) : Prop := ∀ g a b ids o m, c.gateMap g ≠ some (.module a b ids o m)

/-- logic gate `d` of a circuit without modules is not read and not an output -/
structure Idle (c : Circuit) (d : GateId) : Prop where
  lt : d < c.gateIndex
  logic : IsLogic c d
  unread : Unread c d
  notOut : NotOut c d
  flat : Flat c

theorem Idle.not_needed {c : Circuit} {d : GateId} (h : Idle c d) : ¬ Needed c d := by
  rintro ⟨i, o, ho, hr⟩
  generalize he : d = y at hr
  cases hr with
  | refl => subst he; exact h.notOut i ho
  | operand _ hg hx => subst he; exact h.unread _ _ hg hx
  | sibling _ hg _ => exact h.flat _ _ _ _ _ _ hg

theorem AddsGate.get {c c' : Circuit} {gate : Gate} (h : AddsGate c c' gate) (g : GateId) :
    c'.gateMap g = if g < c.gateIndex then c.gateMap g else if g = c.gateIndex then some gate else none := by
  rw [h.appends.gate]
  split
  · rfl
  · by_cases e : g = c.gateIndex
    · subst e; simp
    · rw [if_neg e, List.getElem?_eq_none]
      simp only [List.length_singleton]; omega

theorem AddsGate.idx {c c' : Circuit} {gate : Gate} (h : AddsGate c c' gate) : c'.gateIndex = c.gateIndex + 1 := h.appends.idx

theorem Flat.adds {c c' : Circuit} {gate : Gate} (h : Flat c) (ha : AddsGate c c' gate) : Flat c' := by
  intro g a b ids o m hg
  rw [ha.get] at hg
  split at hg
  · exact h g a b ids o m hg
  · split at hg
    · exact ha.plain a b ids o m (Option.some.inj hg)
    · cases hg

theorem Idle.adds {c c' : Circuit} {gate : Gate} {d : GateId} (h : Idle c d) (ha : AddsGate c c' gate)
    (hd : d ∉ gate.operands) : Idle c' d := by
  refine ⟨by have := h.lt; rw [ha.idx]; omega, ?_, ?_, ?_, h.flat.adds ha⟩
  · obtain ⟨a, b, hl⟩ := h.logic
    refine ⟨a, b, ?_⟩
    rw [ha.get, if_pos h.lt]; exact hl
  · intro g gt hg
    rw [ha.get] at hg
    split at hg
    · exact h.unread g gt hg
    · split at hg
      · cases hg; exact hd
      · cases hg
  · intro i; rw [ha.appends.outputMap]; exact h.notOut i

theorem Idle.new {c c' : Circuit} {x y : GateId} (hf : Flat c) (h0 : ∀ i, c.outputMap i = none) (ha : AddsGate c c' (.or x y))
    (hun : ∀ g gt, c.gateMap g = some gt → c.gateIndex ∉ gt.operands) (hx : x < c.gateIndex) (hy : y < c.gateIndex) :
    Idle c' c.gateIndex := by
  refine ⟨by rw [ha.idx]; omega, ⟨x, y, .inr (.inr (.inr ?_))⟩, ?_, ?_, hf.adds ha⟩
  · rw [ha.get, if_neg (by omega), if_pos rfl]
  · intro g gt hg
    rw [ha.get] at hg
    split at hg
    · exact hun g gt hg
    · split at hg
      · cases hg
        simp only [Gate.operands, List.mem_cons, List.not_mem_nil, or_false]
        omega
      · cases hg
  · intro i; rw [ha.appends.outputMap, h0]; simp

/-- only earlier gates are read -/
def Low (c : Circuit) : Prop := ∀ g gt, c.gateMap g = some gt → ∀ x ∈ gt.operands, x < c.gateIndex

theorem Low.adds {c c' : Circuit} {gate : Gate} (h : Low c) (ha : AddsGate c c' gate) (hx : ∀ x ∈ gate.operands, x < c.gateIndex) :
    Low c' := by
  intro g gt hg x hxo
  rw [ha.get] at hg
  rw [ha.idx]
  split at hg
  · have := h g gt hg x hxo; omega
  · split at hg
    · cases hg; have := hx x hxo; omega
    · cases hg

section
variable {s : Ref} {c : Circuit} {Q : GateId → Circuit → Prop}

theorem Does.and {x y : GateId} (h : ∀ c', WFc c → AddsGate c c' (.and x y) → Q c.gateIndex c') : Does s (CC.and s x y) c Q :=
  .adds (fun _ hc => and_eq hc x y) (good_and s x y) (fun hw => adds_and hw x y) (fun hw ha => h _ hw ha)

theorem Does.or {x y : GateId} (h : ∀ c', WFc c → AddsGate c c' (.or x y) → Q c.gateIndex c') : Does s (CC.or s x y) c Q :=
  .adds (fun _ hc => or_eq hc x y) (good_or s x y) (fun hw => adds_or hw x y) (fun hw ha => h _ hw ha)

theorem Does.xor {x y : GateId} (h : ∀ c', WFc c → AddsGate c c' (.xor x y) → Q c.gateIndex c') : Does s (CC.xor s x y) c Q :=
  .adds (fun _ hc => xor_eq hc x y) (good_xor s x y) (fun hw => adds_xor hw x y) (fun hw ha => h _ hw ha)

theorem Does.input (h : ∀ c', WFc c → AddsGate c c' (.input c.inputLen) → Q c.gateIndex c') : Does s (CC.input s) c Q :=
  .adds (fun _ hc => input_eq hc) (good_input s) (fun hw => adds_input hw) (fun hw ha => h _ hw ha)

theorem Does.output {g : GateId} {Q : WireId → Circuit → Prop}
    (h : ∀ gate, WFc c → c.gateMap g = some gate →
      Q c.outputLen { c with outputMap := c.outputMap.insert c.outputLen g, outputLen := c.outputLen + 1 }) :
    Does s (CC.output s g) c Q := by
  intro w a w' hw hc hx
  have h1 := (good_output s g w hw).1
  cases e : c.gateMap g with
  | none => rw [output_eq_err hc e] at hx; cases hx
  | some gate =>
    rw [output_eq_ok hc e] at hx h1
    cases hx
    exact ⟨h1, _, setC_get hc _, h gate (hw.circ s c hc) e⟩

/-- a new logic gate beside an idle one -/
theorem Idle.step {d : GateId} {gate : Gate} {c' : Circuit} (h : Idle c d) (ha : AddsGate c c' gate) (hd : ∀ x ∈ gate.operands, x ≠ d) :
    Idle c' d ∧ c.gateIndex ≠ d :=
  ⟨h.adds ha fun hx => hd d hx rfl, by have := h.lt; omega⟩

end

/-! ### the adder -/

theorem mem_of_get {α} {l : List α} {i : Nat} {a : α} (h : l[i]? = some a) : a ∈ l := List.mem_of_getElem? h

/-- `buildAdd` after `sub_circuit` -/
def addBody (n : Nat) (mid : ModuleId) (s : Ref) : M ModuleId := do
  let a ← M.replicate (CC.input s) n
  let b ← M.replicate (CC.input s) n
  let gps ← M.mapList (fun i => do
    let ai ← M.idx a i
    let bi ← M.idx b i
    let g ← CC.and s ai bi
    let p ← CC.or s ai bi
    pure (g, p)) (List.range n)
  let gs := gps.map Prod.fst
  let ps := gps.map Prod.snd
  let c0 ← M.idx gs 0
  let cs ← M.foldList (fun cs i => do
    let pi ← M.idx ps i
    let cPre ← M.idx cs (i - 1)
    let pc ← CC.and s pi cPre
    let gi ← M.idx gs i
    let c ← CC.or s gi pc
    pure (cs ++ [c])) [c0] (rangeFromTo 1 n)
  let a0 ← M.idx a 0
  let b0 ← M.idx b 0
  let s0 ← CC.xor s a0 b0
  let _ ← CC.output s s0
  let _ ← M.mapList (fun i => do
    let ai ← M.idx a i
    let bi ← M.idx b i
    let axb ← CC.xor s ai bi
    let cPre ← M.idx cs (i - 1)
    let o ← CC.xor s axb cPre
    CC.output s o) (rangeFromTo 1 n)
  pure mid

theorem buildAdd_body (r : Ref) (n : Nat) : buildAdd r n = subCircuit r >>= fun p => addBody n p.1 p.2 := rfl

theorem plays_addBody (n : Nat) (mid : ModuleId) (s : Ref) : Plays (addBody n mid s) := by unfold addBody; plays

/-- circuits with inputs only -/
structure OnlyInputs (c : Circuit) (l : List GateId) : Prop where
  flat : Flat c
  out : ∀ i, c.outputMap i = none
  low : Low c
  ids : ∀ x ∈ l, x < c.gateIndex

theorem OnlyInputs.input {c c' : Circuit} {l : List GateId} {k : Nat} (h : OnlyInputs c l) (ha : AddsGate c c' (.input k)) :
    OnlyInputs c' (l ++ [c.gateIndex]) := by
  refine ⟨h.flat.adds ha, fun i => by rw [ha.appends.outputMap]; exact h.out i, h.low.adds ha (by simp [Gate.operands]), ?_⟩
  intro x hx
  rw [ha.idx]
  rcases List.mem_append.mp hx with hx | hx
  · have := h.ids x hx; omega
  · have := List.mem_singleton.mp hx; omega

theorem addBody_idle {s : Ref} {n : Nat} {mid : ModuleId} {st : StoreRef} :
    Does s (addBody n mid s) (Circuit.new st) fun m c => m = mid ∧ ∃ d, Idle c d := by
  unfold addBody
  refine Does.seq (Does.replicate (I := fun l c => OnlyInputs c l) n [] ⟨by simp [Flat, Circuit.new, Map.empty], fun _ => rfl,
    by simp [Low, Circuit.new, Map.empty], by simp⟩ fun acc c h => Does.input fun c' _ ha => h.input ha) fun a c1 h1 => ?_
  refine Does.seq (Does.replicate (I := fun l c => OnlyInputs c (a ++ l)) n []
    (by rw [List.append_nil]; exact h1) fun acc c h => Does.input fun c' _ ha => by
      have := h.input ha; rw [List.append_assoc] at this; exact this) fun b c2 h2 => ?_
  simp only [List.nil_append] at h1 h2
  -- the first pair
  cases n with
  | zero =>
    refine Does.seq (P := fun gps c => gps = []) (Does.pure rfl) ?_
    rintro _ c rfl
    exact Does.idx fun x hx => by simp at hx
  | succ n =>
  have ha := fun (i x : Nat) (h : a[i]? = some x) => h2.ids x (List.mem_append.mpr (.inl (mem_of_get h)))
  have hb := fun (i x : Nat) (h : b[i]? = some x) => h2.ids x (List.mem_append.mpr (.inr (mem_of_get h)))
  have hr : List.range (n + 1) = 0 :: rangeFromTo 1 (n + 1) := by
    rw [List.range_succ_eq_map]; simp [rangeFromTo, Nat.add_comm]
  rw [hr]
  refine Does.seq (P := fun gps c => ∃ d g0 rest, gps = (g0, d) :: rest ∧ Idle c d ∧ c2.gateIndex ≤ d ∧ g0 ≠ d ∧
    ∀ p ∈ rest, p.1 ≠ d ∧ p.2 ≠ d) ?_ ?_
  · unfold M.mapList
    refine Does.seq (P := fun p c => p.1 ≠ p.2 ∧ c2.gateIndex ≤ p.2 ∧ Idle c p.2) ?_ ?_
    · refine Does.idx fun x hx => Does.idx fun y hy => ?_
      refine Does.seq (P := fun g c => AddsGate c2 c (.and x y) ∧ g = c2.gateIndex) (Does.and fun c' _ k => ⟨k, rfl⟩) ?_
      rintro _ c3 ⟨k3, rfl⟩
      refine Does.seq (P := fun g c => WFc c3 ∧ AddsGate c3 c (.or x y) ∧ g = c3.gateIndex) (Does.or fun c' hw k => ⟨hw, k, rfl⟩) ?_
      rintro _ c4 ⟨hw3, k4, rfl⟩
      have hx2 := ha _ _ hx
      have hy2 := hb _ _ hy
      have hlow : Low c3 := h2.low.adds k3 (by
        simp only [Gate.operands, List.mem_cons, List.not_mem_nil, or_false]
        rintro z (rfl | rfl) <;> assumption)
      refine Does.pure ⟨by rw [k3.idx]; simp, by rw [k3.idx]; simp, ?_⟩
      refine Idle.new (h2.flat.adds k3) (fun i => by rw [k3.appends.outputMap]; exact h2.out i) k4
        (fun g gt hg hm => ?_) (by rw [k3.idx]; omega) (by rw [k3.idx]; omega)
      exact Nat.lt_irrefl _ (hlow g gt hg _ hm)
    · rintro ⟨g0, d⟩ c3 ⟨k1, k2, k3⟩
      refine Does.seq (Does.mapList (I := fun acc c => Idle c d ∧ ∀ p ∈ acc, p.1 ≠ d ∧ p.2 ≠ d) _ [] ⟨k3, by simp⟩ ?_) ?_
      · rintro i _ acc c ⟨hi, hacc⟩
        refine Does.idx fun x hx => Does.idx fun y hy => ?_
        have hx2 := ha _ _ hx
        have hy2 := hb _ _ hy
        have hops : ∀ z ∈ [x, y], z ≠ d := by
          simp only [List.mem_cons, List.not_mem_nil, or_false]
          rintro z (rfl | rfl) <;> omega
        refine Does.seq (P := fun g c' => Idle c' d ∧ g ≠ d) (Does.and fun c' _ k => hi.step k hops) ?_
        rintro g c4 ⟨hi4, hg⟩
        refine Does.seq (P := fun g c' => Idle c' d ∧ g ≠ d) (Does.or fun c' _ k => hi4.step k hops) ?_
        rintro p c5 ⟨hi5, hp⟩
        refine Does.pure ⟨hi5, ?_⟩
        intro q hq
        rcases List.mem_append.mp hq with hq | hq
        · exact hacc q hq
        · rw [List.mem_singleton.mp hq]; exact ⟨hg, hp⟩
      · rintro rest c4 ⟨⟨hi, hrest⟩, _⟩
        exact Does.pure ⟨d, g0, rest, rfl, hi, k2, k1, hrest⟩
  rintro _ c3 ⟨d, g0, rest, rfl, hi, hd, hg0, hrest⟩
  have hgs : ∀ (i : Nat) x, (((g0, d) :: rest).map Prod.fst)[i]? = some x → x ≠ d := by
    intro i x hx
    obtain ⟨q, hq, rfl⟩ := List.mem_map.mp (mem_of_get hx)
    rcases List.mem_cons.mp hq with rfl | hq
    · exact hg0
    · exact (hrest q hq).1
  have hps : ∀ (i : Nat) x, 1 ≤ i → (((g0, d) :: rest).map Prod.snd)[i]? = some x → x ≠ d := by
    intro i x h1 hx
    obtain ⟨j, rfl⟩ : ∃ j, i = j + 1 := ⟨i - 1, by omega⟩
    rw [List.map_cons, List.getElem?_cons_succ] at hx
    obtain ⟨q, hq, rfl⟩ := List.mem_map.mp (mem_of_get hx)
    exact (hrest q hq).2
  simp only []
  refine Does.idx fun c0 hc0 => ?_
  have hc0d := hgs _ _ hc0
  refine Does.seq (Does.foldList (I := fun cs c => Idle c d ∧ ∀ x ∈ cs, x ≠ d) _ [c0]
    ⟨hi, by simpa using hc0d⟩ ?_) ?_
  · rintro i hir cs c ⟨hic, hcs⟩
    have hi1 : 1 ≤ i := by
      simp only [rangeFromTo, List.mem_map] at hir
      obtain ⟨j, _, rfl⟩ := hir; omega
    refine Does.idx fun p hp => Does.idx fun q hq => ?_
    have hpd := hps _ _ hi1 hp
    have hqd := hcs _ (mem_of_get hq)
    refine Does.seq (P := fun g c' => Idle c' d ∧ g ≠ d) (Does.and fun c' _ k => hic.step k (by
      simp only [Gate.operands, List.mem_cons, List.not_mem_nil, or_false]; rintro z (rfl | rfl) <;> assumption)) ?_
    rintro pc c4 ⟨hi4, hpc⟩
    refine Does.idx fun gi hgi => ?_
    have hgid := hgs _ _ hgi
    refine Does.seq (P := fun g c' => Idle c' d ∧ g ≠ d) (Does.or fun c' _ k => hi4.step k (by
      simp only [Gate.operands, List.mem_cons, List.not_mem_nil, or_false]; rintro z (rfl | rfl) <;> assumption)) ?_
    rintro o c5 ⟨hi5, ho⟩
    refine Does.pure ⟨hi5, ?_⟩
    intro x hx
    rcases List.mem_append.mp hx with hx | hx
    · exact hcs x hx
    · rw [List.mem_singleton.mp hx]; exact ho
  rintro cs c4 ⟨hi4, hcs⟩
  refine Does.idx fun a0 ha0 => Does.idx fun b0 hb0 => ?_
  have ha0d := ha _ _ ha0
  have hb0d := hb _ _ hb0
  have outs : ∀ {c : Circuit} {g : GateId}, Idle c d → g ≠ d →
      Does s (CC.output s g) c fun _ c' => Idle c' d := by
    intro c g hi hg
    refine Does.output fun gate _ _ => ⟨hi.lt, hi.logic, hi.unread, ?_, hi.flat⟩
    intro i
    simp only [Map.insert_apply]
    split
    · simpa using hg
    · exact hi.notOut i
  refine Does.seq (P := fun g c' => Idle c' d ∧ g ≠ d) (Does.xor fun c' _ k => hi4.step k (by
    simp only [Gate.operands, List.mem_cons, List.not_mem_nil, or_false]; rintro z (rfl | rfl) <;> omega)) ?_
  rintro s0 c5 ⟨hi5, hs0⟩
  refine Does.seq (outs hi5 hs0) fun _ c6 hi6 => ?_
  refine Does.seq (Does.mapList (I := fun _ c => Idle c d) _ [] hi6 ?_) ?_
  · intro i _ acc c hic
    refine Does.idx fun x hx => Does.idx fun y hy => ?_
    have hxd := ha _ _ hx
    have hyd := hb _ _ hy
    refine Does.seq (P := fun g c' => Idle c' d ∧ g ≠ d) (Does.xor fun c' _ k => hic.step k (by
      simp only [Gate.operands, List.mem_cons, List.not_mem_nil, or_false]; rintro z (rfl | rfl) <;> omega)) ?_
    rintro ab c7 ⟨hi7, hab⟩
    refine Does.idx fun q hq => ?_
    have hqd := hcs _ (mem_of_get hq)
    refine Does.seq (P := fun g c' => Idle c' d ∧ g ≠ d) (Does.xor fun c' _ k => hi7.step k (by
      simp only [Gate.operands, List.mem_cons, List.not_mem_nil, or_false]; rintro z (rfl | rfl) <;> assumption)) ?_
    rintro o c8 ⟨hi8, ho⟩
    exact outs hi8 ho
  · rintro _ c7 ⟨hi7, _⟩
    exact Does.pure ⟨rfl, d, hi7⟩

/-- the circuit of the adder has an idle gate -/
theorem buildAdd_idle {r : Ref} {n : Nat} {w w' : World} {mid : ModuleId} (hw : WFw w) (hx : buildAdd r n w = (.ok mid, w')) :
    ∃ c m d, w'.circs[r]? = some c ∧ w'.module? c mid = some w.circs.length ∧ w'.circs[w.circs.length]? = some m ∧ Idle m d ∧
      r < w.circs.length := by
  rw [buildAdd_body] at hx
  cases hr : w.circs[r]? with
  | none =>
    rw [M.bind_apply] at hx
    unfold subCircuit at hx
    rw [hr] at hx; cases hx
  | some c0 =>
  have hrl := lt_of_getElem? hr
  obtain ⟨stor, hs⟩ : ∃ st, w.stores[c0.storage]? = some st := ⟨_, List.getElem?_eq_getElem (hw.store r c0 hr)⟩
  have he := subCircuit_eq hr hs
  have hwf1 := (good_subCircuit r _ hw).1
  rw [bind_ok he] at hx
  rw [he] at hwf1
  simp only at hx hwf1
  obtain ⟨hw', m, hm, e, d, hd⟩ := addBody_idle (n := n) (st := c0.storage) _ _ _ hwf1 (by simp) hx
  have hl := plays_addBody n stor.numModule w.circs.length ⟨w.circs ++ [Circuit.new c0.storage],
    w.stores.set c0.storage (stor.register w.circs.length).2⟩
  rw [hx] at hl
  have hext := (ext_of_later hwf1 hl).2
  obtain ⟨c, hc, hcx⟩ := hext.circs r c0 (by simp only; rw [List.getElem?_append_left hrl]; exact hr)
  obtain ⟨st', hs', hmod⟩ := hext.stores c0.storage (stor.register w.circs.length).2 (by
    simp only; rw [List.getElem?_set_self (lt_of_getElem? hs)])
  refine ⟨c, m, d, hc, ?_, hm, hd, hrl⟩
  unfold World.module?
  rw [hcx.storage, hs']
  refine hmod _ _ ?_
  rw [e]
  simp [Storage.register]

/-! ### circuits that call a circuit with an unneeded gate -/

/-- circuit `r` calls a circuit with a logic gate that its outputs do not need -/
def Wasteful (w : World) (r : Ref) : Prop :=
  ∃ c g mr m d, w.circs[r]? = some c ∧ IsCall w c g mr ∧ w.circs[mr]? = some m ∧ IsLogic m d ∧ ¬ Needed m d

/-- fewer lines than the header counts, whether the call is needed or not -/
theorem Spec.Inlined.wasteful {w : World} (hv : ValidRun w) {r : Ref} {n : Nat} {bs : List Bool} (h : Inlined w r n bs)
    {c : Circuit} (hc : w.circs[r]? = some c) (hw : Wasteful w r) : n < c.numGate := by
  obtain ⟨c', g0, mr0, m0, d, hc', hcall0, hm0, hd, hnd⟩ := hw
  rw [hc] at hc'; cases hc'
  cases h with
  | @mk _ c' own gs n b hc' hown hn hmem hlog hcall =>
    rw [hc] at hc'; cases hc'
    have hwf := hv.wf.circ r c hc
    have hlt : ∀ g ∈ gs, g < c.gateIndex := by
      intro g hg
      rcases ((hmem g).mp hg).2 with h | ⟨mr, h⟩
      · exact IsLogic.lt hwf h
      · exact IsCall.lt hwf h
    have h1 := hv.covers counts_gate hc
    unfold Covers at h1
    have h4 : gateCounter.num c = c.numGate := rfl
    have hle : ∀ g ∈ gs, n g ≤ weight gateCounter w c g := by
      intro g hg
      rcases ((hmem g).mp hg).2 with h | ⟨mr, h⟩
      · rw [(hlog g hg h).1, weight_logic h]; exact Nat.le_refl _
      · have hi := hcall g mr hg h
        obtain ⟨m, hm⟩ := inlined_circ hi
        rw [weight_call h hm]
        exact (hi.bounds hv m hm).1
    have h5 : weight gateCounter w c g0 = m0.numGate := weight_call hcall0 hm0
    by_cases hin : g0 ∈ gs
    · have h6 := (hcall g0 mr0 hin hcall0).dead hv hm0 hd hnd
      have h2 := nodup_sum_le (weight gateCounter w c) c.gateIndex gs hn hlt
      have hp := List.perm_cons_erase hin
      have e1 : (gs.map n).sum = n g0 + ((gs.erase g0).map n).sum := by rw [(hp.map n).sum_nat]; rfl
      have e2 : (gs.map (weight gateCounter w c)).sum = weight gateCounter w c g0 + ((gs.erase g0).map (weight gateCounter w c)).sum := by
        rw [(hp.map _).sum_nat]; rfl
      have h3 : ((gs.erase g0).map n).sum ≤ ((gs.erase g0).map (weight gateCounter w c)).sum :=
        sum_map_le fun g hg => hle g (List.mem_of_mem_erase hg)
      omega
    · have h2 := nodup_sum_le (weight gateCounter w c) c.gateIndex (g0 :: gs) (List.nodup_cons.mpr ⟨hin, hn⟩) (by
        intro x hx
        rcases List.mem_cons.mp hx with rfl | h
        · exact IsCall.lt hwf hcall0
        · exact hlt x h)
      rw [List.map_cons, List.sum_cons, h5] at h2
      have h3 := sum_map_le hle
      have h6 : 1 ≤ m0.numGate := by
        have h7 := hv.covers counts_gate hm0
        unfold Covers at h7
        have h8 := nodup_sum_le (weight gateCounter w m0) m0.gateIndex [d] (by simp) (by
          simpa using IsLogic.lt (hv.wf.circ mr0 m0 hm0) hd)
        simp only [List.map_cons, List.map_nil, List.sum_cons, List.sum_nil, weight_logic hd] at h8
        have h9 : gateCounter.num m0 = m0.numGate := rfl
        omega
      omega

/-- the configuration starts with the adder, whose circuit then stays -/
theorem intConfig_first {w w' : World} {r : Ref} {n : Nat} {cfg : IntConfig} (hw : WFw w) (h : IntConfig.new r n w = (.ok cfg, w')) :
    ∃ w1, buildAdd r n w = (.ok cfg.addMid, w1) ∧ After w1 w' := by
  obtain ⟨c0, hr⟩ := intConfig_circ h
  have hn := intConfig_pos h
  have hN := Nat.le_refl w.circs.length
  obtain ⟨m1, w1, e1, a1, o1⟩ := buildAdd_ok hw hr hN hn
  have hr1 := a1.keeps.circ r c0 trivial hr
  have hN1 := Nat.le_trans hN a1.length
  obtain ⟨m2, w2, e2, a2, o2⟩ := buildSub_ok a1.wf hr1 hN1 hn o1
  have hr2 := a2.keeps.circ r c0 trivial hr1
  have hN2 := Nat.le_trans hN1 a2.length
  obtain ⟨m3, w3, e3, a3, o3⟩ := buildMul_ok a2.wf hr2 hN2 (a2.modOk o1)
  have hr3 := a3.keeps.circ r c0 trivial hr2
  have hN3 := Nat.le_trans hN2 a3.length
  obtain ⟨m4, w4, e4, a4, o4⟩ := buildEq_ok a3.wf hr3 hN3 n
  have hr4 := a4.keeps.circ r c0 trivial hr3
  have hN4 := Nat.le_trans hN3 a4.length
  obtain ⟨m5, w5, e5, a5, o5⟩ := buildNeq_ok a4.wf hr4 hN4 n o4
  have hr5 := a5.keeps.circ r c0 trivial hr4
  have hN5 := Nat.le_trans hN4 a5.length
  obtain ⟨m6, w6, e6, a6, o6⟩ := buildLess_ok a5.wf hr5 hN5 hn (a5.modOk (a4.modOk (a3.modOk o2)))
  have hr6 := a6.keeps.circ r c0 trivial hr5
  have hN6 := Nat.le_trans hN5 a6.length
  obtain ⟨m7, w7, e7, a7, o7⟩ := buildLessOrEq_ok (g := fun a b => a == b) a6.wf hr6 hN6 n o6 (a6.modOk (a5.modOk o4))
  have hr7 := a7.keeps.circ r c0 trivial hr6
  have hN7 := Nat.le_trans hN6 a7.length
  obtain ⟨m8, w8, e8, a8, o8⟩ := buildLarger_ok a7.wf hr7 hN7 n o7
  have hr8 := a8.keeps.circ r c0 trivial hr7
  have hN8 := Nat.le_trans hN7 a8.length
  obtain ⟨m9, w9, e9, a9, o9⟩ := buildLargerOrEq_ok a8.wf hr8 hN8 n (a8.modOk (a7.modOk o6))
  unfold IntConfig.new at h
  rw [bind_ok e1, bind_ok e2, bind_ok e3, bind_ok e4, bind_ok e5, bind_ok e6, bind_ok e7, bind_ok e8, bind_ok e9] at h
  cases h
  exact ⟨w1, e1, ((((((a2.trans a3).trans a4).trans a5).trans a6).trans a7).trans a8).trans a9⟩

/-- an addition leaves the circuit wasteful, whatever is done later with circuits other than the modules of the configuration -/
theorem add_wasteful {w0 w1 w w' w2 : World} {r : Ref} {n : Nat} {cfg : IntConfig} (hm : Made (IntConfig.new r n) cfg w0 w1 w)
    {x y z : AInt} (hx : x.config = cfg) (hr : x.add y w = (.ok z, w')) (hl : Later w' w2) (hs : Since w0 w1 w2) :
    Wasteful w2 r := by
  have hw0 := WFw.of_reachable hm.reachable
  obtain ⟨wa, ea, ha⟩ := intConfig_first hw0 hm.made
  obtain ⟨c, m, d, hc, hmod, hmc, hd, hrl⟩ := buildAdd_idle hw0 ea
  have hc1 := ha.keeps.circ r c trivial hc
  have hmc1 := ha.keeps.circ _ m trivial hmc
  have hmod1 := ha.keeps.module? (c := c) hmod
  obtain ⟨ct, hat⟩ := int_session hm.reachable hm.made hm.since
  have hk := hm.since.keeps ha.wf
  have hmcw := hk.circ _ m (Nat.le_refl _) hmc1
  obtain ⟨hww, hew⟩ := ext_of_later ha.wf hm.since.later
  obtain ⟨cw, hcw, hcx⟩ := hew.circs r c hc1
  have hmodw := hew.module? hcx.storage hmod1
  -- the call
  unfold AInt.add at hr
  rw [M.bind_apply, hx, hat.cref] at hr
  obtain ⟨hroom, hlen⟩ : m.inputLen + m.outputLen ≤ m.numWire ∧ 1 ≤ m.outputLen := by
    obtain ⟨mr, mc, stor, q1, q2, _, q4, q5, q6, q7, _⟩ := hat.ok.add
    have e : ct = cw := Option.some.inj (hat.circ.symm.trans hcw)
    subst e
    have : mr = w0.circs.length := by
      unfold World.module? at hmodw
      rw [q1] at hmodw
      exact Option.some.inj (q2.symm.trans hmodw)
    subst this
    cases hmcw.symm.trans q4
    have := hat.pos
    omega
  obtain ⟨c', e1, e2⟩ := module_eq_ok (hww.circ r cw hcw) hcw hmodw (by omega) hmcw hroom (x.val ++ y.val)
  have e3 : M.expect (module r cfg.addMid (x.val ++ y.val)) w = (.ok (List.range' cw.gateIndex m.outputLen), w.setC r c') := by
    unfold M.expect; rw [e1]
  rw [e3] at hr
  cases hr
  have hw' : WFw (w.setC r c') := by have := (good_module r cfg.addMid (x.val ++ y.val) w hww).1; rw [e1] at this; exact this
  obtain ⟨_, he2⟩ := ext_of_later hw' hl
  obtain ⟨c2, hc2, hx2⟩ := he2.circs r c' (setC_get hcw c')
  refine ⟨c2, cw.gateIndex, w0.circs.length, m, d, hc2, ⟨m.inputLen, m.outputLen, x.val ++ y.val, cfg.addMid, hx2.gates _ _ ?_, ?_⟩,
    (hs.keeps ha.wf).circ _ m (Nat.le_refl _) hmc1, hd.logic, hd.not_needed⟩
  · have := e2.appends.gate cw.gateIndex
    rw [if_neg (by omega), Nat.sub_self, moduleGates_get, if_pos (by omega)] at this
    exact this
  · refine he2.module? hx2.storage ?_
    rw [← hmodw]
    exact World.module?_congr rfl e2.appends.storage _

end CC
