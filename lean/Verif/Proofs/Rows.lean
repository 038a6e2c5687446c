import Verif.Proofs.Spoil
import Verif.Spec.LastOutputs

/-!
# The circuits of the bitwise operations, gate by gate
-/

namespace CC
open Spec Logic Arith

/-! ### circuits with one gate per output -/

/-- `a` inputs, then `k` logic gates that read inputs, which are the outputs -/
structure Rows (c : Circuit) (a k : Nat) : Prop where
  inputLen : c.inputLen = a
  idx : c.gateIndex = a + k
  outputLen : c.outputLen = k
  numConst : c.numConst = 0
  numGate : c.numGate = k
  low : ∀ g, g < a → ∃ i, c.gateMap g = some (.input i)
  row : ∀ i, i < k → IsLogic c (a + i) ∧ ∃ gate, c.gateMap (a + i) = some gate ∧ ∀ x ∈ gate.operands, x < a
  out : ∀ i, i < k → c.outputMap i = some (a + i)

theorem Rows.new (st : StoreRef) : Rows (Circuit.new st) 0 0 :=
  ⟨rfl, rfl, rfl, rfl, rfl, fun _ h => (Nat.not_lt_zero _ h).elim, fun _ h => (Nat.not_lt_zero _ h).elim,
    fun _ h => (Nat.not_lt_zero _ h).elim⟩

section
variable {c : Circuit} {a k : Nat} (h : Rows c a k) (hwf : WFc c)
include h hwf

theorem Rows.out_lt {i : Nat} {o : GateId} (ho : c.outputMap i = some o) : i < k ∧ o = a + i := by
  have hi : i < k := by have := (hwf.output_dom i).mp (by rw [ho]; rfl); rw [h.outputLen] at this; exact this
  have := h.out i hi
  rw [ho] at this
  exact ⟨hi, Option.some.inj this⟩

omit hwf in
theorem Rows.reach_low {x y : GateId} (hx : x < a) (hr : Reach c x y) : y = x := by
  induction hr with
  | refl => rfl
  | operand _ hg hm ih =>
    obtain ⟨i, hi⟩ := h.low x hx
    rw [ih, hi] at hg
    cases hg
    simp [Gate.operands] at hm
  | sibling _ hg _ ih =>
    obtain ⟨i, hi⟩ := h.low x hx
    rw [ih, hi] at hg
    cases hg

theorem Rows.tidy : TidyOutputs c := by
  refine ⟨fun i o ho => ?_, fun i j o hi hj => ?_, fun i j o p gate x ho hp hg hx hr => ?_⟩
  · obtain ⟨hi, rfl⟩ := h.out_lt hwf ho
    exact (h.row i hi).1
  · have h1 := (h.out_lt hwf hi).2
    have h2 := (h.out_lt hwf hj).2
    omega
  · obtain ⟨hi, rfl⟩ := h.out_lt hwf ho
    obtain ⟨hj, rfl⟩ := h.out_lt hwf hp
    obtain ⟨_, gate', hg', hlow⟩ := h.row j hj
    rw [hg] at hg'
    cases hg'
    have hxa := hlow x hx
    have := h.reach_low hxa hr
    omega

theorem Rows.logic {g : GateId} (hg : IsLogic c g) : ∃ i, i < k ∧ g = a + i := by
  obtain ⟨p, q, hl⟩ := hg
  have hlt : g < a + k := by
    rw [← h.idx]
    rcases hl with e | e | e | e <;> exact hwf.lt_of_some e
  by_cases hga : g < a
  · obtain ⟨i, hi⟩ := h.low g hga
    rw [hi] at hl
    simp at hl
  · exact ⟨g - a, by omega, by omega⟩

theorem Rows.noCall {w : World} {g : GateId} {mr : Ref} (hg : IsCall w c g mr) : False := by
  obtain ⟨nIn, nOut, ids, mid, hg, _⟩ := hg
  have hlt := hwf.lt_of_some hg
  rw [h.idx] at hlt
  by_cases hga : g < a
  · obtain ⟨i, hi⟩ := h.low g hga
    rw [hi] at hg; cases hg
  · obtain ⟨⟨p, q, hl⟩, _⟩ := h.row (g - a) (by omega)
    rw [show a + (g - a) = g by omega, hg] at hl
    simp at hl

theorem Rows.noConst : OwnConsts c [] := by
  refine ⟨[], .nil, fun g => ⟨fun hg => (List.not_mem_nil hg).elim, ?_⟩, trivial⟩
  rintro ⟨v, hv⟩
  have h1 := (hwf.const_iff g).mpr ⟨v, hv⟩
  have h2 := hwf.consts
  rw [h.numConst] at h2
  rw [List.eq_nil_of_length_eq_zero (Nat.le_zero.mp h2)] at h1
  cases h1

theorem Rows.inlined {w : World} {r : Ref} (hc : w.circs[r]? = some c) : Inlined w r k [] := by
  have := Inlined.mk (w := w) (List.range' a k) (fun _ => 1) (fun _ => []) hc (h.noConst hwf) List.nodup_range' (fun g => ?_)
    (fun g _ _ => ⟨rfl, rfl⟩) (fun g mr _ hg => (h.noCall hwf hg).elim)
  · have e1 : ((List.range' a k).map fun _ => 1).sum = k := by simp [List.map_const']
    have e2 : (List.range' a k).flatMap (fun _ => ([] : List Bool)) = [] := by simp
    rw [e1, e2] at this
    exact this
  · rw [List.mem_range'_1]
    constructor
    · rintro ⟨h1, h2⟩
      have e : a + (g - a) = g := by omega
      have hr := h.row (g - a) (by omega)
      have ho := h.out (g - a) (by omega)
      rw [e] at hr ho
      exact ⟨⟨_, g, ho, .refl⟩, .inl hr.1⟩
    · rintro ⟨_, hl | ⟨mr, hg⟩⟩
      · obtain ⟨i, hi, rfl⟩ := h.logic hwf hl
        omega
      · exact (h.noCall hwf hg).elim

theorem Rows.last {w : World} {r : Ref} (hc : w.circs[r]? = some c) : LastOutputs w r := .gates hc (h.tidy hwf)

end

/-! ### building them -/

theorem Rows.input {c c' : Circuit} {a : Nat} (h : Rows c a 0) (ha : AddsGate c c' (.input c.inputLen)) : Rows c' (a + 1) 0 := by
  have e1 := h.idx
  refine ⟨?_, ?_, ?_, ?_, ?_, fun g hg => ?_, fun i hi => ?_, fun i hi => ?_⟩
  · rw [ha.inputLen, h.inputLen]; rfl
  · rw [ha.idx, e1]
  · rw [ha.appends.outputLen, h.outputLen]
  · rw [ha.numConst, h.numConst]; rfl
  · rw [ha.numGate, h.numGate]; rfl
  · rw [ha.get]
    by_cases hga : g < a
    · rw [if_pos (by omega)]; exact h.low g hga
    · rw [if_neg (by omega), if_pos (by omega)]; exact ⟨_, rfl⟩
  · omega
  · omega

/-- one more gate, which becomes an output -/
theorem Rows.gate {c c' : Circuit} {a k : Nat} {gate : Gate} (h : Rows c a k) (ha : AddsGate c c' gate)
    (hl : ∃ p q, gate = .not p ∨ gate = .xor p q ∨ gate = .and p q ∨ gate = .or p q) (hx : ∀ x ∈ gate.operands, x < a) :
    Rows { c' with outputMap := c'.outputMap.insert c'.outputLen c.gateIndex, outputLen := c'.outputLen + 1 } a (k + 1) := by
  have e1 := h.idx
  have e2 : gate.isLogic = 1 ∧ gate.isConst = 0 ∧ gate.isInput = 0 := by
    obtain ⟨p, q, rfl | rfl | rfl | rfl⟩ := hl <;> exact ⟨rfl, rfl, rfl⟩
  have e3 : c'.outputLen = k := by rw [ha.appends.outputLen, h.outputLen]
  have hold : ∀ g, g < a + k → c'.gateMap g = c.gateMap g := fun g hg => by rw [ha.get, if_pos (by omega)]
  have hnew : c'.gateMap (a + k) = some gate := by rw [ha.get, if_neg (by omega), if_pos (by omega)]
  refine ⟨?_, ?_, ?_, ?_, ?_, fun g hg => ?_, fun i hi => ?_, fun i hi => ?_⟩
  · show c'.inputLen = a
    rw [ha.inputLen, h.inputLen, e2.2.2]; rfl
  · show c'.gateIndex = _
    rw [ha.idx, e1]; omega
  · show c'.outputLen + 1 = _
    rw [e3]
  · show c'.numConst = 0
    rw [ha.numConst, h.numConst, e2.2.1]
  · show c'.numGate = _
    rw [ha.numGate, h.numGate, e2.1]
  · show ∃ i, c'.gateMap g = _
    rw [hold g (by omega)]
    exact h.low g hg
  · by_cases hik : i < k
    · obtain ⟨⟨p, q, hl⟩, h2⟩ := h.row i hik
      rw [← hold _ (by omega)] at hl h2
      exact ⟨⟨p, q, hl⟩, h2⟩
    · obtain rfl : i = k := by omega
      refine ⟨?_, gate, hnew, hx⟩
      obtain ⟨p, q, hl⟩ := hl
      refine ⟨p, q, ?_⟩
      show c'.gateMap (a + i) = _ ∨ _
      rw [show c'.gateMap (a + i) = some gate from hnew]
      rcases hl with rfl | rfl | rfl | rfl <;> simp
  · show (c'.outputMap.insert c'.outputLen c.gateIndex) i = _
    rw [Map.insert_apply, e3, e1]
    by_cases hik : i = k
    · rw [if_pos hik, hik]
    · rw [if_neg hik, ha.appends.outputMap]
      exact h.out i (by omega)

section
variable {s : Ref}

theorem does_inputs : ∀ (n : Nat) {a : Nat} {c : Circuit}, Rows c a 0 →
    Does s (M.replicate (CC.input s) n) c fun l c' => l = List.range' a n ∧ Rows c' (a + n) 0
  | 0, a, c, h => .pure ⟨rfl, h⟩
  | n + 1, a, c, h => by
    refine .seq (P := fun g c' => g = a ∧ Rows c' (a + 1) 0) (.input fun c' _ ha => ⟨h.idx, h.input ha⟩) ?_
    rintro g c1 ⟨rfl, h1⟩
    refine .seq (does_inputs n h1) ?_
    rintro l c2 ⟨rfl, h2⟩
    refine .pure ⟨by rw [List.range'_succ], ?_⟩
    rw [show g + (n + 1) = g + 1 + n by omega]
    exact h2

theorem Does.not {c : Circuit} {x : GateId} {Q : GateId → Circuit → Prop} (h : ∀ c', WFc c → AddsGate c c' (.not x) → Q c.gateIndex c') :
    Does s (CC.not s x) c Q :=
  .adds (fun _ hc => not_eq hc x) (good_not s x) (fun hw => adds_not hw x) (fun hw ha => h _ hw ha)

/-- a gate and an output for it -/
theorem does_row {c : Circuit} {a k : Nat} {x : M GateId} {gate : Gate} (h : Rows c a k)
    (hx : Does s x c fun g c' => g = c.gateIndex ∧ AddsGate c c' gate)
    (hl : ∃ p q, gate = .not p ∨ gate = .xor p q ∨ gate = .and p q ∨ gate = .or p q) (hlow : ∀ x ∈ gate.operands, x < a) :
    Does s (x >>= fun g => CC.output s g) c fun _ c' => Rows c' a (k + 1) := by
  refine .seq hx ?_
  rintro g c1 ⟨rfl, ha⟩
  exact .output fun _ _ _ => h.gate ha hl hlow

/-- a row for each `i` -/
theorem does_rows {c : Circuit} {a n : Nat} {f : Nat → M WireId} (h : Rows c a 0)
    (hf : ∀ i k c, i < n → Rows c a k → Does s (f i) c fun _ c' => Rows c' a (k + 1)) :
    Does s (M.mapList f (List.range n)) c fun _ c' => Rows c' a n := by
  have := Does.mapList (s := s) (f := f) (I := fun (acc : List WireId) c => Rows c a acc.length) (List.range n) [] h
    fun i hi acc c hc => by
      have := hf i _ c (List.mem_range.mp hi) hc
      intro w b w' h1 h2 h3
      obtain ⟨k1, c', k2, k3⟩ := this w b w' h1 h2 h3
      exact ⟨k1, c', k2, by simpa using k3⟩
  intro w b w' h1 h2 h3
  obtain ⟨k1, c', k2, k3, k4⟩ := this w b w' h1 h2 h3
  refine ⟨k1, c', k2, ?_⟩
  simp only [List.nil_append, k4, List.length_range] at k3
  exact k3

end

/-- a program that makes a sub circuit and works in it -/
theorem sub_does {r : Ref} {w w' : World} {mid : ModuleId} {body : ModuleId → Ref → M ModuleId} {P : Circuit → Prop} (hw : WFw w)
    (hx : (subCircuit r >>= fun p => body p.1 p.2) w = (.ok mid, w')) (hp : ∀ m s, Plays (body m s))
    (hd : ∀ m s st, Does s (body m s) (Circuit.new st) fun m' c => m' = m ∧ P c) :
    ∃ c m, w'.circs[r]? = some c ∧ w'.module? c mid = some w.circs.length ∧ w'.circs[w.circs.length]? = some m ∧ P m ∧
      r < w.circs.length := by
  cases hr : w.circs[r]? with
  | none =>
    rw [M.bind_apply] at hx
    unfold subCircuit at hx
    rw [hr] at hx; cases hx
  | some c0 =>
  have hrl := lt_of_getElem? hr
  obtain ⟨stor, hs⟩ : ∃ st, w.stores[c0.storage]? = some st := ⟨_, List.getElem?_eq_getElem (hw.store r c0 hr)⟩
  have he := subCircuit_eq hr hs
  have hwf1 := (good_subCircuit r _ hw).1
  rw [bind_ok he] at hx
  rw [he] at hwf1
  simp only at hx hwf1
  obtain ⟨hw', m, hm, e, hd⟩ := hd _ _ c0.storage _ _ _ hwf1 (by simp) hx
  have hl := hp stor.numModule w.circs.length ⟨w.circs ++ [Circuit.new c0.storage],
    w.stores.set c0.storage (stor.register w.circs.length).2⟩
  rw [hx] at hl
  have hext := (ext_of_later hwf1 hl).2
  obtain ⟨c, hc, hcx⟩ := hext.circs r c0 (by simp only; rw [List.getElem?_append_left hrl]; exact hr)
  obtain ⟨st', hs', hmod⟩ := hext.stores c0.storage (stor.register w.circs.length).2 (by
    simp only; rw [List.getElem?_set_self (lt_of_getElem? hs)])
  refine ⟨c, m, hc, ?_, hm, hd, hrl⟩
  unfold World.module?
  rw [hcx.storage, hs']
  refine hmod _ _ ?_
  rw [e]
  simp [Storage.register]

/-! ### the modules of the bitwise operations -/

/-- module `mid` of circuit `r` is a circuit of this kind -/
def HasRows (w : World) (r : Ref) (mid : ModuleId) (a k : Nat) : Prop :=
  ∃ c mr m, w.circs[r]? = some c ∧ w.module? c mid = some mr ∧ mr ≠ r ∧ w.circs[mr]? = some m ∧ Rows m a k

theorem HasRows.on {w w' : World} {r : Ref} {mid : ModuleId} {a k : Nat} (hw : WFw w) (h : HasRows w r mid a k) (ho : On r w w') :
    HasRows w' r mid a k := by
  obtain ⟨c, mr, m, h1, h2, h3, h4, h5⟩ := h
  obtain ⟨_, he⟩ := ext_of_later hw ho.later
  obtain ⟨c', hc', hx⟩ := he.circs r c h1
  exact ⟨c', mr, m, hc', he.module? hx.storage h2, h3, ho.other h3 h4, h5⟩

theorem HasRows.after {w w' : World} {r : Ref} {mid : ModuleId} {a k : Nat} (h : HasRows w r mid a k) (ha : After w w') :
    HasRows w' r mid a k := by
  obtain ⟨c, mr, m, h1, h2, h3, h4, h5⟩ := h
  exact ⟨c, mr, m, ha.keeps.circ _ _ trivial h1, ha.keeps.module? h2, h3, ha.keeps.circ _ _ trivial h4, h5⟩

theorem get_range' {a n i : Nat} {x : Nat} (h : (List.range' a n)[i]? = some x) : x < a + n := by
  have := List.mem_range'_1.mp (List.mem_of_getElem? h)
  omega

theorem rows_not {r : Ref} {n : Nat} {w w' : World} {mid : ModuleId} (hw : WFw w) (hx : buildNot r n w = (.ok mid, w')) :
    HasRows w' r mid n n := by
  obtain ⟨c, m, h1, h2, h3, h4, h5⟩ := sub_does (P := fun c => Rows c n n) (body := fun mid s => do
      let a ← M.replicate (CC.input s) n
      let _ ← M.mapList (fun i => do
        let ai ← M.idx a i
        let out ← CC.not s ai
        CC.output s out) (List.range n)
      pure mid) hw hx (fun m s => by plays) fun m s st => by
    refine .seq (does_inputs n (Rows.new st)) ?_
    rintro a c1 ⟨rfl, h1⟩
    rw [Nat.zero_add] at h1
    refine .seq (does_rows (n := n) h1 fun i k c hi hc => .idx fun x hx => ?_) fun _ c2 h2 => .pure ⟨rfl, h2⟩
    have := get_range' hx
    exact does_row (gate := .not x) hc (.not fun c' _ ha => ⟨rfl, ha⟩) ⟨x, x, .inl rfl⟩ (by simp [Gate.operands]; omega)
  exact ⟨c, _, m, h1, h2, by omega, h3, h4⟩

theorem rows_bin {r : Ref} {n : Nat} {w w' : World} {mid : ModuleId} {f : Ref → GateId → GateId → M GateId} (mk : GateId → GateId → Gate)
    (hp : ∀ s x y, Plays (f s x y)) (hf : ∀ {s c x y}, Does s (f s x y) c fun g c' => g = c.gateIndex ∧ AddsGate c c' (mk x y))
    (hl : ∀ x y, ∃ p q, mk x y = .not p ∨ mk x y = .xor p q ∨ mk x y = .and p q ∨ mk x y = .or p q)
    (ho : ∀ x y, (mk x y).operands = [x, y]) (hw : WFw w) (hx : (do
      let (mid, s) ← subCircuit r
      let a ← M.replicate (CC.input s) n
      let b ← M.replicate (CC.input s) n
      let _ ← M.mapList (fun i => do
        let ai ← M.idx a i
        let bi ← M.idx b i
        let out ← f s ai bi
        CC.output s out) (List.range n)
      pure mid : M ModuleId) w = (.ok mid, w')) : HasRows w' r mid (n + n) n := by
  obtain ⟨c, m, h1, h2, h3, h4, h5⟩ := sub_does (P := fun c => Rows c (n + n) n) (body := fun mid s => do
      let a ← M.replicate (CC.input s) n
      let b ← M.replicate (CC.input s) n
      let _ ← M.mapList (fun i => do
        let ai ← M.idx a i
        let bi ← M.idx b i
        let out ← f s ai bi
        CC.output s out) (List.range n)
      pure mid) hw hx (fun m s => by have := hp s; plays; exact this _ _) fun m s st => by
    refine .seq (does_inputs n (Rows.new st)) ?_
    rintro a c1 ⟨rfl, h1⟩
    refine .seq (does_inputs n h1) ?_
    rintro b c2 ⟨rfl, h2⟩
    rw [Nat.zero_add] at h2
    refine .seq (does_rows (n := n) h2 fun i k c hi hc => .idx fun x hx => .idx fun y hy => ?_) fun _ c2 h2 => .pure ⟨rfl, h2⟩
    have hx := get_range' hx
    have hy := get_range' hy
    refine does_row hc hf (hl x y) ?_
    rw [ho]
    simp only [List.mem_cons, List.not_mem_nil, or_false]
    rintro z (rfl | rfl) <;> omega
  exact ⟨c, _, m, h1, h2, by omega, h3, h4⟩

/-- the four bitwise modules of the configuration -/
theorem bits_rows {r : Ref} {n : Nat} {w w' : World} {cfg : BitsConfig} (hw : WFw w) (h : BitsConfig.new r n w = (.ok cfg, w')) :
    After w w' ∧ cfg.cref = r ∧ HasRows w' r cfg.notMid n n ∧ HasRows w' r cfg.andMid (n + n) n ∧
      HasRows w' r cfg.orMid (n + n) n ∧ HasRows w' r cfg.xorMid (n + n) n := by
  obtain ⟨c0, hr⟩ := bitsConfig_circ h
  have hN := Nat.zero_le w.circs.length
  obtain ⟨m1, w1, e1, a1, o1⟩ := buildNot_ok hw hr hN n
  have hr1 := a1.keeps.circ r c0 trivial hr
  have hN1 := Nat.le_trans hN a1.length
  obtain ⟨m2, w2, e2, a2, o2⟩ := buildAnd_ok a1.wf hr1 hN1 n
  have hr2 := a2.keeps.circ r c0 trivial hr1
  have hN2 := Nat.le_trans hN1 a2.length
  obtain ⟨m3, w3, e3, a3, o3⟩ := buildOr_ok a2.wf hr2 hN2 n
  have hr3 := a3.keeps.circ r c0 trivial hr2
  have hN3 := Nat.le_trans hN2 a3.length
  obtain ⟨m4, w4, e4, a4, o4⟩ := buildXor_ok a3.wf hr3 hN3 n
  have hr4 := a4.keeps.circ r c0 trivial hr3
  have hN4 := Nat.le_trans hN3 a4.length
  obtain ⟨m5, w5, e5, a5, o5⟩ := buildEq_ok a4.wf hr4 hN4 n
  have hr5 := a5.keeps.circ r c0 trivial hr4
  have hN5 := Nat.le_trans hN4 a5.length
  obtain ⟨m6, w6, e6, a6, o6⟩ := buildNeq_ok a5.wf hr5 hN5 n o5
  have h0 : BitsConfig.new r n w = (.ok { cref := r, notMid := m1, andMid := m2, orMid := m3, xorMid := m4, eqMid := m5, neqMid := m6 }, w6) := by
    unfold BitsConfig.new
    rw [bind_ok e1, bind_ok e2, bind_ok e3, bind_ok e4, bind_ok e5, bind_ok e6]; rfl
  rw [h] at h0
  cases h0
  have t4 := a5.trans a6
  have t3 := a4.trans t4
  have t2 := a3.trans t3
  have t1 := a2.trans t2
  refine ⟨a1.trans t1, rfl, (rows_not hw e1).after t1, ?_, ?_, ?_⟩
  · exact (rows_bin .and plays_and (.and fun c' _ ha => ⟨rfl, ha⟩) (fun x y => ⟨x, y, by simp⟩) (fun _ _ => rfl) a1.wf e2).after t2
  · exact (rows_bin .or plays_or (.or fun c' _ ha => ⟨rfl, ha⟩) (fun x y => ⟨x, y, by simp⟩) (fun _ _ => rfl) a2.wf e3).after t3
  · exact (rows_bin .xor plays_xor (.xor fun c' _ ha => ⟨rfl, ha⟩) (fun x y => ⟨x, y, by simp⟩) (fun _ _ => rfl) a3.wf e4).after t4

/-! ### a circuit with one call -/

/-- `a` inputs, then one call with `k` outputs, of which the first `j` are declared as outputs -/
structure OneCall (c : Circuit) (a k : Nat) (ids : List GateId) (mid : ModuleId) (j : Nat) : Prop where
  inputLen : c.inputLen = a
  idx : c.gateIndex = a + k
  outputLen : c.outputLen = j
  numConst : c.numConst = 0
  numGate : c.numGate = k
  low : ∀ g, g < a → ∃ i, c.gateMap g = some (.input i)
  call : ∀ i, i < k → c.gateMap (a + i) = some (.module a k ids i mid)
  out : ∀ i, i < j → c.outputMap i = some (a + i)

theorem OneCall.last {w : World} {r : Ref} {c : Circuit} {a k : Nat} {ids : List GateId} {mid : ModuleId} {mr : Ref} {m : Circuit}
    (h : OneCall c a k ids mid k) (hk : 1 ≤ k) (hc : w.circs[r]? = some c) (hm : w.module? c mid = some mr)
    (hmc : w.circs[mr]? = some m) (hr : Rows m a k) (hmw : WFc m) : LastOutputs w r :=
  .call a hc (h.call 0 hk) hm h.outputLen h.out (hr.last hmw hmc)

theorem OneCall.inlined {w : World} {r : Ref} {c : Circuit} {a k : Nat} {ids : List GateId} {mid : ModuleId} {mr : Ref} {m : Circuit}
    (h : OneCall c a k ids mid k) (hk : 1 ≤ k) (hwf : WFc c) (hc : w.circs[r]? = some c) (hm : w.module? c mid = some mr)
    (hmc : w.circs[mr]? = some m) (hr : Rows m a k) (hmw : WFc m) : Inlined w r k [] := by
  have hgate : ∀ g gate, c.gateMap g = some gate → (∃ i, gate = .input i) ∨ ∃ i, i < k ∧ g = a + i ∧ gate = .module a k ids i mid := by
    intro g gate hg
    have hlt := hwf.lt_of_some hg
    rw [h.idx] at hlt
    by_cases hga : g < a
    · obtain ⟨i, hi⟩ := h.low g hga
      rw [hg] at hi
      exact .inl ⟨i, Option.some.inj hi⟩
    · have := h.call (g - a) (by omega)
      rw [show a + (g - a) = g by omega, hg] at this
      exact .inr ⟨g - a, by omega, by omega, Option.some.inj this⟩
  have hown : OwnConsts c [] := by
    refine ⟨[], .nil, fun g => ⟨fun hg => (List.not_mem_nil hg).elim, ?_⟩, trivial⟩
    rintro ⟨v, hv⟩
    rcases hgate g _ hv with ⟨i, e⟩ | ⟨i, _, _, e⟩ <;> cases e
  have hlog : ∀ g, ¬ IsLogic c g := by
    rintro g ⟨p, q, hl⟩
    rcases hl with e | e | e | e <;> rcases hgate g _ e with ⟨i, e⟩ | ⟨i, _, _, e⟩ <;> cases e
  have hcall : ∀ g mr', IsCall w c g mr' → g = a ∧ mr' = mr := by
    rintro g mr' ⟨nIn, nOut, ids', mid', hg, hm'⟩
    rcases hgate g _ hg with ⟨i, e⟩ | ⟨i, _, hga, e⟩
    · cases e
    · cases e
      rw [hm] at hm'
      exact ⟨by omega, (Option.some.inj hm').symm⟩
  have := Inlined.mk (w := w) [a] (fun _ => k) (fun _ => []) hc hown (by simp) (fun g => ?_) (fun g _ hl => (hlog g hl).elim)
    (fun g mr' _ hg => by rw [(hcall g mr' hg).2]; exact hr.inlined hmw hmc)
  · simpa using this
  · rw [List.mem_singleton]
    constructor
    · rintro rfl
      exact ⟨⟨0, g, by simpa using h.out 0 hk, .refl⟩, .inr ⟨mr, g, k, ids, mid, h.call 0 hk, hm⟩⟩
    · rintro ⟨_, hl | ⟨mr', hg⟩⟩
      · exact (hlog g hl).elim
      · exact (hcall g mr' hg).1

theorem OneCall.output {c : Circuit} {a k : Nat} {ids : List GateId} {mid : ModuleId} {j : Nat} (h : OneCall c a k ids mid j) :
    OneCall { c with outputMap := c.outputMap.insert c.outputLen (a + j), outputLen := c.outputLen + 1 } a k ids mid (j + 1) := by
  refine ⟨h.inputLen, h.idx, by show c.outputLen + 1 = _; rw [h.outputLen], h.numConst, h.numGate, h.low, h.call, fun i hi => ?_⟩
  show (c.outputMap.insert c.outputLen (a + j)) i = _
  rw [Map.insert_apply, h.outputLen]
  by_cases hij : i = j
  · rw [if_pos hij, hij]
  · rw [if_neg hij]
    exact h.out i (by omega)

theorem does_outputs_from {s : Ref} {a k : Nat} {ids : List GateId} {mid : ModuleId} : ∀ (t j : Nat) {c : Circuit}, j + t = k →
    OneCall c a k ids mid j → Does s (M.mapList (fun i => do
      let g ← M.idx (List.range' a k) i
      CC.output s g) (List.range' j t)) c fun _ c' => OneCall c' a k ids mid k
  | 0, j, c, hj, h => .pure (by
      have e : j = k := by omega
      subst e
      exact h)
  | t + 1, j, c, hj, h => by
    rw [List.range'_succ]
    refine .seq (P := fun _ c' => OneCall c' a k ids mid (j + 1)) ?_ fun _ c1 h1 =>
      .seq (does_outputs_from t (j + 1) (by omega) h1) fun _ c2 h2 => .pure h2
    refine .idx fun g hg => ?_
    rw [List.getElem?_range' (by omega)] at hg
    simp only [Nat.one_mul, Option.some.injEq] at hg
    subst hg
    exact .output fun _ _ _ => h.output

/-- the outputs of the call as outputs of the circuit -/
theorem does_outputs {s : Ref} {a k : Nat} {ids : List GateId} {mid : ModuleId} {c : Circuit} (h : OneCall c a k ids mid 0) :
    Does s (M.mapList (fun i => do
      let g ← M.idx (List.range' a k) i
      CC.output s g) (List.range k)) c fun _ c' => OneCall c' a k ids mid k := by
  rw [List.range_eq_range']
  exact does_outputs_from k 0 (by omega) h

/-! ### with the modules in view -/

/-- as `Does`, in heaps with property `H`, which stays -/
def DoesH (r : Ref) (H : World → Prop) {α} (x : M α) (c : Circuit) (Q : α → Circuit → Prop) : Prop :=
  ∀ w a w', WFw w → H w → w.circs[r]? = some c → x w = (.ok a, w') → WFw w' ∧ H w' ∧ ∃ c', w'.circs[r]? = some c' ∧ Q a c'

namespace DoesH
variable {r : Ref} {H : World → Prop} {c : Circuit}

theorem of {α} {x : M α} {Q : α → Circuit → Prop} (hk : Kept r H) (hp : PlaysOn r x) (h : Does r x c Q) : DoesH r H x c Q := by
  intro w a w' hw hH hc hx
  obtain ⟨h1, h2⟩ := h w a w' hw hc hx
  have := hp w
  rw [hx] at this
  exact ⟨h1, hk w w' hw hH this, h2⟩

theorem pure {α} {a : α} {Q : α → Circuit → Prop} (h : Q a c) : DoesH r H (Pure.pure a) c Q := by
  intro w b w' hw hH hc hx
  cases hx
  exact ⟨hw, hH, c, hc, h⟩

theorem seq {α β} {x : M α} {f : α → M β} {P : α → Circuit → Prop} {Q : β → Circuit → Prop} (h : DoesH r H x c P)
    (k : ∀ a c', P a c' → DoesH r H (f a) c' Q) : DoesH r H (x >>= f) c Q := by
  intro w b w' hw hH hc hx
  rw [M.bind_apply] at hx
  rcases e : x w with ⟨a | a, w1⟩
  · rw [e] at hx; cases hx
  · rw [e] at hx
    obtain ⟨hw1, hH1, c1, hc1, hp⟩ := h w a w1 hw hH hc e
    exact k a c1 hp w1 b w' hw1 hH1 hc1 hx

theorem expect {α} {x : M α} {Q : α → Circuit → Prop} (h : DoesH r H x c Q) : DoesH r H (M.expect x) c Q := by
  intro w a w' hw hH hc hx
  unfold M.expect at hx
  split at hx <;> cases hx
  rename_i e
  exact h w _ _ hw hH hc e

/-- a call in a circuit with inputs only -/
theorem module {mid : ModuleId} {ids : List GateId} {a k : Nat} (hk : Kept r H) (hh : ∀ w, H w → HasRows w r mid a k)
    (hR : ∀ w, H w → Reachable w) (hc : Rows c a 0) :
    DoesH r H (CC.module r mid ids) c fun bits c' => bits = List.range' a k ∧ OneCall c' a k ids mid 0 := by
  intro w b w' hw hH hcc hx
  obtain ⟨c0, mr, m, h1, h2, h3, h4, h5⟩ := hh w hH
  rw [hcc] at h1
  cases h1
  have hs : m.numWire = m.inputLen + m.numConst + m.numGate := wireSum_inv.reachable (hR w hH) _ (List.mem_of_getElem? h4)
  have hroom : m.inputLen + m.outputLen ≤ m.numWire := by rw [h5.outputLen]; have := h5.numGate; omega
  obtain ⟨c', e1, e2⟩ := module_eq_ok (hw.circ r c hcc) hcc h2 h3 h4 hroom ids
  have ho : On r w w' := by
    have := PlaysOn.module (r := r) mid ids w
    rw [hx] at this
    exact this
  refine ⟨(ext_of_later hw ho.later).1, hk w w' hw hH ho, ?_⟩
  rw [e1] at hx
  cases hx
  have hidx := hc.idx
  refine ⟨c', setC_get hcc _, by rw [hidx, h5.outputLen]; rfl, ?_, ?_, ?_, ?_, ?_, fun g hg => ?_, fun i hi => ?_, fun i hi => ?_⟩
  · rw [e2.inputLen, hc.inputLen]
  · rw [e2.appends.idx, hidx]
    simp [moduleGates, h5.outputLen]
  · rw [e2.appends.outputLen, hc.outputLen]
  · rw [e2.numConst, hc.numConst, h5.numConst]
  · rw [e2.numGate, hc.numGate, h5.numGate]; omega
  · rw [e2.appends.gate, if_pos (by omega)]
    exact hc.low g hg
  · rw [e2.appends.gate, if_neg (by omega), moduleGates_get, h5.inputLen, h5.outputLen, if_pos (by omega),
      show a + i - c.gateIndex = i by omega]
  · omega

end DoesH

/-! ### programs with one bitwise operation -/

section
open Mixed

/-- what the text of these circuits depends on -/
structure OneCallAt (w : World) (r : Ref) (a k : Nat) : Prop where
  last : LastOutputs w r
  inl : Inlined w r k []
  circ : ∃ c, w.circs[r]? = some c ∧ c.numConst = 0 ∧ c.numGate = k ∧ c.inputLen = a ∧ c.numWire = a + k ∧ c.outputLen = k

theorem kept_rows {r : Ref} {mid : ModuleId} {a k : Nat} : Kept r fun w => Reachable w ∧ HasRows w r mid a k :=
  fun _ _ hw h ho => ⟨later_reachable h.1 ho.later, h.2.on hw ho⟩

/-- the heap after the configurations -/
theorem configs_rows {w w' : World} {r : Ref} {n : Nat} {ic : IntConfig} {bc : BitsConfig} (hw : Reachable w)
    (hx : Mixed.configs n r w = (.ok (ic, bc), w')) : Reachable w' ∧ 1 ≤ n ∧ bc.cref = r ∧
      (∀ c, w.circs[r]? = some c → w'.circs[r]? = some c) ∧ HasRows w' r bc.notMid n n ∧
      HasRows w' r bc.andMid (n + n) n ∧ HasRows w' r bc.orMid (n + n) n ∧ HasRows w' r bc.xorMid (n + n) n := by
  have hwf := WFw.of_reachable hw
  unfold Mixed.configs at hx
  rw [M.bind_apply] at hx
  rcases e1 : IntConfig.new r n w with ⟨a | ic1, w1⟩
  · rw [e1] at hx; cases hx
  rw [e1] at hx
  simp only at hx
  rw [M.bind_apply] at hx
  rcases e2 : BitsConfig.new r n w1 with ⟨a | bc1, w2⟩
  · rw [e2] at hx; cases hx
  rw [e2] at hx
  cases hx
  have hl1 := plays_intConfig r n w
  rw [e1] at hl1
  have hl2 := plays_bitsConfig r n w1
  rw [e2] at hl2
  have hR1 := later_reachable hw hl1
  have hR2 := later_reachable hR1 hl2
  have hn := intConfig_pos e1
  obtain ⟨c0, hr⟩ := intConfig_circ e1
  obtain ⟨ic', w1', e1', a1, _⟩ := intConfig_ok hwf hr (Nat.zero_le _) hn
  rw [e1] at e1'
  cases e1'
  obtain ⟨a2, h1, h2, h3, h4, h5⟩ := bits_rows (WFw.of_reachable hR1) e2
  exact ⟨hR2, hn, h1, fun c hc => (a1.trans a2).keeps.circ r c trivial hc, h2, h3, h4, h5⟩

theorem newCircuit_new {st : StoreRef} {w w1 : World} {s : Ref} (h : newCircuit st w = (.ok s, w1)) :
    w1.circs[s]? = some (Circuit.new st) := by
  unfold newCircuit at h
  split at h <;> cases h
  simp

/-- a program, whose body makes a circuit of this kind -/
theorem compile_rows {w w' : World} (hw : Reachable w) {st : StoreRef} {n : Nat} {p : List Cmd} {i : Nat} {r : Ref} {a : Nat}
    {mid : BitsConfig → ModuleId} (hx : Mixed.compile st n p [i] w = (.ok r, w'))
    (hmid : ∀ w0 w1 ic bc s, Reachable w0 → Mixed.configs n s w0 = (.ok (ic, bc), w1) → HasRows w1 s (mid bc) a n)
    (hbody : ∀ (ic : IntConfig) (bc : BitsConfig) s, bc.cref = s → ∀ c, Rows c 0 0 →
      DoesH s (fun w => Reachable w ∧ HasRows w s (mid bc) a n) (Mixed.build s ic bc n p []) c fun env c' =>
        ∃ ids, env[i]? = some (.bits ⟨List.range' a n, bc⟩) ∧ OneCall c' a n ids (mid bc) 0) : OneCallAt w' r a n := by
  unfold Mixed.compile at hx
  rw [M.bind_apply] at hx
  rcases e1 : newCircuit st w with ⟨u | s, w1⟩
  · rw [e1] at hx; cases hx
  rw [e1] at hx
  simp only at hx
  have hR1 : Reachable w1 := by
    have := plays_newCircuit st w
    rw [e1] at this
    exact later_reachable hw this
  rw [M.bind_apply] at hx
  rcases e2 : Mixed.configs n s w1 with ⟨u | ⟨ic, bc⟩, w2⟩
  · rw [e2] at hx; cases hx
  rw [e2] at hx
  simp only at hx
  obtain ⟨hR2, hn, hb, hkeep, _⟩ := configs_rows hR1 e2
  have hc2 := hkeep _ (newCircuit_new e1)
  have hrows := hmid w1 w2 ic bc s hR1 e2
  rw [M.bind_apply] at hx
  rcases e3 : Mixed.build s ic bc n p [] w2 with ⟨u | env, w3⟩
  · rw [e3] at hx; cases hx
  rw [e3] at hx
  simp only at hx
  obtain ⟨hw3, hH3, c3, hc3, ids, henv, hone⟩ := hbody ic bc s hb _ (Rows.new st) w2 env w3 (WFw.of_reachable hR2) ⟨hR2, hrows⟩ hc2 e3
  have hout : DoesH s (fun w => Reachable w ∧ HasRows w s (mid bc) a n) (do
      let _ ← M.mapList (fun i => do let z ← M.idx env i; z.output s n) [i]
      pure s) c3 fun t c' => t = s ∧ OneCall c' a n ids (mid bc) n := by
    have h1 : DoesH s (fun w => Reachable w ∧ HasRows w s (mid bc) a n) (Handle.output s n (.bits ⟨List.range' a n, bc⟩)) c3
        fun _ c' => OneCall c' a n ids (mid bc) n := by
      show DoesH s _ (Bits.output ⟨List.range' a n, bc⟩ n) c3 _
      unfold Bits.output
      simp only [hb]
      refine .seq (.of kept_rows ?_ (does_outputs hone)) fun _ _ h => .pure h
      stays
    refine .seq (P := fun _ c' => OneCall c' a n ids (mid bc) n) ?_ fun _ _ h => .pure ⟨rfl, h⟩
    refine .seq (P := fun _ c' => OneCall c' a n ids (mid bc) n) ?_ fun _ _ h => .pure h
    intro v b v' k1 k2 k3 k4
    simp only [M.bind_apply] at k4
    unfold M.idx at k4
    rw [henv] at k4
    exact h1 v b v' k1 k2 k3 k4
  obtain ⟨hw4, ⟨hR4, c5, mr, m, q1, q2, q3, q4, q5⟩, c4, hc4, rfl, hone4⟩ := hout w3 r w' hw3 hH3 hc3 hx
  rw [Option.some.inj (q1.symm.trans hc4)] at q2
  have hwire : c4.numWire = c4.inputLen + c4.numConst + c4.numGate := wireSum_inv.reachable hR4 _ (List.mem_of_getElem? hc4)
  have hmw := hw4.circ _ _ q4
  refine ⟨hone4.last hn hc4 q2 q4 q5 hmw, hone4.inlined hn (hw4.circ _ _ hc4) hc4 q2 q4 q5 hmw,
    c4, hc4, hone4.numConst, hone4.numGate, hone4.inputLen, ?_, hone4.outputLen⟩
  rw [hwire, hone4.numConst, hone4.numGate, hone4.inputLen]; omega

theorem new_does {s : Ref} {H : World → Prop} (hk : Kept s H) {bc : BitsConfig} (hb : bc.cref = s) {n a : Nat} {c : Circuit} (h : Rows c a 0) :
    DoesH s H (Bits.new bc n) c fun x c' => x = ⟨List.range' a n, bc⟩ ∧ Rows c' (a + n) 0 := by
  unfold Bits.new
  rw [hb]
  refine .seq (.of hk (by stays) (does_inputs n h)) ?_
  rintro l c' ⟨rfl, h'⟩
  exact .pure ⟨rfl, h'⟩

theorem call_does {s : Ref} {bc : BitsConfig} {n a : Nat} {c : Circuit} {mid : ModuleId} {ids : List GateId} (h : Rows c a 0) :
    DoesH s (fun w => Reachable w ∧ HasRows w s mid a n) ((M.expect (CC.module s mid ids) >>= fun outs =>
      pure ({ bits := outs, config := bc } : Bits)) >>= fun z => pure (Handle.bits z)) c fun x c' => ∃ ids, x = .bits ⟨List.range' a n, bc⟩ ∧ OneCall c' a n ids mid 0 := by
  refine .seq (P := fun (x : Bits) c' => x = ⟨List.range' a n, bc⟩ ∧ OneCall c' a n ids mid 0) ?_ ?_
  · refine .seq (.expect (.module kept_rows (fun w h => h.2) (fun w h => h.1) h)) ?_
    rintro bits c' ⟨rfl, h'⟩
    exact .pure ⟨rfl, h'⟩
  · rintro x c' ⟨rfl, h'⟩
    exact .pure ⟨ids, rfl, h'⟩

theorem newBits_does {s : Ref} {H : World → Prop} (hk : Kept s H) {ic : IntConfig} {bc : BitsConfig} (hb : bc.cref = s) {n a : Nat}
    {c : Circuit} {env : List Handle} (h : Rows c a 0) :
    DoesH s H (Cmd.build s ic bc n env .newBits) c fun x c' => x = .bits ⟨List.range' a n, bc⟩ ∧ Rows c' (a + n) 0 := by
  refine .seq (new_does hk hb h) ?_
  rintro _ c1 ⟨rfl, h1⟩
  exact .pure ⟨rfl, h1⟩

theorem not_rows {w w' : World} (hw : Reachable w) {st : StoreRef} {n : Nat} {r : Ref}
    (hx : Mixed.compile st n [.newBits, .notBits 0] [1] w = (.ok r, w')) : OneCallAt w' r n n := by
  refine compile_rows (mid := (·.notMid)) hw hx (fun w0 w1 ic bc s h1 h2 => (configs_rows h1 h2).2.2.2.2.1) ?_
  intro ic bc s hb c hc
  refine .seq (newBits_does kept_rows hb hc) ?_
  rintro _ c1 ⟨rfl, h1⟩
  rw [Nat.zero_add] at h1
  subst hb
  refine .seq (call_does (bc := bc) h1) ?_
  rintro _ c2 ⟨ids, rfl, h2⟩
  exact .pure ⟨ids, rfl, h2⟩

theorem bin_rows {w w' : World} (hw : Reachable w) {st : StoreRef} {n : Nat} {r : Ref} {op : Cmd} {mid : BitsConfig → ModuleId}
    (hop : ∀ r ic bc (x y : Bits), op.build r ic bc n [.bits x, .bits y] = ((M.expect (CC.module x.config.cref (mid x.config) (x.bits ++ y.bits)) >>= fun outs =>
      pure ({ bits := outs, config := x.config } : Bits)) >>= fun z => pure (Handle.bits z)))
    (hmid : ∀ w0 w1 ic bc s, Reachable w0 → Mixed.configs n s w0 = (.ok (ic, bc), w1) → HasRows w1 s (mid bc) (n + n) n)
    (hx : Mixed.compile st n [.newBits, .newBits, op] [2] w = (.ok r, w')) : OneCallAt w' r (n + n) n := by
  refine compile_rows (mid := mid) hw hx hmid ?_
  intro ic bc s hb c hc
  refine .seq (newBits_does kept_rows hb hc) ?_
  rintro _ c1 ⟨rfl, h1⟩
  refine .seq (newBits_does kept_rows hb h1) ?_
  rintro _ c2 ⟨rfl, h2⟩
  rw [Nat.zero_add] at h2
  subst hb
  refine .seq (P := fun x c' => ∃ ids, x = .bits ⟨List.range' (n + n) n, bc⟩ ∧ OneCall c' (n + n) n ids (mid bc) 0) ?_ ?_
  · simp only [List.nil_append, List.singleton_append]
    rw [hop]
    exact call_does h2
  · rintro _ c2 ⟨ids, rfl, h2⟩
    exact .pure ⟨ids, rfl, h2⟩

theorem and_rows {w w' : World} (hw : Reachable w) {st : StoreRef} {n : Nat} {r : Ref}
    (hx : Mixed.compile st n [.newBits, .newBits, .andBits 0 1] [2] w = (.ok r, w')) : OneCallAt w' r (n + n) n :=
  bin_rows (mid := (·.andMid)) hw (fun _ _ _ _ _ => rfl) (fun _ _ _ _ _ h1 h2 => (configs_rows h1 h2).2.2.2.2.2.1) hx

theorem or_rows {w w' : World} (hw : Reachable w) {st : StoreRef} {n : Nat} {r : Ref}
    (hx : Mixed.compile st n [.newBits, .newBits, .orBits 0 1] [2] w = (.ok r, w')) : OneCallAt w' r (n + n) n :=
  bin_rows (mid := (·.orMid)) hw (fun _ _ _ _ _ => rfl) (fun _ _ _ _ _ h1 h2 => (configs_rows h1 h2).2.2.2.2.2.2.1) hx

theorem xor_rows {w w' : World} (hw : Reachable w) {st : StoreRef} {n : Nat} {r : Ref}
    (hx : Mixed.compile st n [.newBits, .newBits, .xorBits 0 1] [2] w = (.ok r, w')) : OneCallAt w' r (n + n) n :=
  bin_rows (mid := (·.xorMid)) hw (fun _ _ _ _ _ => rfl) (fun _ _ _ _ _ h1 h2 => (configs_rows h1 h2).2.2.2.2.2.2.2) hx

end

end CC
