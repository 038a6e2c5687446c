import Verif.Proofs.BrVerdict
import Verif.Proofs.Reuse
import Verif.Spec.Continue

/-!
# A used reader on any text
-/

namespace CC.Bristol
open CC CC.Spec CC.Spec.Bristol

section
variable {r : Ref} {w : World} {c : Circuit}

theorem first_of {P : Nat → Prop} : ∀ {x : Nat}, P x → ∃ y, y ≤ x ∧ P y ∧ ∀ z, z < y → ¬ P z := by
  intro x
  induction x using Nat.strongRecOn with
  | _ x ih =>
    intro hx
    by_cases h : ∃ z, z < x ∧ P z
    · obtain ⟨z, h1, h2⟩ := h
      obtain ⟨y, h3, h4, h5⟩ := ih z h1 h2
      exact ⟨y, by omega, h4, h5⟩
    · exact ⟨x, Nat.le_refl _, hx, fun z hz hp => h ⟨z, hz, hp⟩⟩

/-! ### header -/

theorem bindRange_start {gow : GOW} {g k : Nat} : (fun x => bindRange gow 0 g k x ≠ none) = Start gow k := by
  apply uses_congr
  intro x
  unfold bindRange Start
  split
  · next h => simp; omega
  · next h => simp; omega

theorem read_header_from {gow : GOW} {text : Str} {a b : Nat} {is os : List Nat} {ls : List Str} (hw : WFw w) (hc : w.circs[r]? = some c)
    (h : Header text a b is os ls) : ∃ (w1 : World) (c1 : Circuit), GainsInputs r w c w1 c1 is.sum ∧
      read r gow text w = (do
        let gow ← readGates r (bindRange gow 0 c.gateIndex is.sum) ls
        if b < os.sum then M.throw (.panic .underflow)
        else do
          readFinal r gow (rangeFromTo (b - os.sum) b)
          pure gow) w1 := by
  obtain ⟨l1, l2, l3, l4, hls, ⟨s1, t1, rest1, hl1, hs1, ht1⟩, ⟨s2, ts2, rest2, hl2, hs2, hts2⟩, ⟨s3, ts3, rest3, hl3, hs3, hts3⟩⟩ := h
  obtain ⟨w1, c1, he1, g1⟩ := readInputs_ok (r := r) is 0 (rest := rest2) (gow := gow) hw hc hts2
  refine ⟨w1, c1, g1, ?_⟩
  unfold read
  rw [bind_lift_ok (a := (l1, l2 :: l3 :: l4 :: ls)) (by rw [lines_iff.mp hls]; rfl)]
  simp only []
  rw [layout_iff.mp hl1, bind_lift_ok (nextUsize_cons hs1)]
  simp only []
  rw [bind_lift_ok (nextUsize_cons ht1)]
  simp only []
  rw [bind_lift_ok (x := nextLine 2 (l2 :: l3 :: l4 :: ls)) rfl]
  simp only []
  rw [layout_iff.mp hl2, List.cons_append, bind_lift_ok (nextUsize_cons hs2)]
  simp only []
  rw [bind_ok he1, bind_lift_ok (x := nextLine 3 (l3 :: l4 :: ls)) rfl]
  simp only []
  rw [layout_iff.mp hl3, List.cons_append, bind_lift_ok (nextUsize_cons hs3)]
  simp only []
  rw [bind_lift_ok (readOutputLens_ok os 0 hts3), bind_lift_ok (x := nextLine 4 (l4 :: ls)) rfl]
  simp only [Nat.zero_add]

theorem badNums_plain : ∀ {k : Nat} {ts : List Str} {e : Err}, BadNums k ts e → ¬ NoWire e
  | _, _, _, .missing => by rintro (⟨n, h⟩ | h) <;> cases h
  | _, _, _, .notNum _ => by rintro (⟨n, h⟩ | h) <;> cases h
  | _, _, _, .next _ h => badNums_plain h

theorem badCounted_plain {ts : List Str} {e : Err} (h : BadCounted ts e) : ¬ NoWire e := by
  cases h with
  | count h => exact badNums_plain h
  | items _ h => exact badNums_plain h

/-- errors of a new reader other than those for missing wires -/
theorem read_follows {gow : GOW} {text : Str} {e : Err} (h : ∃ w', read r Map.empty text w = (.error e, w')) (hn : ¬ NoWire e) :
    ∃ w', read r gow text w = (.error e, w') := by
  obtain ⟨w', h⟩ := h
  have := follows_read r text (a := Map.empty) (b := gow) (fun _ _ h => by cases h) w
  rw [h] at this
  exact ⟨w', this.resolve_left hn⟩

/-! ### gate lines -/

theorem lineGates_length {i : GateId} {op : GOp} {ids : List GateId} (h : ids.length = op.arity) :
    (lineGates i op ids).length = op.gates := by
  cases op
  all_goals
    first
    | (obtain ⟨a, rfl⟩ := List.length_eq_one_iff.mp h; rfl)
    | (match ids, h with
       | [a, b], _ => rfl)

/-- which wires get new gates, and how many gates there are -/
theorem readRows_count : ∀ {rows : List Row} {ls : List Str} {gow : GOW} {w : World} {c : Circuit}, WFw w →
    w.circs[r]? = some c → All2 RowText ls rows → RowsUse (fun x => gow x ≠ none) rows →
    ∃ gow' w' c', w'.circs[r]? = some c' ∧ c'.gateIndex = c.gateIndex + ((rows.map Row.line).map fun l => l.op.gates).sum ∧
      (∀ x, (¬ ∃ l ∈ rows.map Row.line, l.out = x) → gow' x = gow x) ∧
      (∀ x g, (∃ l ∈ rows.map Row.line, l.out = x) → gow' x = some g → g < c'.gateIndex) ∧
      ∀ tail, readGates r gow (ls ++ tail) w = readGates r gow' tail w' := by
  intro rows
  induction rows with
  | nil =>
    intro ls gow w c hw hc hl _
    cases ls with
    | cons l ls => exact hl.elim
    | nil => exact ⟨gow, w, c, hc, by simp, fun _ _ => rfl, by simp, fun _ => rfl⟩
  | cons row rows ih =>
    intro ls gow w c hw hc hl hu
    cases ls with
    | nil => exact hl.elim
    | cons l ls =>
      obtain ⟨hu1, hu2, hu3⟩ := hu
      obtain ⟨ids, hids, htok⟩ := readRowTokens_ok hl.1 hu2
      obtain ⟨os, hos⟩ := enough_outs hu1
      have hne : l.isEmpty = false := by simpa using rowText_ne hl.1
      have hlen : (ids.take row.op.arity).length = row.op.arity := by
        rw [List.length_take, ← hids.length]; have := hu1.1; omega
      obtain ⟨gow1, w1, he1, gr1, c1, hc1, ha, hlt, rfl⟩ :=
        readGateOp_ok hw hc gow (op := row.op) (ids := ids.take row.op.arity) hlen row.line.out
      rw [← readGateOp_take (os := os), ← hos] at he1
      rw [← insert_ne_none (g := c1.gateIndex - 1)] at hu3
      obtain ⟨gow2, w2, c2, hc2, hn, hk, hd, he2⟩ := ih gr1.wf hc1 hl.2 hu3
      have hi := ha.idx
      rw [lineGates_length hlen] at hi
      refine ⟨gow2, w2, c2, hc2, ?_, ?_, ?_, ?_⟩
      · rw [hn, hi, List.map_cons, List.map_cons, List.sum_cons, show row.line.op = row.op from rfl]
        omega
      · intro x hx
        rw [hk x (fun ⟨l, h1, h2⟩ => hx ⟨l, by rw [List.map_cons]; exact List.mem_cons_of_mem _ h1, h2⟩)]
        exact Map.insert_ne _ _ (fun h => hx ⟨row.line, by simp, h.symm⟩)
      · intro x g ⟨l, h1, h2⟩ hg
        by_cases hx : ∃ l ∈ rows.map Row.line, l.out = x
        · exact hd x g hx hg
        · rw [hk x hx] at hg
          rw [List.map_cons, List.mem_cons] at h1
          rcases h1 with rfl | h1
          · subst h2
            rw [Map.insert_self] at hg
            cases hg
            omega
          · exact absurd ⟨l, h1, h2⟩ hx
      · intro tail
        rw [List.cons_append, readGates, hne]
        refine (bind_lift_ok htok _ w).trans ?_
        exact (bind_ok he1).trans (he2 tail)

/-! ### outputs -/

theorem readFinal_append (gow : GOW) : ∀ (xs ys : List Nat) (w : World), readFinal r gow (xs ++ ys) w =
    (readFinal r gow xs >>= fun _ => readFinal r gow ys) w
  | [], ys, w => rfl
  | x :: xs, ys, w => by
    rw [List.cons_append, readFinal, readFinal]
    cases gow x with
    | none => rfl
    | some g =>
      simp only []
      rw [M.bind_apply, M.bind_apply, M.bind_apply]
      rcases output r g w with ⟨e | a, w1⟩
      · rfl
      · simp only []
        rw [readFinal_append gow xs ys w1, M.bind_apply]

theorem good_list {gow : GOW} {n : Nat} : ∀ {xs : List Nat}, (∀ x ∈ xs, ∃ g, gow x = some g ∧ g < n) →
    ∃ os : List GateId, All2 (fun x g => gow x = some g ∧ g < n) xs os
  | [], _ => ⟨[], trivial⟩
  | x :: xs, h => by
    obtain ⟨g, hg⟩ := h x (by simp)
    obtain ⟨os, hos⟩ := good_list (xs := xs) (fun y hy => h y (by simp [hy]))
    exact ⟨g :: os, hg, hos⟩

theorem mem_rangeFromTo {a b x : Nat} : x ∈ rangeFromTo a b ↔ a ≤ x ∧ x < b := by
  simp only [rangeFromTo, List.mem_map, List.mem_range]
  constructor
  · rintro ⟨k, h1, rfl⟩; omega
  · intro h; exact ⟨x - a, by omega, by omega⟩

theorem rangeFromTo_get {a b i : Nat} (h : a + i < b) : (rangeFromTo a b)[i]? = some (a + i) := by
  unfold rangeFromTo
  rw [List.getElem?_map, List.getElem?_range (by omega)]
  rfl

theorem rangeFromTo_split {a b x : Nat} (h1 : a ≤ x) (h2 : x < b) :
    rangeFromTo a b = rangeFromTo a x ++ x :: rangeFromTo (x + 1) b := by
  apply List.ext_getElem?
  intro i
  have len : ∀ {u v : Nat}, (rangeFromTo u v).length = v - u := by intro u v; simp [rangeFromTo]
  by_cases hi : a + i < b
  · rw [rangeFromTo_get hi]
    rcases Nat.lt_trichotomy (a + i) x with h | h | h
    · rw [List.getElem?_append_left (by rw [len]; omega), rangeFromTo_get h]
    · rw [List.getElem?_append_right (by rw [len]; omega), len, show i - (x - a) = 0 by omega]
      simp [h]
    · rw [List.getElem?_append_right (by rw [len]; omega), len, show i - (x - a) = (i - (x - a) - 1) + 1 by omega,
        List.getElem?_cons_succ, rangeFromTo_get (by omega)]
      congr 1; omega
  · rw [List.getElem?_eq_none (by rw [len]; omega), List.getElem?_eq_none (by
      rw [List.length_append, List.length_cons, len, len]; omega)]

theorem readFinal_bad {gow : GOW} {xs ys : List Nat} {x : Nat} (hw : WFw w) (hc : w.circs[r]? = some c)
    (h : ∀ y ∈ xs, ∃ g, gow y = some g ∧ g < c.gateIndex) :
    (gow x = none → ∃ w', readFinal r gow (xs ++ x :: ys) w = (.error (.panic .missingKey), w')) ∧
    ∀ g, gow x = some g → c.gateIndex ≤ g → ∃ w', readFinal r gow (xs ++ x :: ys) w = (.error (.unknownGate g), w') := by
  obtain ⟨os, hos⟩ := good_list h
  obtain ⟨w1, c1, h1, g1⟩ := readFinal_ok hw hc hos
  constructor
  · intro hx
    exact ⟨w1, by rw [readFinal_append, bind_ok h1, readFinal, hx]; rfl⟩
  · intro g hx hg
    have hwc := g1.wf.circ r c1 g1.circ
    have hnone : c1.gateMap g = none := hwc.none_of_ge (by rw [g1.gateIndex]; exact hg)
    refine ⟨w1, ?_⟩
    rw [readFinal_append, bind_ok h1, readFinal, hx]
    exact bind_error' (output_eq_err g1.circ hnone) _

/-! ### header and gate lines -/

theorem inputs_above {gow : GOW} {w' : World} {c' : Circuit} {k : Nat} (h : GainsInputs r w c w' c' k)
    {pre ins : List Bool} {e : Wires} (hp : pre.length = c.inputLen) (hi : ins.length = k)
    (he : Linked w' r gow (pre ++ ins) e) : Linked w' r (bindRange gow 0 c.gateIndex k) (pre ++ ins) (inputsOver e ins) := by
  have h0 := h.linked hp hi
  constructor
  · intro x g hx
    unfold bindRange at hx
    split at hx
    · next hlt =>
      cases hx
      obtain ⟨b, h1, h2⟩ := h0.bound x (c.gateIndex + (x - 0)) (by unfold bindRange; rw [if_pos hlt])
      exact ⟨b, by unfold inputsOver; rw [if_pos (by omega)]; exact h1, h2⟩
    · next hlt =>
      obtain ⟨b, h1, h2⟩ := he.bound x g hx
      exact ⟨b, by unfold inputsOver; rw [if_neg (by omega)]; exact h1, h2⟩
  · intro x hx
    unfold bindRange at hx
    split at hx
    · cases hx
    · next hlt => unfold inputsOver; rw [if_neg (by omega)]; exact he.free x hx

theorem linked_mono {gow : GOW} {w1 w2 : World} {i1 i2 : List Bool} {e : Wires} (h : Linked w1 r gow i1 e)
    (hv : ∀ g b, Val w1 r i1 g b → Val w2 r i2 g b) : Linked w2 r gow i2 e :=
  ⟨fun x g hx => by
    obtain ⟨b, h1, h2⟩ := h.bound x g hx
    exact ⟨b, h1, hv g b h2⟩, h.free⟩

/-- what the lines leave -/
structure Parsed (gow : GOW) (f : File) (r : Ref) (w : World) (c : Circuit) (gow' : GOW) (w' : World) (c' : Circuit) : Prop where
  on : On r w w'
  wf : WFw w'
  ext : Ext w w'
  circ : w'.circs[r]? = some c'
  inputLen : c'.inputLen = c.inputLen + f.numIn
  outputLen : c'.outputLen = c.outputLen
  outputMap : c'.outputMap = c.outputMap
  calls : SameCalls c c'
  size : c'.gateIndex = c.gateIndex + f.size
  missing : ∀ x, gow' x = none ↔ Missing gow f x
  foreign : ∀ x g, (gow' x = some g ∧ c'.gateIndex ≤ g) ↔ Foreign gow c.gateIndex f x g
  linked : ∀ pre ins e, pre.length = c.inputLen → ins.length = f.numIn →
    (∀ w1 c1, GainsInputs r w c w1 c1 f.numIn → Linked w1 r gow (pre ++ ins) e) →
    Linked w' r gow' (pre ++ ins) (exec f.gates (inputsOver e ins))

theorem read_parses_from {gow : GOW} {f : File} {text : Str} (hw : WFw w) (hc : w.circs[r]? = some c) (h : ParsesFrom gow f text) :
    ∃ gow' w' c', Parsed gow f r w c gow' w' c' ∧
      read r gow text w = (if f.numWire < f.numOut then M.throw (.panic .underflow)
        else do
          readFinal r gow' (rangeFromTo (f.numWire - f.numOut) f.numWire)
          pure gow') w' := by
  obtain ⟨ls, tail, rows, hh, hrows, hu, hgs, htail⟩ := h
  obtain ⟨w1, c1, g1, he⟩ := read_header_from (gow := gow) hw hc hh
  have hu' := hu
  rw [show f.numIn = f.ins.sum from rfl, ← bindRange_start (g := c.gateIndex)] at hu
  obtain ⟨gow2, w2, he2, g2, r2⟩ := readRows_ok (tail := []) g1.wf g1.circ hrows (by simp) hu
  obtain ⟨gow3, w3, c3, hc3, hn, hk, hd, he3⟩ := readRows_count g1.wf g1.circ hrows hu
  have := (he3 []).symm.trans he2
  rw [show readGates r gow3 [] w3 = (.ok gow3, w3) from rfl] at this
  cases this
  obtain ⟨c2', hc2', _, hin, hout, houtm⟩ := g2.circ c1 g1.circ
  rw [hc3] at hc2'; cases hc2'
  rw [← hgs] at hk hd hn
  have hsize : c3.gateIndex = c.gateIndex + f.size := by
    rw [hn, g1.adds.idx]
    simp only [inputGates, List.length_map, List.length_range, File.size, File.numIn]
    omega
  refine ⟨gow2, w2, c3, ⟨g1.on.trans g2.on, g2.wf, g1.ext.trans g2.ext, hc3, ?_, ?_, ?_, ?_, hsize, ?_, ?_, ?_⟩, ?_⟩
  · rw [hin, g1.inputLen]; rfl
  · rw [hout, g1.adds.outputLen]
  · rw [houtm, g1.adds.outputMap]
  · obtain ⟨c2, hc2, hs, _⟩ := r2.struct c1 g1.circ
    rw [hc3] at hc2; cases hc2
    exact fun _ _ _ _ _ _ hg => g1.calls (hw.circ r c hc) _ _ _ _ _ _ (hs _ _ _ _ _ _ hg)
  · intro x
    have := r2.defined x
    rw [bindRange_start, ← hgs] at this
    unfold Missing
    rw [← show (gow2 x ≠ none ↔ Defined (Start gow f.numIn) f.gates x) from this]
    simp
  · intro x g
    unfold Foreign
    by_cases hx : ∃ l ∈ f.gates, l.out = x
    · refine ⟨fun ⟨h1, h2⟩ => ?_, fun ⟨_, h2, _⟩ => absurd (.inr hx) h2⟩
      have := hd x g hx h1
      omega
    · rw [hk x hx]
      by_cases hlt : x < f.numIn
      · refine ⟨fun ⟨h1, h2⟩ => ?_, fun ⟨_, h2, _⟩ => absurd (.inl hlt) h2⟩
        have hlt' : x < f.ins.sum := hlt
        unfold bindRange at h1
        rw [if_pos (by omega)] at h1
        cases h1
        unfold File.size at hsize
        omega
      · have hlt' : ¬ x < f.ins.sum := hlt
        unfold bindRange
        rw [if_neg (by omega), hsize]
        exact ⟨fun ⟨h1, h2⟩ => ⟨h1, fun h => h.elim hlt hx, h2⟩, fun ⟨h1, _, h2⟩ => ⟨h1, h2⟩⟩
  · intro pre ins e hp hi hl
    have := r2.linked _ _ (inputs_above g1 hp hi (hl w1 c1 g1))
    rw [← hgs] at this
    exact this
  · rw [he]
    refine bind_ok ?_
    rw [he3 tail, readGates_end htail]
    rfl

/-! ### the verdicts -/

theorem parsed_good {gow gow' : GOW} {f : File} {w' : World} {c' : Circuit} (h : Parsed gow f r w c gow' w' c') {x : Nat}
    (h1 : ¬ Missing gow f x) (h2 : ∀ g, ¬ Foreign gow c.gateIndex f x g) : ∃ g, gow' x = some g ∧ g < c'.gateIndex := by
  cases hx : gow' x with
  | none => exact absurd ((h.missing x).mp hx) h1
  | some g =>
    refine ⟨g, rfl, ?_⟩
    exact Nat.lt_of_not_le fun hge => h2 g ((h.foreign x g).mp ⟨hx, hge⟩)

/-- what an accepted text leaves -/
structure ReadFrom (gow : GOW) (f : File) (r : Ref) (w : World) (c : Circuit) (gow' : GOW) (w' : World) (c' : Circuit) : Prop where
  on : On r w w'
  wf : WFw w'
  ext : Ext w w'
  circ : w'.circs[r]? = some c'
  inputLen : c'.inputLen = c.inputLen + f.numIn
  outputLen : c'.outputLen = c.outputLen + f.numOut
  calls : SameCalls c c'
  size : c'.gateIndex = c.gateIndex + f.size
  oldOut : ∀ i, i < c.outputLen → c'.outputMap i = c.outputMap i
  newOut : ∀ i, i < f.numOut → ∃ o, c'.outputMap (c.outputLen + i) = some o ∧ gow' (f.numWire - f.numOut + i) = some o
  defined : ∀ x, gow' x ≠ none ↔ Defined (Start gow f.numIn) f.gates x
  known : ∀ x g, gow' x = some g → g < c'.gateIndex ∨ Foreign gow c.gateIndex f x g
  linked : ∀ pre ins e, pre.length = c.inputLen → ins.length = f.numIn →
    (∀ w1 c1, GainsInputs r w c w1 c1 f.numIn → Linked w1 r gow (pre ++ ins) e) →
    Linked w' r gow' (pre ++ ins) (exec f.gates (inputsOver e ins))

theorem read_accepts_from {gow : GOW} {f : File} {text : Str} (hw : WFw w) (hc : w.circs[r]? = some c)
    (h : AcceptsFrom gow c.gateIndex f text) :
    ∃ gow' w' c', read r gow text w = (.ok gow', w') ∧ ReadFrom gow f r w c gow' w' c' := by
  obtain ⟨gow2, w2, c2, h2, he⟩ := read_parses_from hw hc h.parses
  have hroom := h.room
  obtain ⟨os, hos⟩ := good_list (gow := gow2) (n := c2.gateIndex) (xs := rangeFromTo (f.numWire - f.numOut) f.numWire) (by
    intro x hx
    rw [mem_rangeFromTo] at hx
    exact parsed_good h2 (h.outs x hx) (fun g => h.own x g hx))
  obtain ⟨w3, c3, he3, g3⟩ := readFinal_ok h2.wf h2.circ hos
  have hlen : os.length = f.numOut := by rw [← hos.length]; simp [rangeFromTo]; omega
  refine ⟨gow2, w3, c3, ?_, h2.on.trans g3.on, g3.wf, h2.ext.trans g3.ext, g3.circ, ?_, ?_, ?_, ?_, ?_, ?_, ?_, ?_, ?_⟩
  · rw [he, if_neg (by omega), bind_ok he3]; rfl
  · rw [g3.inputLen, h2.inputLen]
  · rw [g3.outputLen, h2.outputLen, hlen]
  · intro g nIn nOut is oi mid hg
    rw [g3.gateMap] at hg
    exact h2.calls _ _ _ _ _ _ hg
  · rw [g3.gateIndex, h2.size]
  · intro i hi
    rw [g3.outputMap, h2.outputLen, if_pos hi, h2.outputMap]
  · intro i hi
    have hi' : i < os.length := by omega
    refine ⟨os[i], ?_, ?_⟩
    · rw [g3.outputMap, h2.outputLen, if_neg (by omega), Nat.add_sub_cancel_left, List.getElem?_eq_getElem hi']
    · exact ((all2_iff.mp hos).2 i _ _ (rangeFromTo_get (by omega)) (List.getElem?_eq_getElem hi')).1
  · intro x
    have := h2.missing x
    unfold Missing at this
    rw [ne_eq, this, Classical.not_not]
  · intro x g hx
    rw [g3.gateIndex]
    by_cases hg : g < c2.gateIndex
    · exact .inl hg
    · exact .inr ((h2.foreign x g).mp ⟨hx, by omega⟩)
  · intro pre ins e hp hi hl
    exact linked_mono (h2.linked pre ins e hp hi hl) fun g b hv => g3.val h2.circ hv

theorem read_fails_from {gow : GOW} {text : Str} {e : Err} (hw : WFw w) (hc : w.circs[r]? = some c)
    (h : FailsFrom gow c.gateIndex text e) : ∃ w', read r gow text w = (.error e, w') := by
  have plain : ∀ n, ¬ NoWire (.notFoundLine n) := by rintro n (⟨m, h⟩ | h) <;> cases h
  cases h with
  | line1 h1 => exact read_follows (read_bad hw hc (.line1 h1)) (plain _)
  | head h1 h2 h3 => exact read_follows (read_bad hw hc (.head h1 h2 h3)) (badNums_plain h3)
  | line2 h1 h2 => exact read_follows (read_bad hw hc (.line2 h1 h2)) (plain _)
  | ins h1 h2 h3 h4 => exact read_follows (read_bad hw hc (.ins h1 h2 h3 h4)) (badCounted_plain h4)
  | line3 h1 h2 h3 => exact read_follows (read_bad hw hc (.line3 h1 h2 h3)) (plain _)
  | outs h1 h2 h3 h4 h5 => exact read_follows (read_bad hw hc (.outs h1 h2 h3 h4 h5)) (badCounted_plain h5)
  | line4 h1 h2 h3 h4 => exact read_follows (read_bad hw hc (.line4 h1 h2 h3 h4)) (plain _)
  | @gate ls l rest a b is os rows ts e hh hrows hu hl hlay hbad =>
    obtain ⟨w1, c1, g1, he⟩ := read_header_from (gow := gow) hw hc hh
    rw [he]
    rw [← bindRange_start (g := c.gateIndex)] at hu hbad
    obtain ⟨gow2, w2, g2, r2, he⟩ := readRows_prefix (l :: rest) g1.wf g1.circ hrows hu
    refine ⟨w2, bind_error' (he.trans ?_) _⟩
    exact readGate_bad (fun x => (r2.defined x).symm) hl hlay hbad w2
  | @row ls l rest a b is os rows row hh hrows hu hl hd hne =>
    obtain ⟨w1, c1, g1, he⟩ := read_header_from (gow := gow) hw hc hh
    rw [← bindRange_start (g := c.gateIndex)] at hu hd
    obtain ⟨gow2, w2, g2, r2, he2⟩ := readRows_prefix (l :: rest) g1.wf g1.circ hrows hu
    obtain ⟨c2, hc2, _⟩ := r2.struct c1 g1.circ
    obtain ⟨ids, hids, htok⟩ := readRowTokens_ok hl (gow := gow2) (fun x hx => (r2.defined x).mpr (hd x hx))
    obtain ⟨w3, he3⟩ := readGateOp_panics g2.wf hc2 gow2 (op := row.op) (ids := ids) (outs := row.outs)
      (by rw [← hids.length]; exact hne)
    refine ⟨w3, ?_⟩
    rw [he]
    refine bind_error' (he2.trans ?_) _
    have hemp : l.isEmpty = false := by simpa using rowText_ne hl
    rw [readGates, hemp]
    refine (bind_lift_ok htok _ w2).trans ?_
    exact bind_error' he3 _
  | @room f hp hlt =>
    obtain ⟨gow2, w2, c2, h2, he⟩ := read_parses_from hw hc hp
    exact ⟨w2, by rw [he, if_pos hlt]; rfl⟩
  | @missing f x hp hroom hx hm hfirst =>
    obtain ⟨gow2, w2, c2, h2, he⟩ := read_parses_from hw hc hp
    -- the first missing wire
    obtain ⟨y, hy1, hy2, hy3⟩ := first_of (P := fun y => f.IsOut y ∧ Missing gow f y) ⟨hx, hm⟩
    obtain ⟨w3, he3⟩ := (readFinal_bad (xs := rangeFromTo (f.numWire - f.numOut) y) (ys := rangeFromTo (y + 1) f.numWire) (x := y)
      h2.wf h2.circ (by
        intro z hz
        rw [mem_rangeFromTo] at hz
        have h1 := hy2.1.2
        have hz' : f.IsOut z := ⟨hz.1, by omega⟩
        exact parsed_good h2 (fun h => hy3 z hz.2 ⟨hz', h⟩) (fun g => hfirst z g hz' (by omega)))).1 ((h2.missing y).mpr hy2.2)
    rw [← rangeFromTo_split hy2.1.1 hy2.1.2] at he3
    exact ⟨w3, by rw [he, if_neg (by omega)]; exact bind_error' he3 _⟩
  | @foreign f x g hp hroom hx hf hfirst =>
    obtain ⟨gow2, w2, c2, h2, he⟩ := read_parses_from hw hc hp
    have hg := (h2.foreign x g).mpr hf
    obtain ⟨w3, he3⟩ := (readFinal_bad (xs := rangeFromTo (f.numWire - f.numOut) x) (ys := rangeFromTo (x + 1) f.numWire) (x := x)
      h2.wf h2.circ (by
        intro z hz
        rw [mem_rangeFromTo] at hz
        have h1 := hx.2
        have hz' := hfirst z ⟨hz.1, by omega⟩ hz.2
        exact parsed_good h2 hz'.1 hz'.2)).2 g hg.1 hg.2
    rw [← rangeFromTo_split hx.1 hx.2] at he3
    exact ⟨w3, by rw [he, if_neg (by omega)]; exact bind_error' he3 _⟩

/-! ### there is no third -/

theorem verdict_from (K : Known) (n : Nat) (text : Str) : (∃ f, AcceptsFrom K n f text) ∨ ∃ e, FailsFrom K n text e := by
  have hls : Lines (linesOf text) text := lines_iff.mpr rfl
  generalize linesOf text = ls at hls
  match ls, hls with
  | [], hls => exact .inr ⟨_, .line1 hls⟩
  | l1 :: ls, hls =>
  rcases two_cases l1 with ⟨ts, e, h1, h2⟩ | ⟨a, b, h1⟩
  · exact .inr ⟨e, .head hls h1 h2⟩
  match ls, hls with
  | [], hls => exact .inr ⟨_, .line2 hls h1⟩
  | l2 :: ls, hls =>
  rcases counted_cases l2 with ⟨ts, e, h2, h3⟩ | ⟨is, h2⟩
  · exact .inr ⟨e, .ins hls h1 h2 h3⟩
  match ls, hls with
  | [], hls => exact .inr ⟨_, .line3 hls h1 h2⟩
  | l3 :: ls, hls =>
  rcases counted_cases l3 with ⟨ts, e, h3, h4⟩ | ⟨os, h3⟩
  · exact .inr ⟨e, .outs hls h1 h2 h3 h4⟩
  match ls, hls with
  | [], hls => exact .inr ⟨_, .line4 hls h1 h2 h3⟩
  | l4 :: ls, hls =>
  have hh : Header text a b is os ls := ⟨l1, l2, l3, l4, hls, h1, h2, h3⟩
  rcases rows_cases ls (Start K is.sum) with ⟨good, tail, rows, rfl, k1, k2, k3⟩ | ⟨good, l, rest, rows, rfl, k1, k2, k3⟩
  · have hp : ParsesFrom K ⟨a, b, is, os, rows.map Row.line⟩ text := ⟨good, tail, rows, hh, k1, k2, rfl, k3⟩
    generalize hf : (⟨a, b, is, os, rows.map Row.line⟩ : File) = f at hp
    by_cases hroom : f.numOut ≤ f.numWire
    · by_cases hout : ∃ x, f.IsOut x ∧ (Missing K f x ∨ ∃ g, Foreign K n f x g)
      · obtain ⟨x, hx⟩ := hout
        obtain ⟨y, hy1, hy2, hy3⟩ := first_of (P := fun x => f.IsOut x ∧ (Missing K f x ∨ ∃ g, Foreign K n f x g)) hx
        rcases hy2.2 with hm | ⟨g, hg⟩
        · exact .inr ⟨_, .missing hp hroom hy2.1 hm fun z g hz hlt hf => hy3 z hlt ⟨hz, .inr ⟨g, hf⟩⟩⟩
        · exact .inr ⟨_, .foreign hp hroom hy2.1 hg fun z hz hlt => ⟨fun h => hy3 z hlt ⟨hz, .inl h⟩, fun g' h => hy3 z hlt ⟨hz, .inr ⟨g', h⟩⟩⟩⟩
      · exact .inl ⟨f, hp, hroom, fun x hx h => hout ⟨x, hx, .inl h⟩, fun x g hx h => hout ⟨x, hx, .inr ⟨g, h⟩⟩⟩
    · exact .inr ⟨_, .room hp (by omega)⟩
  · rcases k3 with ⟨ts, e, m1, m2, m3⟩ | ⟨row, m1, m2, m3⟩
    · exact .inr ⟨e, .gate hh k1 k2 m1 m2 m3⟩
    · exact .inr ⟨_, .row hh k1 k2 m1 m2 m3⟩

end

end CC.Bristol
