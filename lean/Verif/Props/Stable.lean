import Verif.Props.Writer
import Verif.Proofs.BrMirror
import Verif.Spec.Renaming

/-!
# Property C57: writing what was read back

Mathlib is not needed. `Wrote` and the conditions are those of C22.
-/

namespace CC.Props
open CC Spec CC.Bristol Spec.Bristol

/-! ### C57 -/

theorem twins_of_renamed {w w' : World} {r r' : Ref} {θ : GateId → GateId} {c c' : Circuit} (hc : w.circs[r]? = some c)
    (hc' : w'.circs[r']? = some c') (hwf : WFc c) (ht : Topo c) (hm : NoModules c) (hr : Renamed θ c c') :
    Twins w w' (fun a b D φ => a = r ∧ b = r' ∧ (D = fun g => c.gateMap g ≠ none) ∧ φ = θ) := by
  rintro _ _ _ _ ⟨rfl, rfl, rfl, rfl⟩ d hd
  rw [hc] at hd; cases hd
  have hlt : ∀ g, g < c.gateIndex → c.gateMap g ≠ none := fun g hg => by
    obtain ⟨x, e⟩ := hwf.some_of_lt hg
    rw [e]; simp
  refine ⟨c', hc', ?_, hr.inj, ?_, ?_, ?_, hr.outputLen, ⟨hr.consts, ?_⟩, ?_⟩
  · intro g gate _ hg x hx
    refine hlt x (Nat.lt_of_lt_of_le (ht g gate hg x hx) ?_)
    have := hwf.lt_of_some hg
    unfold lead
    split <;> omega
  · intro g gate _ hg
    refine ⟨_, hr.gates g gate hg, ?_⟩
    cases gate with
    | module nIn nOut ids oi mid => exact absurd hg (hm g nIn nOut ids oi mid)
    | input k => exact .input k k
    | const v => exact .const v
    | not x => exact .not x
    | xor x y => exact .xor x y
    | and x y => exact .and x y
    | or x y => exact .or x y
  · intro k g hk
    refine ⟨by rw [(hwf.input_iff k g).mp hk]; simp, by rw [hr.inputs, hk]; rfl⟩
  · intro k g hk
    exact ⟨hlt g (hwf.output_gate k g hk), by rw [hr.outputs, hk]; rfl⟩
  · intro g hg
    obtain ⟨v, e⟩ := (hwf.const_iff g).mp hg
    rw [e]; simp
  · intro g nIn nOut ids oi mid _ _ _ _ _ _ hg
    exact absurd hg (hm g nIn nOut ids oi mid)

/-- C57: circuits without modules that differ in the numbering of their gates are written to the same text, and the same constants
are returned. -/
theorem C57_numbering {w : World} (h : ValidRun w) {r : Ref} {c : Circuit} (hc : w.circs[r]? = some c) (hm : NoModules c)
    {w' : World} {r' : Ref} {c' : Circuit} (hc' : w'.circs[r']? = some c') {θ : GateId → GateId} (hr : Renamed θ c c')
    {numFirst : Nat} {res : Written} {ls : List GLine} (hw : Wrote w r c numFirst res ls) :
    ∃ res', Wrote w' r' c' numFirst res' ls ∧ res'.st.out = res.st.out ∧ res'.consts = res.consts ∧
      ∀ g, c.gateMap g ≠ none → res'.wog (θ g) = res.wog g := by
  have hwf := h.wf.circ r c hc
  have htw := twins_of_renamed hc hc' hwf ((h.allBuilt r c hc).topo hc) hm hr
  have hh : SameHeader c c' := ⟨hr.inputLen, hr.outputLen, hr.numConst, hr.numGate, hr.numWire⟩
  obtain ⟨F, hF⟩ := hw.1
  have key : ∀ fuel ≥ F, ∃ res', write w' fuel r' numFirst WSt.new Map.empty = .ok res' ∧ res'.st.out = res.st.out ∧
      res'.consts = res.consts ∧ ∀ g, c.gateMap g ≠ none → res'.wog (θ g) = res.wog g := by
    intro fuel hf
    obtain ⟨res', ls', h1, h2, h3, h4, _, h6⟩ := write_twin htw (r := r) (r' := r') (θ := θ) ⟨rfl, rfl, rfl, rfl⟩ hc hc' hwf hh
      (st := WSt.new) (st' := WSt.new) rfl (hF fuel hf) (.inl rfl)
    have e : shiftWire c.inputLen c.numConst WSt.new.numWire = id := by
      funext x; exact shiftWire_zero _ _ _
    have e2 : relabel id = id := by
      funext l; simp [relabel]
    rw [e, e2, List.map_id] at h4
    refine ⟨res', h1, h4.trans h3.symm, h2, fun g hg => ?_⟩
    rw [h6 g hg, e]; simp
  obtain ⟨res', k1, k2, k3, k4⟩ := key F (Nat.le_refl _)
  refine ⟨res', ⟨⟨F, fun fuel hf => ?_⟩, ?_⟩, k2, k3, k4⟩
  · rw [write_stable (by rw [k1]; simp) hf, k1]
  · rw [k2, hw.2, ← header_text, ← header_text, hh.header]

/-- C57: reading back what was written for a circuit without modules that meets the conditions of C22 gives the same circuit with its
gates renumbered: gate ids are now wire numbers. -/
theorem C57_same_circuit {w : World} (h : ValidRun w) {r : Ref} {c : Circuit} (hc : w.circs[r]? = some c) (hm : NoModules c)
    (ht : TidyOutputs c) (hk : c.numConst = 0) (hl : Inlined w r c.numGate []) {numFirst : Nat} (hn : numFirst ≤ c.inputLen)
    (hs : c.numWire < 2 ^ 64) {res : Written} {ls : List GLine} (hw : Wrote w r c numFirst res ls) {w2 : World} {r2 : Ref}
    {s2 : StoreRef} (hc2 : w2.circs[r2]? = some (Circuit.new s2)) :
    ∃ gow w3 c3 θ, read r2 Map.empty res.st.out w2 = (.ok gow, w3) ∧ w3.circs[r2]? = some c3 ∧ Renamed θ c c3 ∧
      ∀ g, c.gateMap g ≠ none → res.wog g = some (θ g) := by
  have hb0 := h.allBuilt r c hc
  have hwf := h.wf.circ r c hc
  have hbal := h.balance hc
  have hcg : c.constGates = [] := List.eq_nil_of_length_eq_zero (by have := hwf.consts; omega)
  have hflat : Flat c := by
    intro g gate hg
    cases gate with
    | module nIn nOut ids oi mid => exact absurd hg (hm g nIn nOut ids oi mid)
    | const v =>
      have := (hwf.const_iff g).mpr ⟨v, hg⟩
      rw [hcg] at this; cases this
    | input k => exact .inl ⟨k, rfl⟩
    | not x => exact .inr ⟨_, .not x⟩
    | xor x y => exact .inr ⟨_, .xor x y⟩
    | and x y => exact .inr ⟨_, .and x y⟩
    | or x y => exact .inr ⟨_, .or x y⟩
  have holen : c.outputLen ≤ c.numGate := by
    obtain ⟨res, ls, _, h2, h3⟩ := wrote_file h.wf hb0 hc (numFirst := 0) (by omega)
    have e := (h2.inlined.bounds h c hc)
    have := (h3 (.gates hc ht) e.2).1
    omega
  obtain ⟨res', ls', hb⟩ := readback h hc (numFirst := numFirst) (by omega) (by omega) (by omega)
  obtain ⟨rfl, rfl⟩ := hw.det hb.wrote
  obtain ⟨t1, t2, t3⟩ := hb.tidy (.gates hc ht)
  have hlen : ls.length = c.numGate := (hb.file.inlined.det hl).1
  have hcs : res.consts = [] := List.eq_nil_of_length_eq_zero (by have := hb.consts; omega)
  obtain ⟨F, hF⟩ := hw.1
  obtain ⟨ls', hmir⟩ := write_mir hwf hc (hb0.topo hc) hflat hk (hF F (Nat.le_refl _))
  have els : ls' = ls := by
    have h1 := hmir.out
    simp only at h1
    rw [hw.2, ← header_text] at h1
    exact (gatesText_inj (List.append_cancel_left h1)).symm
  subst els
  simp only [hk, Nat.add_zero] at t2 t3
  have hnumIn : (fileOf c numFirst ls').numIn = c.inputLen := by rw [hb.numIn]; omega
  have hnumWire : (fileOf c numFirst ls').numWire = c.inputLen + ls'.length := by rw [hb.numWire]; omega
  have hgates : ∀ x, x < ls'.length → ∃ g gate l, ls'[x]? = some l ∧ res.wog g = some (c.inputLen + x) ∧
      c.gateMap g = some gate ∧ OpOf gate l.op ∧ All2 (fun id y => res.wog id = some y) gate.operands l.args ∧
      gateOf l = some (rename (fun g => (res.wog g).getD 0) gate) := by
    intro x hx
    obtain ⟨g, hg⟩ := hmir.onto (c.inputLen + x) (by omega)
    obtain ⟨gate, l, k1, k2, _, k4, k5⟩ := hmir.line g _ hg (by omega)
    rw [Nat.add_sub_cancel_left] at k2
    refine ⟨g, gate, l, k2, hg, k1, k4, k5, ?_⟩
    obtain ⟨op, args, out⟩ := l
    simp only at k4 k5
    cases k4 with
    | not x =>
      match args, k5 with
      | [a], k5 =>
        have e1 : res.wog x = some a := k5.1
        simp [gateOf, rename, e1]
    | xor x y | and x y | or x y =>
      match args, k5 with
      | [a, b], k5 =>
        have e1 : res.wog x = some a := k5.1
        have e2 : res.wog y = some b := k5.2.1
        simp [gateOf, rename, e1, e2]
  obtain ⟨w3, c3, e1, e2, e3, e4, e5⟩ := read_mirror hc2 hb.text (by
      intro l hl
      obtain ⟨x, hx, rfl⟩ := List.mem_iff_getElem.mp hl
      obtain ⟨g, gate, l, k1, _, _, _, _, k5⟩ := hgates x hx
      have : (fileOf c numFirst ls').gates[x] = l := by
        have := List.getElem?_eq_getElem hx
        simp only [fileOf] at this ⊢
        rw [k1] at this
        exact (Option.some.inj this).symm
      rw [this, k5]; simp) (by
      intro i l hl
      have ho := hb.file.outs i l hl
      refine ⟨by rw [hnumIn, ho, hk]; rfl, fun x hx => ?_⟩
      rcases hb.file.args l (List.mem_of_getElem? hl) x hx with q | q
      · rw [hcs] at q; simp only [List.length_nil, Nat.add_zero] at q; omega
      · exact q.2) (.inr (by rw [hnumIn, hnumWire]; rfl)) (by rw [hnumWire, hb.numOut]; omega)
  rw [hnumIn] at e3
  rw [hb.numOut] at e4
  rw [hb.numOut, hnumWire] at e5
  simp only [show (fileOf c numFirst ls').gates = ls' from rfl] at e3
  -- every gate has a wire
  have hall : ∀ g, c.gateMap g ≠ none → ∃ x, res.wog g = some x := by
    intro g hg
    apply Option.ne_none_iff_exists'.mp
    rw [hb.file.dom]
    obtain ⟨gate, hgate⟩ := Option.ne_none_iff_exists'.mp hg
    rcases hflat g gate hgate with ⟨k, rfl⟩ | ⟨op, ho⟩
    · exact .inl ⟨k, hgate⟩
    · refine .inr (.inr ?_)
      have hlog : IsLogic c g := by
        cases ho with
        | not x => exact ⟨x, 0, .inl hgate⟩
        | xor x y => exact ⟨x, y, .inr (.inl hgate)⟩
        | and x y => exact ⟨x, y, .inr (.inr (.inl hgate))⟩
        | or x y => exact ⟨x, y, .inr (.inr (.inr hgate))⟩
      by_cases hnd : Needed c g
      · exact hnd
      · have := hl.dead h hc hlog hnd
        omega
  have hwire : ∀ g, c.gateMap g ≠ none → res.wog g = some ((res.wog g).getD 0) := by
    intro g hg
    obtain ⟨x, hx⟩ := hall g hg
    rw [hx]; rfl
  have hsome : ∀ g x, res.wog g = some x → c.gateMap g ≠ none := by
    intro g x hx
    by_cases hlt : x < c.inputLen
    · rw [hmir.low g x hx hlt]; simp
    · obtain ⟨gate, l, k1, _⟩ := hmir.line g x hx (by omega)
      rw [k1]; simp
  refine ⟨_, w3, c3, fun g => (res.wog g).getD 0, e1, e2, ?_, hwire⟩
  exact {
    inj := by
      intro g g' hg hg' he
      have h1 := hwire g hg
      have h2 := hwire g' hg'
      have he : (res.wog g).getD 0 = (res.wog g').getD 0 := he
      rw [he] at h1
      exact hmir.inj g g' _ h1 h2
    onto := by
      intro x hx
      have hlt : x < c.inputLen + ls'.length := by
        rw [e3.gate] at hx
        by_cases hlt : x < c.inputLen
        · omega
        · rw [if_neg hlt] at hx
          by_cases hlt' : x < c.inputLen + ls'.length
          · exact hlt'
          · rw [List.getElem?_eq_none (by omega)] at hx
            exact absurd rfl hx
      obtain ⟨g, hg⟩ := hmir.onto x hlt
      have hg : res.wog g = some x := hg
      exact ⟨g, hsome g x hg, by simp only [hg]; rfl⟩
    gates := by
      intro g gate hg
      obtain ⟨x, hx⟩ := hall g (by rw [hg]; simp)
      simp only [hx, Option.getD_some]
      rw [e3.gate]
      by_cases hlt : x < c.inputLen
      · rw [if_pos hlt]
        have := hmir.low g x hx hlt
        rw [hg] at this
        cases this; rfl
      · rw [if_neg hlt]
        have hx' := hmir.lt g x hx
        obtain ⟨g', gate', l, k1, k2, k3, _, _, k5⟩ := hgates (x - c.inputLen) (by omega)
        rw [Nat.add_sub_cancel' (by omega)] at k2
        have := hmir.inj g g' x hx k2
        subst this
        rw [hg] at k3; cases k3
        rw [k1]; exact k5
    inputs := by
      intro k
      rw [e3.inputMap]
      by_cases hlt : k < c.inputLen
      · obtain ⟨g, hg⟩ := Option.isSome_iff_exists.mp ((hwf.input_dom k).mpr hlt)
        have := hb.file.inputs g k ((hwf.input_iff k g).mp hg)
        rw [if_pos hlt, hg]
        simp [this]
      · rw [if_neg hlt]
        cases e : c.inputMap k with
        | none => rfl
        | some g => exact absurd ((hwf.input_dom k).mp (by rw [e]; rfl)) hlt
    outputs := by
      intro k
      rw [e5]
      by_cases hlt : k < c.outputLen
      · obtain ⟨o, ho⟩ := Option.isSome_iff_exists.mp ((hwf.output_dom k).mpr hlt)
        have := t2 k o ho
        rw [if_pos hlt, ho]
        simp [this]
      · rw [if_neg hlt]
        cases e : c.outputMap k with
        | none => rfl
        | some g => exact absurd ((hwf.output_dom k).mp (by rw [e]; rfl)) hlt
    consts := by rw [e3.constGates, hcg]; rfl
    inputLen := e3.inputLen
    outputLen := e4
    numConst := by rw [e3.numConst, hk]
    numGate := by rw [e3.numGate, hlen]
    numWire := by rw [e3.numWire, hlen]; omega }

/-- C57, what holds: for a circuit without modules that meets the conditions of C22, writing, reading into any empty circuit and writing
again gives the text that writing the original gives, for every width of the first input. -/
theorem C57_stable_partial {w : World} (h : ValidRun w) {r : Ref} {c : Circuit} (hc : w.circs[r]? = some c) (hm : NoModules c)
    (ht : TidyOutputs c) (hk : c.numConst = 0) (hl : Inlined w r c.numGate []) {numFirst : Nat} (hn : numFirst ≤ c.inputLen)
    (hs : c.numWire < 2 ^ 64) : ∃ res ls, Wrote w r c numFirst res ls ∧ ∀ w2 r2 s2, w2.circs[r2]? = some (Circuit.new s2) →
      ∃ gow w3 c3, read r2 Map.empty res.st.out w2 = (.ok gow, w3) ∧ w3.circs[r2]? = some c3 ∧
        ∀ k, k ≤ c.inputLen → ∃ res1 res3 ls1, Wrote w r c k res1 ls1 ∧ Wrote w3 r2 c3 k res3 ls1 ∧
          res3.st.out = res1.st.out ∧ (k = numFirst → res1 = res) := by
  obtain ⟨res, ls, hw, _⟩ := wrote_file h.wf (h.allBuilt r c hc) hc (numFirst := numFirst) (by omega)
  refine ⟨res, ls, hw, fun w2 r2 s2 hc2 => ?_⟩
  obtain ⟨gow, w3, c3, θ, e1, e2, e3, _⟩ := C57_same_circuit h hc hm ht hk hl hn hs hw hc2
  refine ⟨gow, w3, c3, e1, e2, fun k hkn => ?_⟩
  obtain ⟨res1, ls1, hw1, _⟩ := wrote_file h.wf (h.allBuilt r c hc) hc (numFirst := k) (by omega)
  obtain ⟨res3, h1, h2, _⟩ := C57_numbering h hc hm e2 e3 hw1
  refine ⟨res1, res3, ls1, hw1, h1, h2, ?_⟩
  rintro rfl
  exact (hw1.det hw).1

/-- a full adder; its gates are not numbered in the order of writing -/
def fullAdder : List Op :=
  [.newStorage, .newCircuit 0, .input 0, .input 0, .input 0, .and 0 0 1, .xor 0 0 1, .and 0 2 4, .xor 0 4 2, .or 0 5 3,
   .output 0 6, .output 0 7]

theorem fullAdder_valid : ValidRun (run fullAdder) := validRun_of_check fullAdder .nil (by decide)

theorem fullAdder_wrote : ∃ res, Wrote (run fullAdder) 0 (run fullAdder).circs[0] 2 res
    [⟨.xor, [0, 1], 3⟩, ⟨.and, [2, 3], 4⟩, ⟨.and, [0, 1], 5⟩, ⟨.xor, [3, 2], 6⟩, ⟨.or, [4, 5], 7⟩] ∧ res.consts = [] ∧
    (List.range 8).map res.wog = [some 0, some 1, some 2, some 5, some 3, some 4, some 6, some 7] :=
  wrote_of_run (fuel := 9) (by rfl)

theorem fullAdder_inlined : Inlined (run fullAdder) 0 5 [] := by
  obtain ⟨res, hw, hcs, _⟩ := fullAdder_wrote
  have hi := inlined_of_wrote fullAdder_valid rfl (by decide) hw
  rw [hcs] at hi
  exact hi

theorem fullAdder_plain : NoModules (run fullAdder).circs[0] := by
  intro g nIn nOut ids oi mid hg
  have hlt : g < 8 := (fullAdder_valid.wf.circ 0 _ rfl).lt_of_some hg
  match g, hlt with
  | 0, _ | 1, _ | 2, _ | 3, _ | 4, _ | 5, _ | 6, _ | 7, _ => cases hg

/-- C57_same_circuit and C57_numbering: the full adder is read back with its gates renumbered, and then written to the same text -/
example : ∃ gow w3 c3 θ, read 0 Map.empty (fileOf (run fullAdder).circs[0] 2
      [⟨.xor, [0, 1], 3⟩, ⟨.and, [2, 3], 4⟩, ⟨.and, [0, 1], 5⟩, ⟨.xor, [3, 2], 6⟩, ⟨.or, [4, 5], 7⟩]).text (run [.newStorage, .newCircuit 0]) =
      (.ok gow, w3) ∧ w3.circs[0]? = some c3 ∧ Renamed θ (run fullAdder).circs[0] c3 ∧ θ 3 = 5 ∧
    ∃ res3, Wrote w3 0 c3 2 res3 [⟨.xor, [0, 1], 3⟩, ⟨.and, [2, 3], 4⟩, ⟨.and, [0, 1], 5⟩, ⟨.xor, [3, 2], 6⟩, ⟨.or, [4, 5], 7⟩] := by
  obtain ⟨res, hw, _, hx⟩ := fullAdder_wrote
  obtain ⟨gow, w3, c3, θ, h1, h2, h3, h4⟩ := C57_same_circuit fullAdder_valid rfl fullAdder_plain
    (tidy_of_check (fullAdder_valid.wf.circ 0 _ rfl) (by decide)) rfl fullAdder_inlined (by decide) (by decide) hw
    (w2 := run [.newStorage, .newCircuit 0]) (r2 := 0) (s2 := 0) rfl
  obtain ⟨res3, h5, _⟩ := C57_numbering fullAdder_valid rfl fullAdder_plain h2 h3 hw
  rw [hw.2] at h1
  simp [List.range, List.range.loop] at hx
  have h6 := h4 3 nofun
  rw [hx.2.2.2.1] at h6
  exact ⟨gow, w3, c3, θ, h1, h2, h3, (Option.some.inj h6).symm, res3, h5⟩

/-- C57's hypotheses hold for it, and the renumbering is not trivial -/
example : ∃ c, (run fullAdder).circs[0]? = some c ∧ NoModules c ∧ TidyOutputs c ∧ c.numConst = 0 ∧
    Inlined (run fullAdder) 0 c.numGate [] ∧ 2 ≤ c.inputLen ∧ c.numWire < 2 ^ 64 ∧
    ∃ res, Wrote (run fullAdder) 0 c 2 res
      [⟨.xor, [0, 1], 3⟩, ⟨.and, [2, 3], 4⟩, ⟨.and, [0, 1], 5⟩, ⟨.xor, [3, 2], 6⟩, ⟨.or, [4, 5], 7⟩] ∧
      res.wog 3 = some 5 ∧ res.wog 4 = some 3 := by
  obtain ⟨res, hw, hcs, hx⟩ := fullAdder_wrote
  have hi := inlined_of_wrote fullAdder_valid rfl (by decide) hw
  rw [hcs] at hi
  have hwf := fullAdder_valid.wf.circ 0 _ rfl
  refine ⟨_, rfl, ?_, tidy_of_check hwf (by decide), rfl, hi, by decide, by decide, res, hw, ?_⟩
  · intro g nIn nOut ids oi mid hg
    have hlt : g < 8 := hwf.lt_of_some hg
    match g, hlt with
    | 0, _ | 1, _ | 2, _ | 3, _ | 4, _ | 5, _ | 6, _ | 7, _ => cases hg
  · simp [List.range, List.range.loop] at hx
    exact ⟨hx.2.2.2.1, hx.2.2.2.2.1⟩

/-- a half adder of which only the sum is used -/
def halfUsed : List Op :=
  [.newStorage, .newCircuit 0, .subCircuit 0, .input 1, .input 1, .xor 1 0 1, .and 1 0 1, .output 1 2, .output 1 3,
   .input 0, .input 0, .module 0 0 [0, 1], .not 0 2, .output 0 4]

theorem halfUsed_valid : ValidRun (run halfUsed) := validRun_of_check halfUsed .nil (by decide)

theorem halfUsed_wrote : ∃ res, Wrote (run halfUsed) 0 (run halfUsed).circs[0] 1 res
    [⟨.xor, [0, 1], 2⟩, ⟨.and, [0, 1], 3⟩, ⟨.inv, [2], 4⟩] ∧ res.consts = [] ∧ ([] : List Nat).map res.wog = [] :=
  wrote_of_run (n := 0) (fuel := 9) (by rfl)

/-- what is read back -/
def halfRead : List Op :=
  [.newStorage, .newCircuit 0, .input 0, .input 0, .xor 0 0 1, .and 0 0 1, .not 0 2, .output 0 4]

theorem halfRead_valid : ValidRun (run halfRead) := validRun_of_check halfRead .nil (by decide)

/-- C57 is false for circuits with modules: this circuit meets the conditions of C22, so its text can be read back. Writing that circuit
gives another text, and that text cannot be read at all: the second output of the module is inlined the first time and left out, but
still counted, the second time. -/
theorem C57_full_false : ∃ w c, ValidRun w ∧ w.circs[0]? = some c ∧ TidyOutputs c ∧ c.numConst = 0 ∧ Inlined w 0 c.numGate [] ∧
    ∃ res ls, Wrote w 0 c 1 res ls ∧ ∃ w2 s2 gow w3 c3, Reachable w2 ∧ w2.circs[0]? = some (Circuit.new s2) ∧
      read 0 Map.empty res.st.out w2 = (.ok gow, w3) ∧ w3.circs[0]? = some c3 ∧
      ∃ res3 ls3, Wrote w3 0 c3 1 res3 ls3 ∧ res3.st.out ≠ res.st.out ∧ ∀ w4, Reachable w4 → ∀ r4 c4, w4.circs[r4]? = some c4 →
        ∃ p w5, read r4 Map.empty res3.st.out w4 = (.error (.panic p), w5) := by
  obtain ⟨res, hw, hcs, _⟩ := halfUsed_wrote
  have hi := inlined_of_wrote halfUsed_valid rfl (by decide) hw
  rw [hcs] at hi
  have hread : read 0 Map.empty res.st.out (run [.newStorage, .newCircuit 0]) =
      (.ok (((((Map.empty.insert 0 0).insert 1 1).insert 2 2).insert 3 3).insert 4 4), run halfRead) := by
    rw [hw.2]; rfl
  refine ⟨run halfUsed, _, halfUsed_valid, rfl, tidy_of_check (halfUsed_valid.wf.circ 0 _ rfl) (by decide), rfl, hi, res, _, hw,
    run [.newStorage, .newCircuit 0], 0, _, run halfRead, (run halfRead).circs[0], run_reachable _, rfl, hread, rfl, ?_⟩
  · have hnd : ¬ Needed (run halfRead).circs[0] 3 := by
      intro hnd
      obtain ⟨res, hw, _, hx⟩ := wrote_of_run (w := run halfRead) (fuel := 9) (r := 0) (c := (run halfRead).circs[0])
        (numFirst := 1) (n := 5) (cs := []) (xs := [some 0, some 1, some 2, none, some 3])
        (ls := [⟨.xor, [0, 1], 2⟩, ⟨.inv, [2], 3⟩]) (by rfl)
      obtain ⟨res', ls, h1, h2, _⟩ := C19_computes halfRead_valid (r := 0) (c := (run halfRead).circs[0]) rfl (numFirst := 1)
        (by decide)
      obtain ⟨rfl, rfl⟩ := hw.det h1
      simp [List.range, List.range.loop] at hx
      exact (h2 3).mpr (.inr (.inr hnd)) hx.2.2.2.1
    obtain ⟨res3, ls3, h1, h2⟩ := C22_dead_false halfRead_valid (r := 0) (c := (run halfRead).circs[0]) (numFirst := 1) rfl (by decide)
      (by decide) (by decide) (by decide) (d := 3) ⟨0, 1, .inr (.inr (.inl rfl))⟩ hnd
    refine ⟨res3, ls3, h1, ?_, h2⟩
    intro e
    obtain ⟨p, w5, h3⟩ := h2 (run [.newStorage, .newCircuit 0]) (run_reachable _) 0 _ rfl
    rw [e, hread] at h3
    cases h3

end CC.Props
