import Verif.Proofs.BrText
import Verif.Proofs.Session
import Verif.Proofs.Plays

/-!
# The Bristol reader
-/

namespace CC.Bristol
open CC CC.Spec CC.Spec.Bristol

/-! ### tokens to numbers -/

theorem nextUsize_ok {ts ts' : List Str} {n : Nat} : nextUsize ts = .ok (n, ts') ↔ ∃ t, ts = t :: ts' ∧ Numeral t n := by
  cases ts with
  | nil =>
    constructor
    · intro h; cases h
    · rintro ⟨t, h, _⟩; cases h
  | cons t ts =>
    show (do let n ← parseUsize t; Except.ok (n, ts)) = _ ↔ _
    cases h : parseUsize t with
    | error e =>
      obtain ⟨rfl, hn⟩ := parseUsize_error.mp h
      constructor
      · intro h; cases h
      · rintro ⟨t', h', hn'⟩; cases h'; exact absurd hn' (hn n)
    | ok m =>
      have hm := parseUsize_ok.mp h
      constructor
      · intro h; cases h; exact ⟨t, rfl, hm⟩
      · rintro ⟨t', h', hn'⟩
        cases h'
        rw [hm.det hn']; rfl

theorem nextUsize_cons {t : Str} {ts : List Str} {n : Nat} (h : Numeral t n) : nextUsize (t :: ts) = .ok (n, ts) :=
  nextUsize_ok.mpr ⟨t, rfl, h⟩

theorem nextUsize_nil : nextUsize [] = .error .lineSplit := rfl

theorem nextUsize_bad {t : Str} {ts : List Str} (h : NotNumeral t) : nextUsize (t :: ts) = .error .parseInt := by
  show (do let n ← parseUsize t; Except.ok (n, ts)) = _
  rw [parseUsize_error.mpr ⟨rfl, h⟩]; rfl

theorem bind_lift_ok {α β} {x : Except Err α} {a : α} (h : x = .ok a) (f : α → M β) (w : World) :
    (lift x >>= f) w = f a w := by subst h; rfl

theorem bind_lift_error {α β} {x : Except Err α} {e : Err} (h : x = .error e) (f : α → M β) (w : World) :
    (lift x >>= f) w = (.error e, w) := by subst h; rfl

theorem ebind_ok {α β} {x : Except Err α} {a : α} (h : x = .ok a) (f : α → Except Err β) : (x >>= f) = f a := by
  subst h; rfl

theorem ebind_error {α β} {x : Except Err α} {e : Err} (h : x = .error e) (f : α → Except Err β) :
    (x >>= f) = .error e := by subst h; rfl

/-! ### inputs -/

/-- the map after binding `k` wires from `start` on to consecutive gates from `g` on -/
def bindRange (gow : GOW) (start g k : Nat) : GOW := fun x => if start ≤ x ∧ x < start + k then some (g + (x - start)) else gow x

theorem bindRange_zero (gow : GOW) (start g : Nat) : bindRange gow start g 0 = gow := by
  funext x; unfold bindRange; rw [if_neg (by omega)]

theorem bindRange_step (gow : GOW) (start g k : Nat) :
    bindRange (gow.insert start g) (start + 1) (g + 1) k = bindRange gow start g (k + 1) := by
  funext x
  unfold bindRange Map.insert
  by_cases h1 : start + 1 ≤ x ∧ x < start + 1 + k
  · rw [if_pos h1, if_pos (by omega)]; congr 1; omega
  · rw [if_neg h1]
    by_cases h2 : x = start
    · subst h2; rw [if_pos rfl, if_pos (by omega)]; congr 1; omega
    · rw [if_neg h2, if_neg (by omega)]

theorem bindRange_append (gow : GOW) (start g k m : Nat) :
    bindRange (bindRange gow start g k) (start + k) (g + k) m = bindRange gow start g (k + m) := by
  funext x
  unfold bindRange
  by_cases h1 : start + k ≤ x ∧ x < start + k + m
  · rw [if_pos h1, if_pos (by omega)]; congr 1; omega
  · rw [if_neg h1]
    by_cases h2 : start ≤ x ∧ x < start + k
    · rw [if_pos h2, if_pos (by omega)]
    · rw [if_neg h2, if_neg (by omega)]

/-- the inputs `inputLen, …, inputLen + k - 1`, as gates -/
def inputGates (n k : Nat) : List Gate := (List.range k).map fun j => .input (n + j)

theorem inputGates_succ (n k : Nat) : .input n :: inputGates (n + 1) k = inputGates n (k + 1) := by
  unfold inputGates
  rw [List.range_succ_eq_map, List.map_cons, List.map_map]
  congr 1
  apply List.map_congr_left
  intro j _
  simp only [Function.comp]
  congr 1; omega

/-- `c'` is `c` with the gates `gs` appended (what matters of `Appends`) -/
structure Adds (c c' : Circuit) (gs : List Gate) : Prop where
  idx : c'.gateIndex = c.gateIndex + gs.length
  old : ∀ g, g < c.gateIndex → c'.gateMap g = c.gateMap g
  new : ∀ i, c'.gateMap (c.gateIndex + i) = gs[i]?
  outputMap : c'.outputMap = c.outputMap
  outputLen : c'.outputLen = c.outputLen

theorem _root_.CC.Appends.adds {c c' : Circuit} {gs : List Gate} (h : Appends c c' gs) : Adds c c' gs :=
  ⟨h.idx, fun _ hg => h.old hg, h.new, h.outputMap, h.outputLen⟩

theorem Adds.refl {c : Circuit} (hw : WFc c) : Adds c c [] :=
  ⟨rfl, fun _ _ => rfl, fun i => by rw [hw.none_of_ge (by omega)]; rfl, rfl, rfl⟩

theorem Adds.trans {c c' c'' : Circuit} {gs gs' : List Gate} (h : Adds c c' gs) (k : Adds c' c'' gs') :
    Adds c c'' (gs ++ gs') := by
  refine ⟨by rw [k.idx, h.idx, List.length_append]; omega, ?_, ?_, k.outputMap.trans h.outputMap,
    k.outputLen.trans h.outputLen⟩
  · intro g hg
    have := h.idx
    rw [k.old g (by omega), h.old g hg]
  · intro i
    have hi := h.idx
    by_cases hlt : i < gs.length
    · rw [k.old _ (by omega), h.new, List.getElem?_append_left hlt]
    · rw [List.getElem?_append_right (by omega), ← k.new]
      congr 1; omega

theorem Adds.cases {c c' : Circuit} {gs : List Gate} (hw : WFc c) (h : Adds c c' gs) {g : GateId} {x : Gate}
    (hg : c'.gateMap g = some x) : c.gateMap g = some x ∨ ∃ i, g = c.gateIndex + i ∧ gs[i]? = some x := by
  by_cases hlt : g < c.gateIndex
  · left; rw [← h.old g hlt]; exact hg
  · right
    refine ⟨g - c.gateIndex, by omega, ?_⟩
    rw [← h.new]
    rw [show c.gateIndex + (g - c.gateIndex) = g by omega]; exact hg

/-- circuit `r` gained `k` inputs and nothing else -/
structure GainsInputs (r : Ref) (w : World) (c : Circuit) (w' : World) (c' : Circuit) (k : Nat) : Prop where
  on : On r w w'
  wf : WFw w'
  ext : Ext w w'
  circ : w'.circs[r]? = some c'
  inputLen : c'.inputLen = c.inputLen + k
  adds : Adds c c' (inputGates c.inputLen k)

theorem GainsInputs.refl {r : Ref} {w : World} {c : Circuit} (hw : WFw w) (hc : w.circs[r]? = some c) :
    GainsInputs r w c w c 0 :=
  ⟨.refl, hw, .refl w, hc, rfl, .refl (hw.circ r c hc)⟩

theorem inputGates_append (n k m : Nat) : inputGates n k ++ inputGates (n + k) m = inputGates n (k + m) := by
  unfold inputGates
  rw [List.range_add, List.map_append, List.map_map]
  congr 1
  apply List.map_congr_left
  intro j _
  simp only [Function.comp]
  congr 1; omega

theorem GainsInputs.trans {r : Ref} {w w' w'' : World} {c c' c'' : Circuit} {k m : Nat}
    (h : GainsInputs r w c w' c' k) (h' : GainsInputs r w' c' w'' c'' m) : GainsInputs r w c w'' c'' (k + m) := by
  refine ⟨h.on.trans h'.on, h'.wf, h.ext.trans h'.ext, h'.circ, by rw [h'.inputLen, h.inputLen]; omega, ?_⟩
  have := h.adds.trans h'.adds
  rw [h.inputLen, inputGates_append] at this
  exact this

theorem gainsInput {r : Ref} {w : World} {c : Circuit} (hw : WFw w) (hc : w.circs[r]? = some c) :
    input r w = (.ok c.gateIndex, w.setC r c.input.2) ∧ GainsInputs r w c (w.setC r c.input.2) c.input.2 1 := by
  have he := input_eq hc
  have hwc := hw.circ r c hc
  have hwf := (good_input r w hw).1
  rw [he] at hwf
  refine ⟨he, ?_, hwf, Ext.setC hc (ExtC.input hwc), setC_get hc _, rfl, (Circuit.input_appends hwc).adds⟩
  have := On.step (r := r) (.input r) (On.refl (w := w)) rfl
  rw [show ((Op.input r).call w).2 = (CC.input r w).2 from map_world _ _ w, he] at this
  exact this

theorem readInputBits_ok {r : Ref} : ∀ (k start : Nat) {gow : GOW} {w : World} {c : Circuit}, WFw w → w.circs[r]? = some c →
    ∃ w' c', readInputBits r gow start k w = (.ok (bindRange gow start c.gateIndex k), w') ∧ GainsInputs r w c w' c' k := by
  intro k
  induction k with
  | zero =>
    intro start gow w c hw hc
    exact ⟨w, c, by rw [bindRange_zero]; rfl, .refl hw hc⟩
  | succ k ih =>
    intro start gow w c hw hc
    obtain ⟨he, hg⟩ := gainsInput hw hc
    obtain ⟨w', c', h1, h2⟩ := ih (start + 1) (gow := gow.insert start c.gateIndex) hg.wf hg.circ
    refine ⟨w', c', ?_, by rw [Nat.add_comm k 1]; exact hg.trans h2⟩
    rw [readInputBits, bind_ok he, h1, ← bindRange_step]
    rfl

theorem readInputs_ok {r : Ref} : ∀ (ns : List Nat) (sum : Nat) {ts rest : List Str} {gow : GOW} {w : World} {c : Circuit},
    WFw w → w.circs[r]? = some c → All2 Numeral ts ns →
    ∃ w' c', readInputs r gow sum ns.length (ts ++ rest) w = (.ok (bindRange gow sum c.gateIndex ns.sum), w') ∧
      GainsInputs r w c w' c' ns.sum := by
  intro ns
  induction ns with
  | nil =>
    intro sum ts rest gow w c hw hc h
    exact ⟨w, c, by rw [List.sum_nil, bindRange_zero]; rfl, .refl hw hc⟩
  | cons n ns ih =>
    intro sum ts rest gow w c hw hc h
    cases ts with
    | nil => exact h.elim
    | cons t ts =>
      obtain ⟨w1, c1, h1, g1⟩ := readInputBits_ok n sum (gow := gow) hw hc
      obtain ⟨w2, c2, h2, g2⟩ := ih (sum + n) (rest := rest) (gow := bindRange gow sum c.gateIndex n) g1.wf g1.circ h.2
      refine ⟨w2, c2, ?_, by rw [List.sum_cons]; exact g1.trans g2⟩
      rw [List.length_cons, List.cons_append, readInputs, bind_lift_ok (nextUsize_cons h.1)]
      simp only []
      rw [bind_ok h1, h2, g1.adds.idx, List.sum_cons, ← bindRange_append]
      simp [inputGates]

theorem readOutputLens_ok : ∀ (ns : List Nat) (sum : Nat) {ts rest : List Str}, All2 Numeral ts ns →
    readOutputLens sum ns.length (ts ++ rest) = .ok (sum + ns.sum) := by
  intro ns
  induction ns with
  | nil => intro sum ts rest _; rfl
  | cons n ns ih =>
    intro sum ts rest h
    cases ts with
    | nil => exact h.elim
    | cons t ts =>
      rw [List.length_cons, List.cons_append, readOutputLens, ebind_ok (nextUsize_cons h.1)]
      simp only []
      rw [ih _ h.2, List.sum_cons]
      congr 1; omega

/-! ### gate lines -/

theorem readOperands_ok {gow : GOW} : ∀ {ns : List Nat} {ts rest : List Str}, All2 Numeral ts ns →
    (∀ x ∈ ns, gow x ≠ none) → ∃ gs, All2 (fun x g => gow x = some g) ns gs ∧
      readOperands gow ns.length (ts ++ rest) = .ok (gs, rest) := by
  intro ns
  induction ns with
  | nil =>
    intro ts rest h _
    cases ts with
    | nil => exact ⟨[], trivial, rfl⟩
    | cons t ts => exact h.elim
  | cons n ns ih =>
    intro ts rest h hd
    cases ts with
    | nil => exact h.elim
    | cons t ts =>
      obtain ⟨gs, h1, h2⟩ := ih (rest := rest) h.2 (fun x hx => hd x (by simp [hx]))
      obtain ⟨g, hg⟩ := Option.ne_none_iff_exists'.mp (hd n (by simp))
      refine ⟨g :: gs, ⟨hg, h1⟩, ?_⟩
      rw [List.length_cons, List.cons_append, readOperands, ebind_ok (nextUsize_cons h.1)]
      simp only [hg]
      rw [ebind_ok h2]

theorem readOutWires_ok : ∀ {ns : List Nat} {ts rest : List Str}, All2 Numeral ts ns →
      readOutWires ns.length (ts ++ rest) = .ok (ns, rest) := by
  intro ns
  induction ns with
  | nil =>
    intro ts rest h
    cases ts with
    | nil => rfl
    | cons t ts => exact h.elim
  | cons n ns ih =>
    intro ts rest h
    cases ts with
    | nil => exact h.elim
    | cons t ts =>
      rw [List.length_cons, List.cons_append, readOutWires, ebind_ok (nextUsize_cons h.1)]
      simp only []
      rw [ebind_ok (ih h.2)]

theorem readGateTokens_ok {gow : GOW} {l : Str} {g : GLine} (h : GateText l g) (hd : ∀ x ∈ g.args, gow x ≠ none) :
    ∃ gs, All2 (fun x g => gow x = some g) g.args gs ∧
      readGateTokens gow (tokensOf l) = .ok (gs, [g.out], g.op.name) := by
  obtain ⟨a, b, as, o, rest, hl, ha, hb, has, ho⟩ := h
  obtain ⟨gs, h1, h2⟩ := readOperands_ok (rest := o :: g.op.name :: rest) has hd
  refine ⟨gs, h1, ?_⟩
  have h3 := readOutWires_ok (ns := [g.out]) (ts := [o]) (rest := g.op.name :: rest) ⟨ho, trivial⟩
  rw [layout_iff.mp hl]
  unfold readGateTokens
  rw [List.cons_append, List.cons_append, ebind_ok (nextUsize_cons ha)]
  simp only []
  rw [ebind_ok (nextUsize_cons hb)]
  simp only []
  rw [ebind_ok h2]
  simp only []
  rw [ebind_ok (show readOutWires 1 (o :: g.op.name :: rest) = _ from h3)]
  rfl

theorem gateText_ne {l : Str} {g : GLine} (h : GateText l g) : l ≠ [] := by
  obtain ⟨a, b, as, o, rest, hl, _⟩ := h
  rintro rfl
  have := layout_iff.mp hl
  simp [tokensOf, tokensAux] at this

/-- the gates made for one line; `i` is the next gate id -/
def lineGates (i : GateId) : GOp → List GateId → List Gate
  | .inv, [a] => [.not a]
  | .eq, [a] => [.not a, .not i]
  | .eqw, [a] => [.not a, .not i]
  | .xor, [a, b] => [.xor a b]
  | .and, [a, b] => [.and a b]
  | .or, [a, b] => [.or a b]
  | _, _ => []

theorem _root_.CC.RunsW.adds {r : Ref} {w : World} {c c' : Circuit} {gate : Gate} {x : M GateId} (hw : WFw w)
    (hc : w.circs[r]? = some c) (op : Op) (hop : op.target = some r) (hcall : ∀ w, (op.call w).2 = (x w).2)
    (he : x w = (.ok c.gateIndex, w.setC r c')) (hg : Good x) (ap : Appends c c' [gate])
    (hx : ExtC c c') (hin : c'.inputLen = c.inputLen) : RunsW r w x fun g w' =>
      g = c.gateIndex ∧ ∃ c', w'.circs[r]? = some c' ∧ Adds c c' [gate] := by
  have hwf := (hg w hw).1
  rw [he] at hwf
  refine RunsW.gate hw hc op hop hcall he hwf ap hx hin ?_
  intro _ h2 _
  exact ⟨rfl, c', h2, ap.adds⟩

section
variable {r : Ref} {w : World} {c : Circuit}

theorem runs_not (hw : WFw w) (hc : w.circs[r]? = some c) (x : GateId) : RunsW r w (CC.not r x) fun g w' =>
    g = c.gateIndex ∧ ∃ c', w'.circs[r]? = some c' ∧ Adds c c' [.not x] :=
  RunsW.adds hw hc (.not r x) rfl (fun w => map_world _ _ w) (not_eq hc x) (good_not r x)
    (Circuit.not_appends (hw.circ r c hc) x) (.not (hw.circ r c hc) x) (by simp [Circuit.not, Circuit.addGate])

theorem runs_xor (hw : WFw w) (hc : w.circs[r]? = some c) (x y : GateId) : RunsW r w (CC.xor r x y) fun g w' =>
    g = c.gateIndex ∧ ∃ c', w'.circs[r]? = some c' ∧ Adds c c' [.xor x y] :=
  RunsW.adds hw hc (.xor r x y) rfl (fun w => map_world _ _ w) (xor_eq hc x y) (good_xor r x y)
    (Circuit.xor_appends (hw.circ r c hc) x y) (.xor (hw.circ r c hc) x y) (by simp [Circuit.xor, Circuit.addGate])

theorem runs_and (hw : WFw w) (hc : w.circs[r]? = some c) (x y : GateId) : RunsW r w (CC.and r x y) fun g w' =>
    g = c.gateIndex ∧ ∃ c', w'.circs[r]? = some c' ∧ Adds c c' [.and x y] :=
  RunsW.adds hw hc (.and r x y) rfl (fun w => map_world _ _ w) (and_eq hc x y) (good_and r x y)
    (Circuit.and_appends (hw.circ r c hc) x y) (.and (hw.circ r c hc) x y) (by simp [Circuit.and, Circuit.addGate])

theorem runs_or (hw : WFw w) (hc : w.circs[r]? = some c) (x y : GateId) : RunsW r w (CC.or r x y) fun g w' =>
    g = c.gateIndex ∧ ∃ c', w'.circs[r]? = some c' ∧ Adds c c' [.or x y] :=
  RunsW.adds hw hc (.or r x y) rfl (fun w => map_world _ _ w) (or_eq hc x y) (good_or r x y)
    (Circuit.or_appends (hw.circ r c hc) x y) (.or (hw.circ r c hc) x y) (by simp [Circuit.or, Circuit.addGate])

theorem runs_identity (hw : WFw w) (hc : w.circs[r]? = some c) (x : GateId) : RunsW r w (CC.identity r x) fun g w' =>
    g = c.gateIndex + 1 ∧ ∃ c', w'.circs[r]? = some c' ∧ Adds c c' [.not x, .not c.gateIndex] := by
  refine RunsW.seq (runs_not hw hc x) ?_
  rintro g w1 g1 ⟨rfl, c1, hc1, h1⟩
  refine (runs_not g1.wf hc1 c.gateIndex).mono ?_
  rintro g w2 g2 ⟨rfl, c2, hc2, h2⟩
  exact ⟨by rw [h1.idx]; rfl, c2, hc2, h1.trans h2⟩

/-- one gate line -/
theorem readGateOp_ok (hw : WFw w) (hc : w.circs[r]? = some c) (gow : GOW) {op : GOp} {ids : List GateId}
    (hlen : ids.length = op.arity) (out : Nat) : RunsW r w (readGateOp r gow ids [out] op.name) fun gow' w' =>
      ∃ c', w'.circs[r]? = some c' ∧ Adds c c' (lineGates c.gateIndex op ids) ∧ c.gateIndex < c'.gateIndex ∧
        gow' = gow.insert out (c'.gateIndex - 1) := by
  have fin : ∀ {x : M GateId} {gs : List Gate}, gs ≠ [] → RunsW r w x (fun g w' => g = c.gateIndex + gs.length - 1 ∧
      ∃ c', w'.circs[r]? = some c' ∧ Adds c c' gs) → RunsW r w (x >>= fun g => (pure (gow.insert out g) : M GOW))
      fun gow' w' => ∃ c', w'.circs[r]? = some c' ∧ Adds c c' gs ∧ c.gateIndex < c'.gateIndex ∧
        gow' = gow.insert out (c'.gateIndex - 1) := by
    intro x gs hne hx
    refine RunsW.seq hx ?_
    rintro g w' gr ⟨rfl, c', hc', ha⟩
    have := List.length_pos_iff.mpr hne
    have hi := ha.idx
    exact RunsW.pure gr.wf ⟨c', hc', ha, by omega, by rw [hi]⟩
  have un : op.arity = 1 → ∃ a, ids = [a] := fun h => List.length_eq_one_iff.mp (hlen.trans h)
  have bin : op.arity = 2 → ∃ a b, ids = [a, b] := fun h => by
    match ids, hlen.trans h with
    | [a, b], _ => exact ⟨a, b, rfl⟩
  cases op
  · obtain ⟨a, rfl⟩ := un rfl
    exact fin (gs := [.not a]) (by simp) (runs_not hw hc a)
  · obtain ⟨a, rfl⟩ := un rfl
    exact fin (gs := [.not a, .not c.gateIndex]) (by simp) (runs_identity hw hc a)
  · obtain ⟨a, rfl⟩ := un rfl
    exact fin (gs := [.not a, .not c.gateIndex]) (by simp) (runs_identity hw hc a)
  · obtain ⟨a, b, rfl⟩ := bin rfl
    exact fin (gs := [.xor a b]) (by simp) (runs_xor hw hc a b)
  · obtain ⟨a, b, rfl⟩ := bin rfl
    exact fin (gs := [.and a b]) (by simp) (runs_and hw hc a b)
  · obtain ⟨a, b, rfl⟩ := bin rfl
    exact fin (gs := [.or a b]) (by simp) (runs_or hw hc a b)

/-! ### wires and gates -/

/-- the bound gates have the values of the wires -/
structure Linked (w : World) (r : Ref) (gow : GOW) (ins : List Bool) (e : Wires) : Prop where
  bound : ∀ x g, gow x = some g → ∃ b, e x = some b ∧ Val w r ins g b
  free : ∀ x, gow x = none → e x = none

theorem Linked.values {gow : GOW} {ins : List Bool} {e : Wires} (h : Linked w r gow ins e) : ∀ {xs : List Nat} {gs : List GateId},
    All2 (fun x g => gow x = some g) xs gs → ∃ bs, vals e xs = some bs ∧ All2 (Val w r ins) gs bs
  | [], [], _ => ⟨[], rfl, trivial⟩
  | x :: xs, g :: gs, ha => by
    obtain ⟨b, h1, h2⟩ := h.bound x g ha.1
    obtain ⟨bs, h3, h4⟩ := Linked.values h ha.2
    exact ⟨b :: bs, by simp [Spec.Bristol.vals, h1, h3], h2, h4⟩
  | [], _ :: _, ha => ha.elim
  | _ :: _, [], ha => ha.elim

/-- the last gate made for a line has the line's value -/
theorem lineGates_val {w' : World} {c' : Circuit} {op : GOp} {ids : List GateId} {ins bs : List Bool}
    (hlen : ids.length = op.arity) (hc' : w'.circs[r]? = some c') (ha : Adds c c' (lineGates c.gateIndex op ids))
    (hv : All2 (Val w' r ins) ids bs) : ∃ b, op.fn bs = some b ∧ Val w' r ins (c'.gateIndex - 1) b := by
  have un : op.arity = 1 → ∃ a b, ids = [a] ∧ bs = [b] ∧ Val w' r ins a b := fun h => by
    match ids, bs, hlen.trans h, hv with
    | [a], [b], _, hv => exact ⟨a, b, rfl, rfl, hv.1⟩
    | [a], [], _, hv => exact hv.elim
    | [a], _ :: _ :: _, _, hv => exact hv.2.elim
  have bin : op.arity = 2 → ∃ a a' b b', ids = [a, a'] ∧ bs = [b, b'] ∧ Val w' r ins a b ∧ Val w' r ins a' b' := fun h => by
    match ids, bs, hlen.trans h, hv with
    | [a, a'], [b, b'], _, hv => exact ⟨a, a', b, b', rfl, rfl, hv.1, hv.2.1⟩
    | [a, a'], [], _, hv => exact hv.elim
    | [a, a'], [_], _, hv => exact hv.2.elim
    | [a, a'], _ :: _ :: _ :: _, _, hv => exact hv.2.2.elim
  have hi := ha.idx
  cases op
  · obtain ⟨a, b, rfl, rfl, h⟩ := un rfl
    have hg := ha.new 0
    simp only [lineGates, List.length_cons, List.length_nil] at hi hg
    refine ⟨_, rfl, .not hc' (x := a) ?_ h⟩
    rw [hi]; exact hg
  · obtain ⟨a, b, rfl, rfl, h⟩ := un rfl
    have hg := ha.new 0
    have hg1 := ha.new 1
    simp only [lineGates, List.length_cons, List.length_nil] at hi hg hg1
    have := Val.not hc' (g := c'.gateIndex - 1) (by rw [hi]; exact hg1) (.not hc' hg h)
    simp only [Bool.not_not] at this
    exact ⟨_, rfl, this⟩
  · obtain ⟨a, b, rfl, rfl, h⟩ := un rfl
    have hg := ha.new 0
    have hg1 := ha.new 1
    simp only [lineGates, List.length_cons, List.length_nil] at hi hg hg1
    have := Val.not hc' (g := c'.gateIndex - 1) (by rw [hi]; exact hg1) (.not hc' hg h)
    simp only [Bool.not_not] at this
    exact ⟨_, rfl, this⟩
  · obtain ⟨a, a', b, b', rfl, rfl, h, h'⟩ := bin rfl
    have hg := ha.new 0
    simp only [lineGates, List.length_cons, List.length_nil] at hi hg
    refine ⟨_, rfl, .xor hc' (x := a) (y := a') ?_ h h'⟩
    rw [hi]; exact hg
  · obtain ⟨a, a', b, b', rfl, rfl, h, h'⟩ := bin rfl
    have hg := ha.new 0
    simp only [lineGates, List.length_cons, List.length_nil] at hi hg
    refine ⟨_, rfl, .and hc' (x := a) (y := a') ?_ h h'⟩
    rw [hi]; exact hg
  · obtain ⟨a, a', b, b', rfl, rfl, h, h'⟩ := bin rfl
    have hg := ha.new 0
    simp only [lineGates, List.length_cons, List.length_nil] at hi hg
    refine ⟨_, rfl, .or hc' (x := a) (y := a') ?_ h h'⟩
    rw [hi]; exact hg

theorem Linked.line {w' : World} {c' : Circuit} {gow : GOW} {ins : List Bool} {e : Wires} {g : GLine} {ids : List GateId}
    (h : Linked w r gow ins e) (hg : Grows r w w') (hlen : g.args.length = g.op.arity)
    (hids : All2 (fun x g => gow x = some g) g.args ids) (hc' : w'.circs[r]? = some c')
    (ha : Adds c c' (lineGates c.gateIndex g.op ids)) :
    Linked w' r (gow.insert g.out (c'.gateIndex - 1)) ins (g.exec e) := by
  obtain ⟨bs, h1, h2⟩ := h.values hids
  obtain ⟨b, h3, h4⟩ := lineGates_val (by rw [← hids.length]; exact hlen) hc' ha (hg.vals h2)
  constructor
  · intro x y hx
    unfold GLine.exec
    rw [Map.insert_apply] at hx
    split at hx
    · next hxo =>
      rw [if_pos hxo, h1]
      cases hx
      exact ⟨b, h3, h4⟩
    · next hxo =>
      rw [if_neg hxo]
      obtain ⟨b, k1, k2⟩ := h.bound x y hx
      exact ⟨b, k1, hg.val k2⟩
  · intro x hx
    unfold GLine.exec
    rw [Map.insert_apply] at hx
    split at hx
    · cases hx
    · next hxo => rw [if_neg hxo]; exact h.free x hx

/-- structure of the circuit and the map: every wire has its own gate, and a gate is read only if its wire is used -/
structure ReadInv (c : Circuit) (gow : GOW) (U : Nat → Prop) : Prop where
  topo : Topo c
  lt : ∀ x g, gow x = some g → g < c.gateIndex
  inj : ∀ x y g, gow x = some g → gow y = some g → x = y
  read : ∀ x g h gate, gow x = some g → c.gateMap h = some gate → g ∈ gate.operands → U x

/-- no module calls were added -/
def SameCalls (c c' : Circuit) : Prop := ∀ g nIn nOut ids oi mid, c'.gateMap g = some (.module nIn nOut ids oi mid) →
  c.gateMap g = some (.module nIn nOut ids oi mid)

theorem lineGates_ops {i : GateId} {op : GOp} {ids : List GateId} {k : Nat} {gate : Gate}
    (h : (lineGates i op ids)[k]? = some gate) : (∀ nIn nOut is oi mid, gate ≠ .module nIn nOut is oi mid) ∧
      (∀ x ∈ gate.operands, x ∈ ids ∨ (x = i ∧ k = 1 ∧ (lineGates i op ids).length = 2)) := by
  unfold lineGates at h ⊢
  split at h <;> (rcases k with _ | _ | k <;> simp at h <;> subst h <;>
    refine ⟨by intros; simp, fun x hx => ?_⟩ <;> simp [Gate.operands] at hx ⊢ <;> simp [hx])

theorem lineGates_not_module {i : GateId} {op : GOp} {ids : List GateId} {k : Nat} {gate : Gate}
    (h : (lineGates i op ids)[k]? = some gate) (g : GateId) : lead g gate = g := by
  have := (lineGates_ops h).1
  cases gate with
  | module a b c d e => exact absurd rfl (this a b c d e)
  | _ => rfl

theorem ReadInv.line {c' : Circuit} {gow : GOW} {U : Nat → Prop} {g : GLine} {ids : List GateId} (hwc : WFc c)
    (h : ReadInv c gow U) (hids : All2 (fun x g => gow x = some g) g.args ids)
    (ha : Adds c c' (lineGates c.gateIndex g.op ids)) (hlt : c.gateIndex < c'.gateIndex) :
    ReadInv c' (gow.insert g.out (c'.gateIndex - 1)) (fun x => U x ∨ x ∈ g.args) := by
  have hi := ha.idx
  have hid : ∀ x ∈ ids, ∃ y, y ∈ g.args ∧ gow y = some x := by
    intro x hx
    obtain ⟨k, hk, rfl⟩ := List.getElem_of_mem hx
    obtain ⟨a, b, h1, h2, h3⟩ := hids.get (i := k) (by rw [hids.length]; exact hk)
    rw [List.getElem?_eq_getElem hk] at h2
    cases h2
    exact ⟨a, List.mem_of_getElem? h1, h3⟩
  have hidlt : ∀ x ∈ ids, x < c.gateIndex := fun x hx => by
    obtain ⟨y, _, hy⟩ := hid x hx
    exact h.lt y x hy
  -- operands of gates of `c'`
  have hops : ∀ y gate x, c'.gateMap y = some gate → x ∈ gate.operands →
      c.gateMap y = some gate ∨ x ∈ ids ∨ (x = c.gateIndex ∧ c'.gateIndex = c.gateIndex + 2) := by
    intro y gate x hy hx
    rcases ha.cases hwc hy with hy | ⟨k, rfl, hk⟩
    · exact .inl hy
    · rcases (lineGates_ops hk).2 x hx with h1 | ⟨h1, h2, h3⟩
      · exact .inr (.inl h1)
      · exact .inr (.inr ⟨h1, by omega⟩)
  have holdlt : ∀ y gate x, c.gateMap y = some gate → x ∈ gate.operands → x < c.gateIndex := by
    intro y gate x hy hx
    have h1 := h.topo y gate hy x hx
    have h2 := lead_le y gate
    have h3 := hwc.lt_of_some hy
    omega
  refine ⟨?_, ?_, ?_, ?_⟩
  · intro y gate hy x hx
    rcases ha.cases hwc hy with hy' | ⟨k, rfl, hk⟩
    · exact h.topo y gate hy' x hx
    · rw [lineGates_not_module hk]
      rcases (lineGates_ops hk).2 x hx with h1 | ⟨h1, h2, _⟩
      · have := hidlt x h1; omega
      · omega
  · intro x y hx
    rw [Map.insert_apply] at hx
    split at hx
    · cases hx; omega
    · have := h.lt x y hx; omega
  · intro x y z hx hy
    rw [Map.insert_apply] at hx hy
    split at hx <;> split at hy
    · simp_all
    · cases hx; have := h.lt y _ hy; omega
    · cases hy; have := h.lt x _ hx; omega
    · exact h.inj x y z hx hy
  · intro x z y gate hx hy hz
    rw [Map.insert_apply] at hx
    split at hx
    · cases hx
      rcases hops y gate _ hy hz with h1 | h1 | h1
      · have := holdlt y gate _ h1 hz; omega
      · have := hidlt _ h1; omega
      · omega
    · have hzlt := h.lt x z hx
      rcases hops y gate _ hy hz with h1 | h1 | h1
      · exact .inl (h.read x z y gate hx h1 hz)
      · obtain ⟨v, hv, hvz⟩ := hid z h1
        exact .inr (h.inj v x z hvz hx ▸ hv)
      · omega

theorem SameCalls.line {c' : Circuit} {op : GOp} {ids : List GateId} (hwc : WFc c)
    (ha : Adds c c' (lineGates c.gateIndex op ids)) : SameCalls c c' := by
  intro g nIn nOut is oi mid hg
  rcases ha.cases hwc hg with h | ⟨k, rfl, hk⟩
  · exact h
  · exact absurd rfl ((lineGates_ops hk).1 nIn nOut is oi mid)

theorem defined_cons {P : Nat → Prop} {l : GLine} {ls : List GLine} {x : Nat} :
    Defined P (l :: ls) x ↔ Defined (fun x => P x ∨ x = l.out) ls x := by
  simp only [Defined, List.mem_cons, exists_eq_or_imp]
  constructor
  · rintro (h | rfl | h)
    · exact .inl (.inl h)
    · exact .inl (.inr rfl)
    · exact .inr h
  · rintro ((h | rfl) | h)
    · exact .inl h
    · exact .inr (.inl rfl)
    · exact .inr (.inr h)

theorem uses_congr {P Q : Nat → Prop} (h : ∀ x, P x ↔ Q x) : P = Q := funext fun x => propext (h x)

theorem insert_ne_none {gow : GOW} {o g : Nat} : (fun x => (gow.insert o g) x ≠ none) = fun x => gow x ≠ none ∨ x = o := by
  apply uses_congr
  intro x
  rw [Map.insert_apply]
  by_cases h : x = o
  · simp [h]
  · simp [h]

/-- what reading gate lines does -/
structure ReadGates (w : World) (r : Ref) (gow : GOW) (gs : List GLine) (gow' : GOW) (w' : World) : Prop where
  defined : ∀ x, gow' x ≠ none ↔ Defined (gow · ≠ none) gs x
  linked : ∀ ins e, Linked w r gow ins e → Linked w' r gow' ins (exec gs e)
  struct : ∀ c, w.circs[r]? = some c → ∃ c', w'.circs[r]? = some c' ∧ SameCalls c c' ∧
    ∀ U, ReadInv c gow U → ReadInv c' gow' (fun x => U x ∨ ∃ l ∈ gs, x ∈ l.args)

theorem readGates_end {gow : GOW} {tail : List Str} (h : ∀ l, tail.head? = some l → l = []) :
    readGates r gow tail = pure gow := by
  cases tail with
  | nil => rfl
  | cons l ls => rw [h l rfl]; rfl

/-- good lines are read, the rest remains -/
theorem readGates_prefix : ∀ {gs : List GLine} {ls : List Str} {gow : GOW} {w : World} {c : Circuit} (tail : List Str), WFw w →
    w.circs[r]? = some c → All2 GateText ls gs → Uses (fun x => gow x ≠ none) gs →
    ∃ gow' w', Grows r w w' ∧ ReadGates w r gow gs gow' w' ∧ readGates r gow (ls ++ tail) w = readGates r gow' tail w' := by
  intro gs
  induction gs with
  | nil =>
    intro ls gow w c tail hw hc hl _
    cases ls with
    | cons l ls => exact hl.elim
    | nil =>
      refine ⟨gow, w, .refl hw, ⟨fun x => by simp [Defined], fun ins e h => h, ?_⟩, rfl⟩
      intro c hc
      refine ⟨c, hc, fun _ _ _ _ _ _ h => h, fun U h => ⟨h.topo, h.lt, h.inj, fun x g k gate h1 h2 h3 =>
        .inl (h.read x g k gate h1 h2 h3)⟩⟩
  | cons g gs ih =>
    intro ls gow w c tail hw hc hl hu
    cases ls with
    | nil => exact hl.elim
    | cons l ls =>
      obtain ⟨hu1, hu2, hu3⟩ := hu
      obtain ⟨ids, hids, htok⟩ := readGateTokens_ok hl.1 hu2
      have hne : l.isEmpty = false := by simpa using gateText_ne hl.1
      obtain ⟨gow1, w1, he1, gr1, c1, hc1, ha, hlt, rfl⟩ :=
        readGateOp_ok hw hc gow (op := g.op) (ids := ids) (by rw [← hids.length]; exact hu1) g.out
      rw [← insert_ne_none (g := c1.gateIndex - 1)] at hu3
      obtain ⟨gow2, w2, gr2, h2, he2⟩ := ih tail gr1.wf hc1 hl.2 hu3
      refine ⟨gow2, w2, gr1.trans gr2, ⟨?_, ?_, ?_⟩, ?_⟩
      · intro x
        rw [h2.defined, defined_cons, insert_ne_none]
      · intro ins e he
        exact h2.linked ins _ (he.line gr1 hu1 hids hc1 ha)
      · intro c0 hc0
        rw [hc] at hc0; cases hc0
        obtain ⟨c2, hc2, hs, hinv⟩ := h2.struct c1 hc1
        have hwc := hw.circ r c hc
        refine ⟨c2, hc2, fun _ _ _ _ _ _ h => SameCalls.line hwc ha _ _ _ _ _ _ (hs _ _ _ _ _ _ h), ?_⟩
        intro U hU
        have h3 := hinv _ (hU.line hwc hids ha hlt)
        refine ⟨h3.topo, h3.lt, h3.inj, ?_⟩
        intro x y z gate k1 k2 k3
        rcases h3.read x y z gate k1 k2 k3 with (h | h) | h
        · exact .inl h
        · exact .inr ⟨g, by simp, h⟩
        · obtain ⟨l, hl1, hl2⟩ := h
          exact .inr ⟨l, by simp [hl1], hl2⟩
      · rw [List.cons_append, readGates, hne]
        refine (bind_lift_ok htok _ w).trans ?_
        refine Eq.trans ?_ he2
        exact bind_ok he1

theorem readGates_ok {gs : List GLine} {ls tail : List Str} {gow : GOW} {w : World} {c : Circuit} (hw : WFw w)
    (hc : w.circs[r]? = some c) (hl : All2 GateText ls gs) (ht : ∀ l, tail.head? = some l → l = [])
    (hu : Uses (fun x => gow x ≠ none) gs) : RunsW r w (readGates r gow (ls ++ tail)) (ReadGates w r gow gs) := by
  obtain ⟨gow', w', h1, h2, h3⟩ := readGates_prefix tail hw hc hl hu
  refine ⟨gow', w', ?_, h1, h2⟩
  rw [h3, readGates_end ht]; rfl

/-! ### outputs -/

/-- circuit `r` gained the outputs `os` and nothing else -/
structure GainsOutputs (r : Ref) (w : World) (c : Circuit) (w' : World) (c' : Circuit) (os : List GateId) : Prop where
  on : On r w w'
  wf : WFw w'
  ext : Ext w w'
  circ : w'.circs[r]? = some c'
  gateMap : c'.gateMap = c.gateMap
  gateIndex : c'.gateIndex = c.gateIndex
  inputLen : c'.inputLen = c.inputLen
  storage : c'.storage = c.storage
  outputLen : c'.outputLen = c.outputLen + os.length
  outputMap : ∀ i, c'.outputMap i = if i < c.outputLen then c.outputMap i else os[i - c.outputLen]?

theorem GainsOutputs.val {w' : World} {c' : Circuit} {os : List GateId} (hc : w.circs[r]? = some c)
    (h : GainsOutputs r w c w' c' os) {ins g b} (hv : Val w r ins g b) : Val w' r ins g b := by
  refine hv.ext h.ext ?_
  intro mr mc mc' _ h1 h2
  by_cases he : mr = r
  · subst he
    rw [hc] at h1; cases h1
    rw [h.circ] at h2; cases h2
    exact h.inputLen
  · rw [h.on.other he h1] at h2; cases h2; rfl

theorem readFinal_ok {gow : GOW} : ∀ {xs : List Nat} {os : List GateId} {w : World} {c : Circuit}, WFw w →
    w.circs[r]? = some c → All2 (fun x g => gow x = some g ∧ g < c.gateIndex) xs os →
    ∃ w' c', readFinal r gow xs w = (.ok (), w') ∧ GainsOutputs r w c w' c' os := by
  intro xs
  induction xs with
  | nil =>
    intro os w c hw hc h
    cases os with
    | cons o os => exact h.elim
    | nil =>
      refine ⟨w, c, rfl, .refl, hw, .refl w, hc, rfl, rfl, rfl, rfl, rfl, ?_⟩
      intro i
      split
      · rfl
      · next hi =>
        have := (hw.circ r c hc).output_dom i
        cases h : c.outputMap i with
        | none => rfl
        | some o => rw [h] at this; exact absurd (this.mp rfl) hi
  | cons x xs ih =>
    intro os w c hw hc h
    cases os with
    | nil => exact h.elim
    | cons o os =>
      obtain ⟨⟨h1, h2⟩, h3⟩ := h
      have hwc := hw.circ r c hc
      obtain ⟨gate, hgate⟩ := hwc.some_of_lt h2
      have he := output_eq_ok hc hgate
      have hwf := (good_output r o w hw).1
      rw [he] at hwf
      have hext : ExtC c { c with outputMap := c.outputMap.insert c.outputLen o, outputLen := c.outputLen + 1 } := by
        have := ExtC.output hwc o
        unfold Circuit.output at this; rw [hgate] at this; exact this
      obtain ⟨w', c', k1, k2⟩ := ih hwf (setC_get hc _) h3
      refine ⟨w', c', ?_, ?_, k2.wf, (Ext.setC hc hext).trans k2.ext, k2.circ, k2.gateMap, k2.gateIndex, k2.inputLen,
        k2.storage, ?_, ?_⟩
      · rw [readFinal, h1]
        simp only []
        rw [bind_ok he, k1]
      · have := On.step (r := r) (.output r o) (On.refl (w := w)) rfl
        rw [show ((Op.output r o).call w).2 = (CC.output r o w).2 from map_world _ _ w, he] at this
        exact this.trans k2.on
      · rw [k2.outputLen]
        simp only [List.length_cons]
        omega
      · intro i
        rw [k2.outputMap]
        simp only [Map.insert_apply]
        by_cases hi : i < c.outputLen
        · rw [if_pos (by omega), if_neg (by omega), if_pos hi]
        · by_cases hi2 : i = c.outputLen
          · subst hi2; simp
          · rw [if_neg (by omega), if_neg hi]
            rw [show i - c.outputLen = (i - (c.outputLen + 1)) + 1 by omega, List.getElem?_cons_succ]

end

end CC.Bristol
