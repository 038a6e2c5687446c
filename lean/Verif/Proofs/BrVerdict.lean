import Verif.Proofs.BrFile
import Verif.Spec.Verdict

/-!
# The reader on any text
-/

namespace CC.Bristol
open CC CC.Spec CC.Spec.Bristol

section
variable {r : Ref} {w : World} {c : Circuit}

/-! ### rows -/

theorem rowText_ne {l : Str} {row : Row} (h : RowText l row) : l ≠ [] := by
  obtain ⟨ts, hl, a, b, as, bs, rest, rfl, _⟩ := h
  rintro rfl
  have := layout_iff.mp hl
  simp [tokensOf, tokensAux] at this

theorem readRowTokens_ok {gow : GOW} {l : Str} {row : Row} (h : RowText l row) (hd : ∀ x ∈ row.args, gow x ≠ none) :
    ∃ gs, All2 (fun x g => gow x = some g) row.args gs ∧
      readGateTokens gow (tokensOf l) = .ok (gs, row.outs, row.op.name) := by
  obtain ⟨ts, hl, a, b, as, bs, rest, rfl, ha, hb, has, hbs⟩ := h
  obtain ⟨gs, h1, h2⟩ := readOperands_ok (rest := bs ++ row.op.name :: rest) has hd
  refine ⟨gs, h1, ?_⟩
  have h3 := readOutWires_ok (rest := row.op.name :: rest) hbs
  rw [layout_iff.mp hl]
  unfold readGateTokens
  rw [List.append_assoc, List.cons_append, List.cons_append, ebind_ok (nextUsize_cons ha)]
  simp only []
  rw [ebind_ok (nextUsize_cons hb)]
  simp only []
  rw [ebind_ok h2]
  simp only []
  rw [ebind_ok h3]
  rfl

theorem all2_take {α β} {R : α → β → Prop} : ∀ (n : Nat) {xs : List α} {ys : List β}, All2 R xs ys →
    All2 R (xs.take n) (ys.take n)
  | 0, _, _, _ => by simp [All2]
  | _ + 1, [], [], _ => by simp [All2]
  | n + 1, _ :: _, _ :: _, h => ⟨h.1, all2_take n h.2⟩
  | _ + 1, [], _ :: _, h => h.elim
  | _ + 1, _ :: _, [], h => h.elim

theorem idx_take {α} (l : List α) (n i : Nat) (h : i < n) : (M.idx l i : M α) = M.idx (l.take n) i := by
  unfold M.idx
  rw [List.getElem?_take_of_lt h]

/-- surplus operands and outputs are ignored -/
theorem readGateOp_take (gow : GOW) (gs : List GateId) (o : Nat) (os : List Nat) (op : GOp) :
    readGateOp r gow gs (o :: os) op.name = readGateOp r gow (gs.take op.arity) [o] op.name := by
  cases op
  all_goals
    have e0 : ∀ {β} (f : GateId → M β), (M.idx gs 0 >>= f) = (M.idx (gs.take 1) 0 >>= f) :=
      fun f => by rw [idx_take gs 1 0 (by omega)]
    have e1 : ∀ {β} (f : GateId → M β), (M.idx gs 0 >>= f) = (M.idx (gs.take 2) 0 >>= f) :=
      fun f => by rw [idx_take gs 2 0 (by omega)]
    have e2 : ∀ {β} (f : GateId → M β), (M.idx gs 1 >>= f) = (M.idx (gs.take 2) 1 >>= f) :=
      fun f => by rw [idx_take gs 2 1 (by omega)]
  · exact e0 _
  · exact e0 _
  · exact e0 _
  all_goals
    refine (e1 _).trans ?_
    exact congrArg (fun f => M.idx (gs.take 2) 0 >>= f) (funext fun a => e2 _)

theorem enough_outs {row : Row} (h : row.Enough) : ∃ os, row.outs = row.line.out :: os := by
  match hr : row.outs, h.2 with
  | o :: os, _ => exact ⟨os, by simp [Row.line, hr]⟩

/-- good rows are read, the rest remains -/
theorem readRows_prefix : ∀ {rows : List Row} {ls : List Str} {gow : GOW} {w : World} {c : Circuit} (tail : List Str), WFw w →
    w.circs[r]? = some c → All2 RowText ls rows → RowsUse (fun x => gow x ≠ none) rows →
    ∃ gow' w', Grows r w w' ∧ ReadGates w r gow (rows.map Row.line) gow' w' ∧
      readGates r gow (ls ++ tail) w = readGates r gow' tail w' := by
  intro rows
  induction rows with
  | nil =>
    intro ls gow w c tail hw hc hl _
    cases ls with
    | cons l ls => exact hl.elim
    | nil => exact readGates_prefix (gs := []) (ls := []) tail hw hc trivial trivial
  | cons row rows ih =>
    intro ls gow w c tail hw hc hl hu
    cases ls with
    | nil => exact hl.elim
    | cons l ls =>
      obtain ⟨hu1, hu2, hu3⟩ := hu
      obtain ⟨ids, hids, htok⟩ := readRowTokens_ok hl.1 hu2
      obtain ⟨os, hos⟩ := enough_outs hu1
      have hne : l.isEmpty = false := by simpa using rowText_ne hl.1
      have hids' : All2 (fun x g => gow x = some g) row.line.args (ids.take row.op.arity) := all2_take _ hids
      have hlen : (ids.take row.op.arity).length = row.op.arity := by
        rw [List.length_take, ← hids.length]; have := hu1.1; omega
      have hlen' : row.line.args.length = row.line.op.arity := by rw [hids'.length]; exact hlen
      obtain ⟨gow1, w1, he1, gr1, c1, hc1, ha, hlt, rfl⟩ :=
        readGateOp_ok hw hc gow (op := row.op) (ids := ids.take row.op.arity) hlen row.line.out
      rw [← readGateOp_take (os := os), ← hos] at he1
      rw [← insert_ne_none (g := c1.gateIndex - 1)] at hu3
      obtain ⟨gow2, w2, gr2, h2, he2⟩ := ih tail gr1.wf hc1 hl.2 hu3
      refine ⟨gow2, w2, gr1.trans gr2, ⟨?_, ?_, ?_⟩, ?_⟩
      · intro x
        rw [h2.defined, List.map_cons, defined_cons, insert_ne_none]
      · intro ins e he
        exact h2.linked ins _ (he.line gr1 hlen' hids' hc1 ha)
      · intro c0 hc0
        rw [hc] at hc0; cases hc0
        obtain ⟨c2, hc2, hs, hinv⟩ := h2.struct c1 hc1
        have hwc := hw.circ r c hc
        refine ⟨c2, hc2, fun _ _ _ _ _ _ h => SameCalls.line hwc ha _ _ _ _ _ _ (hs _ _ _ _ _ _ h), ?_⟩
        intro U hU
        have h3 := hinv _ (hU.line (g := row.line) hwc hids' ha hlt)
        refine ⟨h3.topo, h3.lt, h3.inj, ?_⟩
        intro x y z gate k1 k2 k3
        rcases h3.read x y z gate k1 k2 k3 with (h | h) | h
        · exact .inl h
        · exact .inr ⟨row.line, by simp, h⟩
        · obtain ⟨l, hl1, hl2⟩ := h
          exact .inr ⟨l, by rw [List.map_cons]; exact List.mem_cons_of_mem _ hl1, hl2⟩
      · rw [List.cons_append, readGates, hne]
        refine (bind_lift_ok htok _ w).trans ?_
        refine Eq.trans ?_ he2
        exact bind_ok he1

theorem readRows_ok {rows : List Row} {ls tail : List Str} {gow : GOW} {w : World} {c : Circuit} (hw : WFw w)
    (hc : w.circs[r]? = some c) (hl : All2 RowText ls rows) (ht : ∀ l, tail.head? = some l → l = [])
    (hu : RowsUse (fun x => gow x ≠ none) rows) :
    RunsW r w (readGates r gow (ls ++ tail)) (ReadGates w r gow (rows.map Row.line)) := by
  obtain ⟨gow', w', h1, h2, h3⟩ := readRows_prefix tail hw hc hl hu
  refine ⟨gow', w', ?_, h1, h2⟩
  rw [h3, readGates_end ht]; rfl

/-! ### the three verdicts -/

theorem read_accepts {f : File} {text : Str} (hw : WFw w) (hc : w.circs[r]? = some c) (h : Accepts f text) :
    ∃ gow w' c', read r Map.empty text w = (.ok gow, w') ∧ ReadFile f r w c w' c' := by
  obtain ⟨⟨ls, tail, rows, ⟨l1, l2, l3, l4, hls, h1, h2, h3⟩, hrows, hu, hgs, htail⟩, hroom, houts⟩ := h
  refine read_ok_of hw hc hls h1 h2 h3 ?_ hroom houts
  intro w c gow hw hc hg
  rw [hgs]
  exact readRows_ok hw hc hrows htail (by rw [hg]; exact hu)

/-- the header is read, the gate lines remain -/
theorem read_header {text : Str} {a b : Nat} {is os : List Nat} {ls : List Str} (hw : WFw w) (hc : w.circs[r]? = some c)
    (h : Header text a b is os ls) : ∃ (w1 : World) (c1 : Circuit), GainsInputs r w c w1 c1 is.sum ∧
      read r Map.empty text w = (do
        let gow ← readGates r (bindRange Map.empty 0 c.gateIndex is.sum) ls
        if b < os.sum then M.throw (.panic .underflow)
        else do
          readFinal r gow (rangeFromTo (b - os.sum) b)
          pure gow) w1 := by
  obtain ⟨l1, l2, l3, l4, hls, h1, h2, h3⟩ := h
  obtain ⟨x, w1, c1, h4, g1, rfl⟩ := read_third hw hc hls h1 h2 h3
  refine ⟨w1, c1, g1, ?_⟩
  rw [h4]
  simp only []
  rw [bind_lift_ok (x := nextLine 4 (l4 :: ls)) rfl]

theorem read_rejects {text : Str} {e : Err} (hw : WFw w) (hc : w.circs[r]? = some c) (h : Rejects text e) :
    ∃ w', read r Map.empty text w = (.error e, w') := by
  cases h with
  | line1 h1 => exact read_bad hw hc (.line1 h1)
  | head h1 h2 h3 => exact read_bad hw hc (.head h1 h2 h3)
  | line2 h1 h2 => exact read_bad hw hc (.line2 h1 h2)
  | ins h1 h2 h3 h4 => exact read_bad hw hc (.ins h1 h2 h3 h4)
  | line3 h1 h2 h3 => exact read_bad hw hc (.line3 h1 h2 h3)
  | outs h1 h2 h3 h4 h5 => exact read_bad hw hc (.outs h1 h2 h3 h4 h5)
  | line4 h1 h2 h3 h4 => exact read_bad hw hc (.line4 h1 h2 h3 h4)
  | @gate ls l rest a b is os rows ts e hh hrows hu hl hlay hbad =>
    obtain ⟨w1, c1, g1, he⟩ := read_header hw hc hh
    rw [he]
    rw [← bindRange_empty (g := c.gateIndex)] at hu hbad
    obtain ⟨gow2, w2, g2, r2, he⟩ := readRows_prefix (l :: rest) g1.wf g1.circ hrows hu
    refine ⟨w2, bind_error' (he.trans ?_) _⟩
    exact readGate_bad (fun x => (r2.defined x).symm) hl hlay hbad w2

theorem readGateOp_panics {w : World} {c : Circuit} (hw : WFw w) (hc : w.circs[r]? = some c) (gow : GOW) {op : GOp}
    {ids : List GateId} {outs : List Nat} (h : ¬ (op.arity ≤ ids.length ∧ outs ≠ [])) :
    ∃ w', readGateOp r gow ids outs op.name w = (.error (.panic .indexOutOfBounds), w') := by
  have hnone : ∀ {β} (f : GateId → M β) (k : Nat), ids.length ≤ k → (M.idx ids k >>= f) w = (.error (.panic .indexOutOfBounds), w) := by
    intro β f k hk
    refine bind_error' ?_ _
    unfold M.idx
    rw [List.getElem?_eq_none hk]; rfl
  have hsome : ∀ {β} (f : GateId → M β) (k : Nat) (hk : k < ids.length), (M.idx ids k >>= f) w = f ids[k] w := by
    intro β f k hk
    refine bind_ok ?_
    unfold M.idx
    rw [List.getElem?_eq_getElem hk]; rfl
  have out : ∀ {x : M GateId} {g w'}, outs = [] → x w = (.ok g, w') →
      (x >>= bindOut gow outs) w = (.error (.panic .indexOutOfBounds), w') := by
    rintro x g w' rfl hx
    rw [bind_ok hx]; rfl
  have un : ∀ {x : GateId → M GateId}, op.arity = 1 → (∀ a, ∃ g w', x a w = (.ok g, w')) →
      ∃ w', (do let a ← M.idx ids 0; let g ← x a; bindOut gow outs g) w = (.error (.panic .indexOutOfBounds), w') := by
    intro x ha hx
    by_cases h1 : ids.length ≤ 0
    · exact ⟨w, hnone _ 0 h1⟩
    · obtain ⟨g, w', hg⟩ := hx (ids[0]'(by omega))
      refine ⟨w', ?_⟩
      rw [hsome _ 0 (by omega)]
      exact out (Classical.byContradiction fun hne => h ⟨by omega, hne⟩) hg
  have bin : ∀ {x : GateId → GateId → M GateId}, op.arity = 2 → (∀ a b, ∃ g w', x a b w = (.ok g, w')) →
      ∃ w', (do let a ← M.idx ids 0; let b ← M.idx ids 1; let g ← x a b; bindOut gow outs g) w =
        (.error (.panic .indexOutOfBounds), w') := by
    intro x ha hx
    by_cases h1 : ids.length ≤ 0
    · exact ⟨w, hnone _ 0 h1⟩
    · by_cases h2 : ids.length ≤ 1
      · exact ⟨w, by rw [hsome _ 0 (by omega)]; exact hnone _ 1 h2⟩
      · obtain ⟨g, w', hg⟩ := hx (ids[0]'(by omega)) (ids[1]'(by omega))
        refine ⟨w', ?_⟩
        rw [hsome _ 0 (by omega), hsome _ 1 (by omega)]
        exact out (Classical.byContradiction fun hne => h ⟨by omega, hne⟩) hg
  have run : ∀ {x : M GateId} {P : GateId → World → Prop}, RunsW r w x P → ∃ g w', x w = (.ok g, w') :=
    fun ⟨g, w', hx, _⟩ => ⟨g, w', hx⟩
  cases op
  · exact un rfl fun a => run (runs_not hw hc a)
  · exact un rfl fun a => run (runs_identity hw hc a)
  · exact un rfl fun a => run (runs_identity hw hc a)
  · exact bin rfl fun a b => run (runs_xor hw hc a b)
  · exact bin rfl fun a b => run (runs_and hw hc a b)
  · exact bin rfl fun a b => run (runs_or hw hc a b)

theorem readFinal_panics {gow : GOW} : ∀ {xs : List Nat} {w : World} {c : Circuit}, WFw w → w.circs[r]? = some c →
    (∀ x g, gow x = some g → g < c.gateIndex) → (∃ x ∈ xs, gow x = none) →
    ∃ w', readFinal r gow xs w = (.error (.panic .missingKey), w') := by
  intro xs
  induction xs with
  | nil => rintro w c _ _ _ ⟨x, hx, _⟩; cases hx
  | cons x xs ih =>
    intro w c hw hc hlt hx
    cases hg : gow x with
    | none => exact ⟨w, by rw [readFinal, hg]; rfl⟩
    | some g =>
      have hx' : ∃ x ∈ xs, gow x = none := by
        obtain ⟨y, hy, hn⟩ := hx
        rcases List.mem_cons.mp hy with rfl | hy
        · rw [hg] at hn; cases hn
        · exact ⟨y, hy, hn⟩
      obtain ⟨w1, c1, h1, g1⟩ := readFinal_ok (xs := [x]) (os := [g]) hw hc ⟨⟨hg, hlt x g hg⟩, trivial⟩
      obtain ⟨w2, h2⟩ := ih g1.wf g1.circ (by rw [g1.gateIndex]; exact hlt) hx'
      refine ⟨w2, ?_⟩
      rw [readFinal, hg] at h1 ⊢
      simp only [] at h1 ⊢
      rw [M.bind_apply] at h1 ⊢
      rcases ho : output r g w with ⟨res, w'⟩
      rw [ho] at h1
      cases res with
      | error e => simp only [] at h1; cases h1
      | ok a =>
        simp only [readFinal] at h1
        cases h1
        exact h2

/-- header and gate lines are read -/
theorem read_parses {f : File} {text : Str} (hw : WFw w) (hc : w.circs[r]? = some c) (h : Parses f text) :
    ∃ (gow : GOW) (w2 : World) (c2 : Circuit), WFw w2 ∧ w2.circs[r]? = some c2 ∧
      c2.inputLen = c.inputLen + f.numIn ∧ c2.outputLen = c.outputLen ∧
      (∀ x, gow x ≠ none ↔ Defined (· < f.numIn) f.gates x) ∧ (∀ x g, gow x = some g → g < c2.gateIndex) ∧
      read r Map.empty text w = (if f.numWire < f.numOut then M.throw (.panic .underflow)
        else do
          readFinal r gow (rangeFromTo (f.numWire - f.numOut) f.numWire)
          pure gow) w2 := by
  obtain ⟨ls, tail, rows, hh, hrows, hu, hgs, htail⟩ := h
  obtain ⟨w1, c1, g1, he⟩ := read_header hw hc hh
  rw [← bindRange_empty (g := c.gateIndex)] at hu
  obtain ⟨gow2, w2, he2, g2, r2⟩ := readRows_ok g1.wf g1.circ hrows htail hu
  obtain ⟨c2, hc2, _⟩ := r2.struct c1 g1.circ
  obtain ⟨c2', hc2', _, hin, hout, _⟩ := g2.circ c1 g1.circ
  rw [hc2] at hc2'; cases hc2'
  refine ⟨gow2, w2, c2, g2.wf, hc2, by rw [hin, g1.inputLen]; rfl, by rw [hout, g1.adds.outputLen], ?_, ?_, ?_⟩
  · intro x
    rw [hgs, ← bindRange_empty (g := c.gateIndex)]
    exact r2.defined x
  · intro x g hx
    have hl := r2.linked _ _ (g1.linked (pre := List.replicate c.inputLen false) (ins := List.replicate f.ins.sum false)
      (by simp) (by simp))
    obtain ⟨b, _, hb⟩ := hl.bound x g hx
    obtain ⟨c', gate, k1, k2⟩ := val_gate hb
    rw [hc2] at k1; cases k1
    exact (g2.wf.circ r c2 hc2).lt_of_some k2
  · rw [he]
    exact bind_ok he2

theorem read_panics {text : Str} {p : Panic} (hw : WFw w) (hc : w.circs[r]? = some c) (h : Panics text p) :
    ∃ w', read r Map.empty text w = (.error (.panic p), w') := by
  cases h with
  | @row ls l rest a b is os rows row hh hrows hu hl hd hne =>
    obtain ⟨w1, c1, g1, he⟩ := read_header hw hc hh
    rw [← bindRange_empty (g := c.gateIndex)] at hu hd
    obtain ⟨gow2, w2, g2, r2, he2⟩ := readRows_prefix (l :: rest) g1.wf g1.circ hrows hu
    obtain ⟨c2, hc2, _⟩ := r2.struct c1 g1.circ
    obtain ⟨ids, hids, htok⟩ := readRowTokens_ok hl (gow := gow2) (fun x hx => (r2.defined x).mpr (hd x hx))
    obtain ⟨w3, he3⟩ := readGateOp_panics g2.wf hc2 gow2 (op := row.op) (ids := ids) (outs := row.outs)
      (by rw [← hids.length]; exact hne)
    refine ⟨w3, ?_⟩
    rw [he]
    refine bind_error' (he2.trans ?_) _
    have hemp : l.isEmpty = false := by simpa using rowText_ne hl
    rw [readGates, hemp]
    refine (bind_lift_ok htok _ w2).trans ?_
    exact bind_error' he3 _
  | @room f hp hlt =>
    obtain ⟨gow2, w2, c2, hw2, hc2, _, _, hd, _, he⟩ := read_parses hw hc hp
    exact ⟨w2, by rw [he, if_pos hlt]; rfl⟩
  | @output f x hp hroom h1 h2 hnd =>
    obtain ⟨gow2, w2, c2, hw2, hc2, _, _, hd, hlt, he⟩ := read_parses hw hc hp
    obtain ⟨w3, he3⟩ := readFinal_panics (xs := rangeFromTo (f.numWire - f.numOut) f.numWire) hw2 hc2 hlt
      ⟨x, by simp only [rangeFromTo, List.mem_map, List.mem_range]; exact ⟨x - (f.numWire - f.numOut), by omega, by omega⟩,
        Classical.byContradiction fun hn => hnd ((hd x).mp hn)⟩
    exact ⟨w3, by rw [he, if_neg (by omega)]; exact bind_error' he3 _⟩

/-! ### there is no fourth -/

theorem nums_cases : ∀ (k : Nat) (ts : List Str), (∃ e, BadNums k ts e) ∨
    ∃ as ns rest, ts = as ++ rest ∧ ns.length = k ∧ All2 Numeral as ns
  | 0, ts => .inr ⟨[], [], ts, rfl, rfl, trivial⟩
  | k + 1, [] => .inl ⟨_, .missing⟩
  | k + 1, t :: ts => by
    by_cases hn : ∃ n, Numeral t n
    · obtain ⟨n, hn⟩ := hn
      rcases nums_cases k ts with ⟨e, he⟩ | ⟨as, ns, rest, rfl, hl, ha⟩
      · exact .inl ⟨e, .next hn he⟩
      · exact .inr ⟨t :: as, n :: ns, rest, rfl, by simp [hl], hn, ha⟩
    · exact .inl ⟨_, .notNum fun n h => hn ⟨n, h⟩⟩

theorem operands_cases (P : Nat → Prop) : ∀ (k : Nat) (ts : List Str), (∃ e, BadOperands P k ts e) ∨
    ∃ as ns rest, ts = as ++ rest ∧ ns.length = k ∧ All2 Numeral as ns ∧ ∀ x ∈ ns, P x
  | 0, ts => .inr ⟨[], [], ts, rfl, rfl, trivial, by simp⟩
  | k + 1, [] => .inl ⟨_, .missing⟩
  | k + 1, t :: ts => by
    by_cases hn : ∃ n, Numeral t n
    · obtain ⟨n, hn⟩ := hn
      by_cases hp : P n
      · rcases operands_cases P k ts with ⟨e, he⟩ | ⟨as, ns, rest, rfl, hl, ha, hP⟩
        · exact .inl ⟨e, .next hn hp he⟩
        · exact .inr ⟨t :: as, n :: ns, rest, rfl, by simp [hl], ⟨hn, ha⟩, by
            intro x hx; rcases List.mem_cons.mp hx with rfl | hx
            · exact hp
            · exact hP x hx⟩
      · exact .inl ⟨_, .unknown hn hp⟩
    · exact .inl ⟨_, .notNum fun n h => hn ⟨n, h⟩⟩

theorem all2_one {as : List Str} {ns : List Nat} (hl : ns.length = 1) (h : All2 Numeral as ns) :
    ∃ s a, as = [s] ∧ ns = [a] ∧ Numeral s a := by
  match as, ns, hl, h with
  | [s], [a], _, h => exact ⟨s, a, rfl, rfl, h.1⟩
  | [], [_], _, h => exact h.elim
  | _ :: _ :: _, [_], _, h => exact h.2.elim

theorem all2_two {as : List Str} {ns : List Nat} (hl : ns.length = 2) (h : All2 Numeral as ns) :
    ∃ s t a b, as = [s, t] ∧ ns = [a, b] ∧ Numeral s a ∧ Numeral t b := by
  match as, ns, hl, h with
  | [s, t], [a, b], _, h => exact ⟨s, t, a, b, rfl, rfl, h.1, h.2.1⟩
  | [], [_, _], _, h => exact h.elim
  | [_], [_, _], _, h => exact h.2.elim
  | _ :: _ :: _ :: _, [_, _], _, h => exact h.2.2.elim

theorem two_cases (l : Str) : (∃ ts e, Layout ts l ∧ BadNums 2 ts e) ∨ ∃ a b, TwoNumbers l a b := by
  have hl : Layout (tokensOf l) l := layout_iff.mpr rfl
  rcases nums_cases 2 (tokensOf l) with ⟨e, he⟩ | ⟨as, ns, rest, heq, hlen, ha⟩
  · exact .inl ⟨_, e, hl, he⟩
  · obtain ⟨s, t, a, b, rfl, rfl, h1, h2⟩ := all2_two hlen ha
    exact .inr ⟨a, b, s, t, rest, by rw [heq] at hl; exact hl, h1, h2⟩

theorem counted_cases (l : Str) : (∃ ts e, Layout ts l ∧ BadCounted ts e) ∨ ∃ ns, CountedNumbers l ns := by
  have hl : Layout (tokensOf l) l := layout_iff.mpr rfl
  rcases nums_cases 1 (tokensOf l) with ⟨e, he⟩ | ⟨as, ns, rest, heq, hlen, ha⟩
  · exact .inl ⟨_, e, hl, .count he⟩
  · obtain ⟨s, k, rfl, rfl, h1⟩ := all2_one hlen ha
    rcases nums_cases k rest with ⟨e, he⟩ | ⟨bs, ms, rest', rfl, hlen', hb⟩
    · exact .inl ⟨_, e, hl, by rw [heq]; exact .items h1 he⟩
    · exact .inr ⟨ms, s, bs, rest', by rw [heq] at hl; exact hl, by rw [hlen']; exact h1, hb⟩

theorem row_cases (P : Nat → Prop) (ts : List Str) : (∃ e, BadGate P ts e) ∨
    ∃ row, RowTokens ts row ∧ ∀ x ∈ row.args, P x := by
  rcases nums_cases 2 ts with ⟨e, he⟩ | ⟨as, ns, rest, rfl, hlen, ha⟩
  · exact .inl ⟨e, .counts he⟩
  · obtain ⟨s, t, a, b, rfl, rfl, hs, ht⟩ := all2_two hlen ha
    rcases operands_cases P a rest with ⟨e, he⟩ | ⟨as, ns, rest, rfl, hlen, has, hP⟩
    · exact .inl ⟨e, .operands hs ht he⟩
    have h1 : Numeral s ns.length := by rw [hlen]; exact hs
    rcases nums_cases b rest with ⟨e, he⟩ | ⟨bs, ms, rest, rfl, hlen', hbs⟩
    · exact .inl ⟨e, by simpa using BadGate.outs h1 ht has hP he⟩
    have h2 : Numeral t ms.length := by rw [hlen']; exact ht
    cases rest with
    | nil => exact .inl ⟨_, by simpa using BadGate.noName h1 h2 has hP hbs⟩
    | cons n rest =>
      by_cases hop : ∃ op : GOp, n = op.name
      · obtain ⟨op, rfl⟩ := hop
        exact .inr ⟨⟨op, ns, ms⟩, ⟨s, t, as, bs, rest, by simp, h1, h2, has, hbs⟩, hP⟩
      · refine .inl ⟨.notSupportedGate n, ?_⟩
        have := BadGate.name (P := P) (ts := rest) h1 h2 has hP hbs (fun op h => hop ⟨op, h⟩)
        simpa using this

theorem rows_cases : ∀ (ls : List Str) (P : Nat → Prop),
    (∃ good tail rows, ls = good ++ tail ∧ All2 RowText good rows ∧ RowsUse P rows ∧ ∀ l, tail.head? = some l → l = []) ∨
    (∃ good l rest rows, ls = good ++ l :: rest ∧ All2 RowText good rows ∧ RowsUse P rows ∧
      ((∃ ts e, l ≠ [] ∧ Layout ts l ∧ BadGate (Defined P (rows.map Row.line)) ts e) ∨
       (∃ row, RowText l row ∧ (∀ x ∈ row.args, Defined P (rows.map Row.line) x) ∧ ¬ row.Enough)))
  | [], P => .inl ⟨[], [], [], rfl, trivial, trivial, by simp⟩
  | l :: ls, P => by
    have hl : Layout (tokensOf l) l := layout_iff.mpr rfl
    by_cases hne : l = []
    · exact .inl ⟨[], l :: ls, [], rfl, trivial, trivial, by rintro _ ⟨⟩; exact hne⟩
    have hdef : Defined P ([].map Row.line) = P := uses_congr fun x => by simp [Defined]
    rcases row_cases P (tokensOf l) with ⟨e, he⟩ | ⟨row, hrow, hP⟩
    · exact .inr ⟨[], l, ls, [], rfl, trivial, trivial, .inl ⟨_, e, hne, hl, by rw [hdef]; exact he⟩⟩
    · by_cases hen : row.Enough
      · have hdef' : ∀ rows : List Row, Defined (fun x => P x ∨ x = row.line.out) (rows.map Row.line) =
            Defined P ((row :: rows).map Row.line) := fun rows => uses_congr fun x => by rw [List.map_cons, defined_cons]
        rcases rows_cases ls (fun x => P x ∨ x = row.line.out) with ⟨good, tail, rows, rfl, h1, h2, h3⟩ |
          ⟨good, l', rest, rows, rfl, h1, h2, h3⟩
        · exact .inl ⟨l :: good, tail, row :: rows, rfl, ⟨⟨_, hl, hrow⟩, h1⟩, ⟨hen, hP, h2⟩, h3⟩
        · refine .inr ⟨l :: good, l', rest, row :: rows, rfl, ⟨⟨_, hl, hrow⟩, h1⟩, ⟨hen, hP, h2⟩, ?_⟩
          rw [hdef'] at h3
          exact h3
      · exact .inr ⟨[], l, ls, [], rfl, trivial, trivial, .inr ⟨row, ⟨_, hl, hrow⟩, by rw [hdef]; exact hP, hen⟩⟩

theorem verdict_cases (text : Str) : (∃ f, Accepts f text) ∨ (∃ e, Rejects text e) ∨ ∃ p, Panics text p := by
  have hls : Lines (linesOf text) text := lines_iff.mpr rfl
  generalize linesOf text = ls at hls
  match ls, hls with
  | [], hls => exact .inr (.inl ⟨_, .line1 hls⟩)
  | l1 :: ls, hls =>
  rcases two_cases l1 with ⟨ts, e, h1, h2⟩ | ⟨a, b, h1⟩
  · exact .inr (.inl ⟨e, .head hls h1 h2⟩)
  match ls, hls with
  | [], hls => exact .inr (.inl ⟨_, .line2 hls h1⟩)
  | l2 :: ls, hls =>
  rcases counted_cases l2 with ⟨ts, e, h2, h3⟩ | ⟨is, h2⟩
  · exact .inr (.inl ⟨e, .ins hls h1 h2 h3⟩)
  match ls, hls with
  | [], hls => exact .inr (.inl ⟨_, .line3 hls h1 h2⟩)
  | l3 :: ls, hls =>
  rcases counted_cases l3 with ⟨ts, e, h3, h4⟩ | ⟨os, h3⟩
  · exact .inr (.inl ⟨e, .outs hls h1 h2 h3 h4⟩)
  match ls, hls with
  | [], hls => exact .inr (.inl ⟨_, .line4 hls h1 h2 h3⟩)
  | l4 :: ls, hls =>
  have hh : Header text a b is os ls := ⟨l1, l2, l3, l4, hls, h1, h2, h3⟩
  rcases rows_cases ls (· < is.sum) with ⟨good, tail, rows, rfl, k1, k2, k3⟩ | ⟨good, l, rest, rows, rfl, k1, k2, k3⟩
  · have hp : Parses ⟨a, b, is, os, rows.map Row.line⟩ text := ⟨good, tail, rows, hh, k1, k2, rfl, k3⟩
    by_cases hroom : os.sum ≤ b
    · by_cases hout : ∀ x, b - os.sum ≤ x → x < b → Defined (· < is.sum) (rows.map Row.line) x
      · exact .inl ⟨_, hp, hroom, hout⟩
      · simp only [Classical.not_forall] at hout
        obtain ⟨x, m1, m2, m3⟩ := hout
        exact .inr (.inr ⟨_, .output hp hroom m1 m2 m3⟩)
    · exact .inr (.inr ⟨_, .room hp (show b < os.sum by omega)⟩)
  · rcases k3 with ⟨ts, e, m1, m2, m3⟩ | ⟨row, m1, m2, m3⟩
    · exact .inr (.inl ⟨e, .gate hh k1 k2 m1 m2 m3⟩)
    · exact .inr (.inr ⟨_, .row hh k1 k2 m1 m2 m3⟩)

/-! ### a text says one thing -/

theorem nums_det {as bs rest rest' : List Str} {ns ms : List Nat} (h : as ++ rest = bs ++ rest') (hl : ns.length = ms.length)
    (h1 : All2 Numeral as ns) (h2 : All2 Numeral bs ms) : ns = ms ∧ rest = rest' := by
  have k1 := readOutWires_ok (rest := rest) h1
  have k2 := readOutWires_ok (rest := rest') h2
  rw [h, hl, k2] at k1
  cases k1
  exact ⟨rfl, rfl⟩

theorem name_inj {a b : GOp} (h : a.name = b.name) : a = b := by
  cases a <;> cases b <;> first | rfl | (exact absurd h (by decide))

theorem rowTokens_det {ts : List Str} {a b : Row} (h : RowTokens ts a) (k : RowTokens ts b) : a = b := by
  obtain ⟨s, t, as, bs, rest, rfl, h1, h2, h3, h4⟩ := h
  obtain ⟨s', t', as', bs', rest', heq, k1, k2, k3, k4⟩ := k
  simp only [List.cons_append, List.append_assoc, List.cons.injEq] at heq
  obtain ⟨rfl, rfl, heq⟩ := heq
  obtain ⟨e1, heq⟩ := nums_det heq (h1.det k1) h3 k3
  obtain ⟨e2, heq⟩ := nums_det heq (h2.det k2) h4 k4
  have e3 := name_inj (List.cons.inj heq).1
  cases a; cases b
  simp only at e1 e2 e3
  rw [e1, e2, e3]

theorem rowText_det {l : Str} {a b : Row} (h : RowText l a) (k : RowText l b) : a = b := by
  obtain ⟨ts, h1, h2⟩ := h
  obtain ⟨ts', k1, k2⟩ := k
  rw [← layout_iff.mp h1] at h2
  rw [← layout_iff.mp k1] at k2
  exact rowTokens_det h2 k2

theorem two_det {l : Str} {a b a' b' : Nat} (h : TwoNumbers l a b) (k : TwoNumbers l a' b') : a = a' ∧ b = b' := by
  obtain ⟨s, t, rest, h1, h2, h3⟩ := h
  obtain ⟨s', t', rest', k1, k2, k3⟩ := k
  have := (layout_iff.mp h1).symm.trans (layout_iff.mp k1)
  cases this
  exact ⟨h2.det k2, h3.det k3⟩

theorem counted_det {l : Str} {ns ms : List Nat} (h : CountedNumbers l ns) (k : CountedNumbers l ms) : ns = ms := by
  obtain ⟨s, ts, rest, h1, h2, h3⟩ := h
  obtain ⟨s', ts', rest', k1, k2, k3⟩ := k
  have := (layout_iff.mp h1).symm.trans (layout_iff.mp k1)
  simp only [List.cons_append, List.cons.injEq] at this
  obtain ⟨rfl, heq⟩ := this
  exact (nums_det heq (h2.det k2) h3 k3).1

theorem rows_det : ∀ {ls ls' tail tail' : List Str} {rows rows' : List Row}, ls ++ tail = ls' ++ tail' → All2 RowText ls rows →
    All2 RowText ls' rows' → (∀ l, tail.head? = some l → l = []) → (∀ l, tail'.head? = some l → l = []) → rows = rows'
  | [], [], _, _, [], [], _, _, _, _, _ => rfl
  | [], l' :: ls', tail, tail', _, r' :: rows', h, _, k, ht, _ => by
    have := ht l' (by rw [show tail = l' :: (ls' ++ tail') from h]; rfl)
    exact absurd this (rowText_ne k.1)
  | l :: ls, [], tail, tail', r :: rows, _, h, k, _, _, ht => by
    have := ht l (by rw [← show l :: (ls ++ tail) = tail' from h]; rfl)
    exact absurd this (rowText_ne k.1)
  | l :: ls, l' :: ls', tail, tail', r :: rows, r' :: rows', h, k, k', ht, ht' => by
    rw [List.cons_append, List.cons_append] at h
    obtain ⟨rfl, h2⟩ := List.cons.inj h
    rw [rowText_det k.1 k'.1, rows_det h2 k.2 k'.2 ht ht']
  | [], _, _, _, _ :: _, _, _, h, _, _, _ => h.elim
  | _ :: _, _, _, _, [], _, _, h, _, _, _ => h.elim
  | _, [], _, _, _, _ :: _, _, _, h, _, _ => h.elim
  | _, _ :: _, _, _, _, [], _, _, h, _, _ => h.elim

theorem parses_det {f f' : File} {text : Str} (h : Parses f text) (k : Parses f' text) : f = f' := by
  obtain ⟨ls, tail, rows, ⟨l1, l2, l3, l4, hls, h1, h2, h3⟩, hr, _, hg, ht⟩ := h
  obtain ⟨ls', tail', rows', ⟨l1', l2', l3', l4', hls', h1', h2', h3'⟩, hr', _, hg', ht'⟩ := k
  have := (lines_iff.mp hls).symm.trans (lines_iff.mp hls')
  simp only [List.cons.injEq] at this
  obtain ⟨rfl, rfl, rfl, rfl, heq⟩ := this
  have e1 := two_det h1 h1'
  have e2 := counted_det h2 h2'
  have e3 := counted_det h3 h3'
  have e4 := rows_det heq hr hr' ht ht'
  rw [← e4, ← hg] at hg'
  cases f; cases f'
  simp_all

/-! ### exact texts -/

theorem gate_row {l : Str} {g : GLine} (h : GateText l g) : RowText l ⟨g.op, g.args, [g.out]⟩ := by
  obtain ⟨a, b, as, o, rest, hl, ha, hb, has, ho⟩ := h
  exact ⟨_, hl, a, b, as, [o], rest, by simp, ha, hb, has, ho, trivial⟩

/-- the row of an exact line -/
def rowOf (g : GLine) : Row := ⟨g.op, g.args, [g.out]⟩

theorem rows_of_gates : ∀ {ls : List Str} {gs : List GLine} {P : Nat → Prop}, All2 GateText ls gs → Uses P gs →
    All2 RowText ls (gs.map rowOf) ∧ RowsUse P (gs.map rowOf) ∧ (gs.map rowOf).map Row.line = gs
  | [], [], _, _, _ => ⟨trivial, trivial, rfl⟩
  | _ :: _, g :: gs, P, h, hu => by
    have hg : (rowOf g).line = g := by
      obtain ⟨op, args, out⟩ := g
      simp only [rowOf, Row.line, List.headD_cons]
      rw [List.take_of_length_le (by have := hu.1; simp only at this; omega)]
    obtain ⟨h1, h2, h3⟩ := rows_of_gates h.2 hu.2.2
    refine ⟨⟨gate_row h.1, h1⟩, ⟨⟨by rw [show (rowOf g).args = g.args from rfl, hu.1]; exact Nat.le_refl _,
      by simp [rowOf]⟩, hu.2.1, ?_⟩, by rw [List.map_cons, List.map_cons, h3, hg]⟩
    rw [hg]; exact h2
  | [], _ :: _, _, h, _ => h.elim
  | _ :: _, [], _, h, _ => h.elim

theorem accepts_of_valid {f : File} {text : Str} (ht : Text f text) (hv : f.Valid) : Accepts f text := by
  obtain ⟨l1, l2, l3, l4, ls, tail, hls, h1, h2, h3, hgs, htail⟩ := ht
  obtain ⟨k1, k2, k3⟩ := rows_of_gates hgs hv.uses
  exact ⟨⟨ls, tail, _, ⟨l1, l2, l3, l4, hls, h1, h2, h3⟩, k1, k2, k3.symm, htail⟩, hv.room, hv.outs⟩

theorem rejects_of_malformed {text : Str} {e : Err} (h : Malformed text e) : Rejects text e := by
  cases h with
  | line1 h1 => exact .line1 h1
  | head h1 h2 h3 => exact .head h1 h2 h3
  | line2 h1 h2 => exact .line2 h1 h2
  | ins h1 h2 h3 h4 => exact .ins h1 h2 h3 h4
  | line3 h1 h2 h3 => exact .line3 h1 h2 h3
  | outs h1 h2 h3 h4 h5 => exact .outs h1 h2 h3 h4 h5
  | line4 h1 h2 h3 h4 => exact .line4 h1 h2 h3 h4
  | @gate l1 l2 l3 l4 ls l rest a b is os gs ts e hls h1 h2 h3 hgs hu hl hlay hbad =>
    obtain ⟨k1, k2, k3⟩ := rows_of_gates hgs hu
    exact .gate ⟨l1, l2, l3, l4, hls, h1, h2, h3⟩ k1 k2 hl hlay (by rw [k3]; exact hbad)

/-- the file of an accepted text is valid -/
theorem _root_.CC.Spec.Bristol.Accepts.valid {f : File} {text : Str} (h : Accepts f text) : f.Valid := by
  refine ⟨?_, h.room, h.outs⟩
  obtain ⟨ls, tail, rows, _, _, hu, hgs, _⟩ := h.parses
  rw [hgs]
  have key : ∀ {rows : List Row} {P : Nat → Prop}, RowsUse P rows → Uses P (rows.map Row.line) := by
    intro rows
    induction rows with
    | nil => intro P _; trivial
    | cons row rows ih =>
      intro P h
      refine ⟨?_, ?_, ih h.2.2⟩
      · simp only [Row.line, List.length_take]
        have := h.1.1
        omega
      · intro x hx
        exact h.2.1 x (List.mem_of_mem_take hx)
  exact key hu

/-! ### errors are no panics -/

theorem rejects_not_panic {text : Str} {e : Err} (h : Rejects text e) : ∀ p, e ≠ .panic p := by
  have nums : ∀ {k ts e}, BadNums k ts e → ∀ p, e ≠ .panic p := by
    intro k ts e h
    induction h with
    | missing => simp
    | notNum _ => simp
    | next _ _ ih => exact ih
  have counted : ∀ {ts e}, BadCounted ts e → ∀ p, e ≠ .panic p := by
    intro ts e h
    cases h with
    | count h => exact nums h
    | items _ h => exact nums h
  have operands : ∀ {P k ts e}, BadOperands P k ts e → ∀ p, e ≠ .panic p := by
    intro P k ts e h
    induction h with
    | missing => simp
    | notNum _ => simp
    | unknown _ _ => simp
    | next _ _ _ ih => exact ih
  cases h with
  | line1 | line2 | line3 | line4 => simp
  | head _ _ h => exact nums h
  | ins _ _ _ h => exact counted h
  | outs _ _ _ _ h => exact counted h
  | gate _ _ _ _ _ h =>
    cases h with
    | counts h => exact nums h
    | operands _ _ h => exact operands h
    | outs _ _ _ _ h => exact nums h
    | noName => simp
    | name => simp

end

end CC.Bristol
