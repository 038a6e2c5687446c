import Verif.Proofs.BrWriteFuel
import Verif.Proofs.BrFile

/-!
# Reading back what was written
-/

namespace CC.Bristol
open CC CC.Spec CC.Spec.Bristol

/-! ### printed files are texts of files -/

/-- not empty, no white space -/
def Word (t : Str) : Prop := t ≠ [] ∧ ∀ c ∈ t, isWhite c = false

def sep (ts : List Str) : Str := ts.flatMap (' ' :: ·)

theorem word_num (n : Nat) : Word (num n) := ⟨(dec_spec n).1, dec_not_white n⟩

theorem word_name (op : GOp) : Word op.name := by
  cases op <;> exact ⟨by decide, by decide⟩

theorem layout_sep : ∀ {ts : List Str}, (∀ t ∈ ts, Word t) → Layout ts (sep ts)
  | [], _ => .nil (by simp [sep])
  | t :: ts, h => by
    have h1 := h t (by simp)
    have := layout_sep (ts := ts) fun t ht => h t (by simp [ht])
    have e : sep (t :: ts) = [' '] ++ t ++ sep ts := by simp [sep]
    rw [e]
    refine .cons (by simp; decide) h1.1 h1.2 ?_ this
    intro c hc
    cases ts with
    | nil => simp [sep] at hc
    | cons u us => simp [sep] at hc; subst hc; decide

theorem layout_words {t : Str} {ts : List Str} (ht : Word t) (h : ∀ t ∈ ts, Word t) : Layout (t :: ts) (t ++ sep ts) := by
  have := layout_sep h
  have e : t ++ sep ts = [] ++ t ++ sep ts := by simp
  rw [e]
  refine .cons (by simp) ht.1 ht.2 ?_ this
  intro c hc
  cases ts with
  | nil => simp [sep] at hc
  | cons u us => simp [sep] at hc; subst hc; decide

/-- only blanks and characters that are not white space -/
def Plain (l : Str) : Prop := ∀ c ∈ l, c = ' ' ∨ isWhite c = false

theorem plain_words {t : Str} {ts : List Str} (ht : Word t) (h : ∀ t ∈ ts, Word t) : Plain (t ++ sep ts) := by
  intro c hc
  rcases List.mem_append.mp hc with hc | hc
  · exact Or.inr (ht.2 c hc)
  · simp only [sep, List.mem_flatMap, List.mem_cons] at hc
    obtain ⟨u, hu, rfl | hc⟩ := hc
    · exact Or.inl rfl
    · exact Or.inr ((h u hu).2 c hc)

theorem Plain.lf {l text : Str} {ls : List Str} (h : Plain l) (k : Lines ls text) : Lines (l :: ls) (l ++ ['\n'] ++ text) := by
  refine .lf ?_ ?_ k
  · intro hm
    rcases h _ hm with e | e <;> revert e <;> decide
  · intro hm
    rcases h _ (List.mem_of_getLast? hm) with e | e <;> revert e <;> decide

theorem all2_map {α β} {P : α → β → Prop} {f : β → α} : ∀ {l : List β}, (∀ x ∈ l, P (f x) x) → All2 P (l.map f) l
  | [], _ => trivial
  | x :: _, h => ⟨h x (by simp), all2_map fun y hy => h y (by simp [hy])⟩

theorem flatMap_shift (f : Nat → Str) : ∀ l : List Nat, [' '] ++ l.flatMap (fun x => f x ++ [' ']) = sep (l.map f) ++ [' ']
  | [] => rfl
  | x :: l => by
    have := flatMap_shift f l
    simp only [sep, List.flatMap_cons, List.map_cons, List.append_assoc, List.cons_append, List.nil_append] at this ⊢
    rw [this]

/-- the tokens of a printed gate line after the first -/
def GLine.toks (l : GLine) : List Str := num 1 :: (l.args.map num ++ [num l.out, l.op.name])

theorem text_toks (l : GLine) : l.text = num l.args.length ++ sep (GLine.toks l) ++ ['\n'] := by
  have h := flatMap_shift num l.args
  have e : " 1 ".toList = [' '] ++ num 1 ++ [' '] := by decide
  unfold GLine.text GLine.toks
  rw [e]
  have e2 : sep (num 1 :: (l.args.map num ++ [num l.out, l.op.name])) =
      [' '] ++ num 1 ++ (sep (l.args.map num) ++ [' ']) ++ num l.out ++ [' '] ++ l.op.name := by
    simp [sep]
  rw [e2, ← h]
  simp

theorem words_toks (l : GLine) : ∀ t ∈ GLine.toks l, Word t := by
  intro t ht
  simp only [GLine.toks, List.mem_cons, List.mem_append, List.mem_map, List.not_mem_nil, or_false] at ht
  rcases ht with rfl | ⟨x, _, rfl⟩ | rfl | rfl
  · exact word_num _
  · exact word_num _
  · exact word_num _
  · exact word_name _

/-- numbers that fit in 64 bits -/
structure _root_.CC.Spec.Bristol.File.Small (f : File) : Prop where
  numGate : f.numGate < 2 ^ 64
  numWire : f.numWire < 2 ^ 64
  insLen : f.ins.length < 2 ^ 64
  ins : ∀ x ∈ f.ins, x < 2 ^ 64
  outsLen : f.outs.length < 2 ^ 64
  outs : ∀ x ∈ f.outs, x < 2 ^ 64
  arity : ∀ l ∈ f.gates, l.args.length = l.op.arity
  args : ∀ l ∈ f.gates, ∀ x ∈ l.args, x < 2 ^ 64
  out : ∀ l ∈ f.gates, l.out < 2 ^ 64

theorem numeral_num {n : Nat} (h : n < 2 ^ 64) : Numeral (num n) n := dec_numeral h

theorem text_ok {f : File} (h : f.Small) : Text f f.text := by
  have hgs : ∀ ls : List GLine, Lines (ls.map fun l => num l.args.length ++ sep (GLine.toks l)) (gatesText ls) := by
    intro ls
    induction ls with
    | nil => exact .nil
    | cons l ls ih =>
      rw [List.map_cons]
      have e : gatesText (l :: ls) = (num l.args.length ++ sep (GLine.toks l)) ++ ['\n'] ++ gatesText ls := by
        rw [← text_toks]; simp [gatesText]
      rw [e]
      exact (plain_words (word_num _) (words_toks l)).lf ih
  refine ⟨num f.numGate ++ sep [num f.numWire], num f.ins.length ++ sep (f.ins.map num),
    num f.outs.length ++ sep (f.outs.map num), [], f.gates.map fun l => num l.args.length ++ sep (GLine.toks l), [],
    ?_, ?_, ?_, ?_, ?_, by simp⟩
  · have h0 : Lines ([] :: (f.gates.map fun l => num l.args.length ++ sep (GLine.toks l))) ([] ++ ['\n'] ++ gatesText f.gates) :=
      .lf (by simp) (by simp) (hgs f.gates)
    have h1 := (plain_words (word_num f.outs.length) (ts := f.outs.map num) (by
      intro t ht; obtain ⟨x, _, rfl⟩ := List.mem_map.mp ht; exact word_num _)).lf h0
    have h2 := (plain_words (word_num f.ins.length) (ts := f.ins.map num) (by
      intro t ht; obtain ⟨x, _, rfl⟩ := List.mem_map.mp ht; exact word_num _)).lf h1
    have h3 := (plain_words (word_num f.numGate) (ts := [num f.numWire]) (by
      intro t ht; simp at ht; subst ht; exact word_num _)).lf h2
    rw [List.append_nil]
    have e : f.text = num f.numGate ++ sep [num f.numWire] ++ ['\n'] ++ (num f.ins.length ++ sep (f.ins.map num) ++ ['\n'] ++
      (num f.outs.length ++ sep (f.outs.map num) ++ ['\n'] ++ ([] ++ ['\n'] ++ gatesText f.gates))) := by
      simp [File.text, sep, List.flatMap_map]
    rw [e]
    exact h3
  · exact ⟨_, _, [], layout_words (word_num _) (by intro t ht; simp at ht; subst ht; exact word_num _),
      numeral_num h.numGate, numeral_num h.numWire⟩
  · refine ⟨_, f.ins.map num, [], ?_, numeral_num h.insLen, all2_map fun x hx => numeral_num (h.ins x hx)⟩
    rw [List.append_nil]
    exact layout_words (word_num _) (by intro t ht; obtain ⟨x, _, rfl⟩ := List.mem_map.mp ht; exact word_num _)
  · refine ⟨_, f.outs.map num, [], ?_, numeral_num h.outsLen, all2_map fun x hx => numeral_num (h.outs x hx)⟩
    rw [List.append_nil]
    exact layout_words (word_num _) (by intro t ht; obtain ⟨x, _, rfl⟩ := List.mem_map.mp ht; exact word_num _)
  · refine all2_map fun l hl => ?_
    refine ⟨num l.args.length, num 1, l.args.map num, num l.out, [], ?_, numeral_num ?_, numeral_num (by decide),
      all2_map fun x hx => numeral_num (h.args l hl x hx), numeral_num (h.out l hl)⟩
    · exact layout_words (word_num _) (words_toks l)
    · rw [h.arity l hl]; cases l.op <;> decide

/-! ### undefined output wires -/

section
variable {r : Ref} {w : World} {c : Circuit}

theorem readFinal_missing {gow : GOW} : ∀ {xs : List Nat} {w : World} {c : Circuit}, WFw w → w.circs[r]? = some c →
    (∀ x g, gow x = some g → g < c.gateIndex) → (∃ x ∈ xs, gow x = none) →
    ∃ w', readFinal r gow xs w = (.error (.panic .missingKey), w') := by
  intro xs
  induction xs with
  | nil => intro w c _ _ _ ⟨x, h, _⟩; cases h
  | cons x xs ih =>
    intro w c hw hc hlt hex
    unfold readFinal
    cases hx : gow x with
    | none => exact ⟨w, rfl⟩
    | some o =>
      obtain ⟨gate, hgate⟩ := (hw.circ r c hc).some_of_lt (hlt x o hx)
      have he := output_eq_ok hc hgate
      have hwf := (good_output r o w hw).1
      rw [he] at hwf
      obtain ⟨w', h⟩ := ih hwf (setC_get hc _) hlt (by
        obtain ⟨y, hy, hn⟩ := hex
        rcases List.mem_cons.mp hy with rfl | hy
        · rw [hx] at hn; cases hn
        · exact ⟨y, hy, hn⟩)
      refine ⟨w', ?_⟩
      simp only
      rw [bind_ok he, h]

theorem read_no_outputs {f : File} {text : Str} (hw : WFw w) (hc : w.circs[r]? = some c) (ht : Text f text)
    (hu : Uses (· < f.numIn) f.gates)
    (hx : f.numWire < f.numOut ∨ ∃ x, f.numWire - f.numOut ≤ x ∧ x < f.numWire ∧ ¬ Defined (· < f.numIn) f.gates x) :
    ∃ w', read r Map.empty text w = (.error (.panic (if f.numWire < f.numOut then .underflow else .missingKey)), w') := by
  obtain ⟨l1, l2, l3, l4, ls, tail, hls, ⟨s1, t1, rest1, hl1, hs1, ht1⟩, ⟨s2, ts2, rest2, hl2, hs2, hts2⟩,
    ⟨s3, ts3, rest3, hl3, hs3, hts3⟩, hgs, htail⟩ := ht
  obtain ⟨w1, c1, he1, g1⟩ := readInputs_ok (r := r) f.ins 0 (rest := rest2) (gow := Map.empty) hw hc hts2
  rw [← bindRange_empty (g := c.gateIndex)] at hu
  obtain ⟨gow2, w2, he2, g2, h2⟩ := readGates_ok g1.wf g1.circ hgs htail hu
  obtain ⟨c2, hc2, _, _⟩ := h2.struct c1 g1.circ
  have hlt : ∀ x g, gow2 x = some g → g < c2.gateIndex := by
    intro x g hx
    have hl := h2.linked _ _ (g1.linked (pre := List.replicate c.inputLen false) (ins := List.replicate f.ins.sum false)
      (by simp) (by simp))
    obtain ⟨b, _, hb⟩ := hl.bound x g hx
    obtain ⟨c', gate, k1, k2⟩ := val_gate hb
    rw [hc2] at k1; cases k1
    exact (g2.wf.circ r c2 hc2).lt_of_some k2
  have key : ∃ w', (if f.numWire < f.outs.sum then M.throw (.panic .underflow) else do
      readFinal r gow2 (rangeFromTo (f.numWire - f.outs.sum) f.numWire); pure gow2 : M GOW) w2 =
      (.error (.panic (if f.numWire < f.numOut then .underflow else .missingKey)), w') := by
    by_cases h : f.numWire < f.outs.sum
    · rw [if_pos h, if_pos (show f.numWire < f.numOut from h)]; exact ⟨w2, rfl⟩
    · rw [if_neg h, if_neg (show ¬ f.numWire < f.numOut from h)]
      obtain ⟨w3, h3⟩ := readFinal_missing g2.wf hc2 hlt (xs := rangeFromTo (f.numWire - f.outs.sum) f.numWire) (by
        rcases hx with h' | ⟨x, a, b, hn⟩
        · exact absurd h' h
        · refine ⟨x, ?_, ?_⟩
          · unfold rangeFromTo
            rw [List.mem_map]
            have a' : f.numWire - f.outs.sum ≤ x := a
            exact ⟨x - (f.numWire - f.outs.sum), List.mem_range.mpr (by omega), by omega⟩
          · rw [← bindRange_empty (g := c.gateIndex)] at hn
            exact Classical.byContradiction fun hne => hn ((h2.defined x).mp hne))
      exact ⟨w3, bind_error' h3 _⟩
  obtain ⟨w', hk⟩ := key
  refine ⟨w', ?_⟩
  unfold read
  rw [bind_lift_ok (a := (l1, l2 :: l3 :: l4 :: (ls ++ tail))) (by rw [lines_iff.mp hls]; rfl)]
  simp only []
  rw [layout_iff.mp hl1, bind_lift_ok (nextUsize_cons hs1)]
  simp only []
  rw [bind_lift_ok (nextUsize_cons ht1)]
  simp only []
  rw [bind_lift_ok (x := nextLine 2 (l2 :: l3 :: l4 :: (ls ++ tail))) rfl]
  simp only []
  rw [layout_iff.mp hl2, List.cons_append, bind_lift_ok (nextUsize_cons hs2)]
  simp only []
  rw [bind_ok he1, bind_lift_ok (x := nextLine 3 (l3 :: l4 :: (ls ++ tail))) rfl]
  simp only []
  rw [layout_iff.mp hl3, List.cons_append, bind_lift_ok (nextUsize_cons hs3)]
  simp only []
  rw [bind_lift_ok (readOutputLens_ok f.outs 0 hts3), bind_lift_ok (x := nextLine 4 (l4 :: (ls ++ tail))) rfl]
  simp only [Nat.zero_add]
  rw [bind_ok (show readGates r (bindRange Map.empty 0 c.gateIndex f.ins.sum) (ls ++ tail) w1 = _ from he2)]
  exact hk

end

end CC.Bristol
