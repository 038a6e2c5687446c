import Verif.Proofs.BrContinue
import Verif.Props.Reuse

/-!
# C55, C75: exactly what a used reader does

`gow` is the map of the reader before the call: what it knows from earlier texts.
-/

namespace CC.Props
open CC Spec Spec.Bristol CC.Bristol

/-- C55: exactly which texts a reader in any state accepts -/
theorem C55_accepts_iff {w : World} (h : Reachable w) {r : Ref} {c : Circuit} (hc : w.circs[r]? = some c) (gow : GOW) (text : Str) :
    (∃ gow' w', read r gow text w = (.ok gow', w')) ↔ ∃ f, AcceptsFrom gow c.gateIndex f text := by
  have hw := WFw.of_reachable h
  constructor
  · rintro ⟨gow', w', he⟩
    rcases verdict_from gow c.gateIndex text with ha | ⟨e, hf⟩
    · exact ha
    · obtain ⟨w2, h2⟩ := read_fails_from hw hc hf
      rw [he] at h2; cases h2
  · rintro ⟨f, hf⟩
    obtain ⟨gow', w', c', he, _⟩ := read_accepts_from hw hc hf
    exact ⟨gow', w', he⟩

/-- C55: exactly which error a reader in any state reports -/
theorem C55_fails_iff {w : World} (h : Reachable w) {r : Ref} {c : Circuit} (hc : w.circs[r]? = some c) (gow : GOW) (text : Str) (e : Err) :
    (∃ w', read r gow text w = (.error e, w')) ↔ FailsFrom gow c.gateIndex text e := by
  have hw := WFw.of_reachable h
  constructor
  · rintro ⟨w', he⟩
    rcases verdict_from gow c.gateIndex text with ⟨f, hf⟩ | ⟨e', hf⟩
    · obtain ⟨gow', w', c', h2, _⟩ := read_accepts_from hw hc hf
      rw [he] at h2; cases h2
    · obtain ⟨w2, h2⟩ := read_fails_from hw hc hf
      rw [he] at h2; cases h2
      exact hf
  · exact read_fails_from hw hc

theorem carries_linked {w : World} {r : Ref} {gow : GOW} {ins : List Bool} {e : Wires} : Carries w r gow ins e ↔ Linked w r gow ins e := by
  constructor
  · intro h
    refine ⟨fun x g hx => ?_, fun x hx => ?_⟩
    · have := h x; rw [hx] at this; exact this
    · have := h x; rw [hx] at this; exact this
  · intro h x
    cases hx : gow x with
    | none => exact h.free x hx
    | some g => exact h.bound x g hx

theorem gains_val {w w1 : World} {r : Ref} {c c1 : Circuit} {k : Nat} (hn : ¬ Called w r) (g : GainsInputs r w c w1 c1 k)
    {ins : List Bool} {x : GateId} {b : Bool} (hv : Val w r ins x b) : Val w1 r ins x b := by
  refine hv.ext g.ext ?_
  intro mr mc mc' hcalled k1 k2
  have : mr ≠ r := by rintro rfl; exact hn hcalled
  rw [g.on.other this k1] at k2
  cases k2; rfl

/-- the wires after an accepted text -/
theorem _root_.CC.Bristol.ReadFrom.carries {w w' : World} {r : Ref} {c c' : Circuit} {gow gow' : GOW} {f : File} (hn : ¬ Called w r)
    (h : ReadFrom gow f r w c gow' w' c') {pre ins : List Bool} {e : Wires} (hp : pre.length = c.inputLen) (hi : ins.length = f.numIn)
    (he : Carries w r gow pre e) : Carries w' r gow' (pre ++ ins) (exec f.gates (inputsOver e ins)) := by
  refine carries_linked.mpr (h.linked pre ins e hp hi ?_)
  intro w1 c1 g1
  exact linked_mono (carries_linked.mp he) fun g b hv => val_more (gains_val hn g1 hv) ins

/-- C75: a further text is read as a continuation. `known` is (part of) what the reader knows; its wires carry the bits `e`. The text
is accepted as file `f` if its wires are defined by itself or by `known`, and the outputs carry the bits that executing the
lines of `f` from `e` and the input bits gives. So do all wires the reader knows afterwards. -/
theorem C75_meaning {w : World} (h : Reachable w) {r : Ref} {c : Circuit} (hc : w.circs[r]? = some c) (hn : ¬ Called w r)
    {known gow : GOW} (hk : ∀ x g, known x = some g → gow x = some g) {f : File} {text : Str}
    (ha : AcceptsFrom known c.gateIndex f text) : ∃ gow' w' c', read r gow text w = (.ok gow', w') ∧
      w'.circs[r]? = some c' ∧ c'.inputLen = c.inputLen + f.numIn ∧ c'.outputLen = c.outputLen + f.numOut ∧
      (∀ i, i < c.outputLen → c'.outputMap i = c.outputMap i) ∧
      ∀ (pre ins : List Bool) (e : Wires), pre.length = c.inputLen → ins.length = f.numIn → Carries w r known pre e →
        (∀ i, i < f.numOut → ∃ o b, c'.outputMap (c.outputLen + i) = some o ∧ f.outputFrom e ins i = some b ∧
          Val w' r (pre ++ ins) o b) ∧
        ∀ x b, exec f.gates (inputsOver e ins) x = some b → ∃ g, gow' x = some g ∧ Val w' r (pre ++ ins) g b := by
  obtain ⟨new, w', c', h1, h2⟩ := read_accepts_from (WFw.of_reachable h) hc ha
  have := follows_read r text hk w
  rw [h1] at this
  obtain ⟨gow', h3, h4⟩ := this
  refine ⟨gow', w', c', h3, h2.circ, h2.inputLen, h2.outputLen, h2.oldOut, ?_⟩
  intro pre ins e hp hi he
  have hl := h2.carries hn hp hi he
  constructor
  · intro i hlt
    obtain ⟨o, ho1, ho2⟩ := h2.newOut i hlt
    have := hl (f.numWire - f.numOut + i)
    rw [ho2] at this
    obtain ⟨b, hb1, hb2⟩ := this
    exact ⟨o, b, ho1, hb1, hb2⟩
  · intro x b hb
    have := hl x
    cases hx : new x with
    | none => rw [hx] at this; simp only [] at this; rw [hb] at this; cases this
    | some g =>
      rw [hx] at this
      obtain ⟨b', hb1, hb2⟩ := this
      rw [hb] at hb1; cases hb1
      exact ⟨g, h4 x g hx, hb2⟩

/-- read texts one after the other with one reader -/
def readAll (r : Ref) (gow : GOW) : List Str → M GOW
  | [] => pure gow
  | t :: ts => do
    let gow ← read r gow t
    readAll r gow ts

theorem acceptsFrom_of_after {P : Nat → Prop} {K : Known} {n : Nat} {f : File} {text : Str} (hP : ∀ x, K x ≠ none ↔ P x)
    (hown : ∀ x g, K x = some g → g < n) (h : AcceptsAfter P f text) : AcceptsFrom K n f text := by
  have hs : Start K f.numIn = fun x => P x ∨ x < f.numIn := uses_congr fun x => by unfold Start; rw [hP]
  refine ⟨?_, h.room, ?_, ?_⟩
  · unfold ParsesFrom
    rw [hs]
    exact h.parses
  · intro x hx
    unfold Missing
    rw [hs]
    exact fun hm => hm (h.outs x hx)
  · rintro x g _ ⟨h1, _, h2⟩
    have := hown x g h1
    omega

theorem not_called_after {w w' : World} {r : Ref} {c c' : Circuit} {gow gow' : GOW} {f : File} {text : Str} (h : Reachable w)
    (hc : w.circs[r]? = some c) (hn : ¬ Called w r)
    (he : read r gow text w = (.ok gow', w')) (h2 : ReadFrom gow f r w c gow' w' c') : ¬ Called w' r := by
  obtain ⟨⟨c2, hc2, hst, _⟩, k2, k3, k4⟩ := C18_extends h hc gow text he
  rw [h2.circ] at hc2; cases hc2
  have hm : ∀ d d' : Circuit, d.storage = d'.storage → ∀ mid, w'.module? d mid = w.module? d' mid := by
    intro d d' hd mid
    unfold World.module?
    rw [hd, k2]
  rintro ⟨q, d, hq, g, nIn, nOut, ids, oi, mid, hg, hmr⟩
  by_cases hqr : q = r
  · subst hqr
    rw [h2.circ] at hq; cases hq
    refine hn ⟨q, c, hc, g, nIn, nOut, ids, oi, mid, h2.calls _ _ _ _ _ _ hg, ?_⟩
    rw [← hm c' c hst]; exact hmr
  · rw [k4 q hqr] at hq
    exact hn ⟨q, d, hq, g, nIn, nOut, ids, oi, mid, hg, by rw [← hm d d rfl]; exact hmr⟩

/-- C75, any number of texts -/
theorem chain_read {r : Ref} : ∀ {fts : List (File × Str)} {P : Nat → Prop} {w : World} {c : Circuit} {gow : GOW}, Reachable w →
    w.circs[r]? = some c → ¬ Called w r → (∀ x, gow x ≠ none ↔ P x) → (∀ x g, gow x = some g → g < c.gateIndex) → Chain P fts →
    ∃ gow' w' c', readAll r gow (fts.map (·.2)) w = (.ok gow', w') ∧ w'.circs[r]? = some c' ∧
      c'.inputLen = c.inputLen + (fts.map (·.1.numIn)).sum ∧ c'.outputLen = c.outputLen + (fts.map (·.1.numOut)).sum ∧
      (∀ i, i < c.outputLen → c'.outputMap i = c.outputMap i) ∧ Ext w w' ∧
      (∀ (g : GateId) (pre more : List Bool) (b : Bool), Val w r pre g b → Val w' r (pre ++ more) g b) ∧
      ∀ (pre : List Bool) (e : Wires) (inss : List (List Bool)), pre.length = c.inputLen →
        inss.length = fts.length → (∀ (i : Nat) (f : File) (ins : List Bool), (fts.map (·.1))[i]? = some f → inss[i]? = some ins → ins.length = f.numIn) →
        Carries w r gow pre e →
        (chainOutputs e ((fts.map (·.1)).zip inss)).length = (fts.map (·.1.numOut)).sum ∧
        ∀ i v, (chainOutputs e ((fts.map (·.1)).zip inss))[i]? = some v →
          ∃ o b, c'.outputMap (c.outputLen + i) = some o ∧ v = some b ∧ Val w' r (pre ++ inss.flatten) o b := by
  intro fts
  induction fts with
  | nil =>
    intro P w c gow h hc hn hP hown _
    refine ⟨gow, w, c, rfl, hc, by simp, by simp, fun _ _ => rfl, Ext.refl w, fun g pre more b hv => val_more hv more, ?_⟩
    intro pre e inss hp hlen _ _
    exact ⟨rfl, by intro i v hv; simp [chainOutputs] at hv⟩
  | cons ft fts ih =>
    obtain ⟨f, t⟩ := ft
    intro P w c gow h hc hn hP hown ⟨ha, hrest⟩
    obtain ⟨gow1, w1, c1, he1, h1⟩ := read_accepts_from (WFw.of_reachable h) hc (acceptsFrom_of_after hP hown ha)
    have hr1 : Reachable w1 := by
      have := plays_read (r := r) gow t w
      rw [he1] at this
      exact later_reachable h this
    have hn1 := not_called_after h hc hn he1 h1
    have hs : Start gow f.numIn = fun x => P x ∨ x < f.numIn := uses_congr fun x => by unfold Start; rw [hP]
    have hidx : c.gateIndex ≤ c1.gateIndex := by rw [h1.size]; omega
    obtain ⟨gow2, w2, c2, he2, hc2, hin, hout, hold, hx, hkeep, hval⟩ := ih hr1 h1.circ hn1 (gow := gow1)
      (by intro x; rw [h1.defined, hs])
      (by
        intro x g hx
        rcases h1.known x g hx with hlt | ⟨k1, _, k2⟩
        · exact hlt
        · have := hown x g k1; omega) hrest
    have hv1 : ∀ (g : GateId) (pre more : List Bool) (b : Bool), Val w r pre g b → Val w1 r (pre ++ more) g b :=
      fun g pre more b hv => C18_values h hc hn gow t he1 hv
    refine ⟨gow2, w2, c2, ?_, hc2, ?_, ?_, ?_, h1.ext.trans hx, ?_, ?_⟩
    · rw [List.map_cons, readAll, bind_ok he1, he2]
    · rw [hin, h1.inputLen, List.map_cons, List.sum_cons, Nat.add_assoc]
    · rw [hout, h1.outputLen, List.map_cons, List.sum_cons, Nat.add_assoc]
    · intro i hi
      rw [hold i (by rw [h1.outputLen]; omega), h1.oldOut i hi]
    · intro g pre more b hv
      have := hkeep g (pre ++ more) [] b (hv1 g pre more b hv)
      rwa [List.append_nil] at this
    · intro pre e inss hp hlen hins hcar
      match inss, hlen, hins with
      | ins :: inss, hlen, hins =>
        have hi : ins.length = f.numIn := hins 0 f ins rfl rfl
        have hl := ReadFrom.carries hn h1 hp hi hcar
        obtain ⟨k1, k2⟩ := hval (pre ++ ins) _ inss (by rw [List.length_append, hp, hi, h1.inputLen]) (by simpa using hlen)
          (fun i f' ins' h1 h2 => hins (i + 1) f' ins' h1 h2) hl
        constructor
        · simp only [List.map_cons, List.zip_cons_cons, chainOutputs, List.length_append, List.length_map, List.length_range, List.sum_cons]
          rw [k1]
        · intro i v hv
          simp only [List.map_cons, List.zip_cons_cons, chainOutputs] at hv
          by_cases hlt : i < f.numOut
          · rw [List.getElem?_append_left (by simpa using hlt), List.getElem?_map, List.getElem?_range hlt] at hv
            cases hv
            obtain ⟨o, ho1, ho2⟩ := h1.newOut i hlt
            have := hl (f.numWire - f.numOut + i)
            rw [ho2] at this
            obtain ⟨b, hb1, hb2⟩ := this
            refine ⟨o, b, ?_, hb1, ?_⟩
            · rw [hold _ (by rw [h1.outputLen]; omega)]; exact ho1
            · rw [List.flatten_cons, ← List.append_assoc]
              exact hkeep o (pre ++ ins) _ b hb2
          · rw [List.getElem?_append_right (by simp; omega)] at hv
            simp only [List.length_map, List.length_range] at hv
            obtain ⟨o, b, m1, m2, m3⟩ := k2 _ v hv
            refine ⟨o, b, ?_, m2, by rw [List.flatten_cons, ← List.append_assoc]; exact m3⟩
            rw [h1.outputLen] at m1
            rw [← m1]
            congr 1; omega

/-- C75: any number of texts, read one after the other into one circuit by a new reader. Each text may use wires of the texts
before it. All are read; the circuit gains the inputs and outputs of all files, in order, and the outputs carry the bits
that executing the files one after the other on the same wires gives. -/
theorem C75_texts {w : World} (h : Reachable w) {r : Ref} {c : Circuit} (hc : w.circs[r]? = some c) (hn : ¬ Called w r)
    {fts : List (File × Str)} (hch : Chain (fun _ => False) fts) :
    ∃ gow' w' c', readAll r Map.empty (fts.map (·.2)) w = (.ok gow', w') ∧ w'.circs[r]? = some c' ∧
      c'.inputLen = c.inputLen + (fts.map (·.1.numIn)).sum ∧ c'.outputLen = c.outputLen + (fts.map (·.1.numOut)).sum ∧
      (∀ i, i < c.outputLen → c'.outputMap i = c.outputMap i) ∧
      ∀ (pre : List Bool) (inss : List (List Bool)), pre.length = c.inputLen → inss.length = fts.length →
        (∀ (i : Nat) (f : File) (ins : List Bool), (fts.map (·.1))[i]? = some f → inss[i]? = some ins → ins.length = f.numIn) →
        (chainOutputs (fun _ => none) ((fts.map (·.1)).zip inss)).length = (fts.map (·.1.numOut)).sum ∧
        ∀ i v, (chainOutputs (fun _ => none) ((fts.map (·.1)).zip inss))[i]? = some v →
          ∃ o b, c'.outputMap (c.outputLen + i) = some o ∧ v = some b ∧ Val w' r (pre ++ inss.flatten) o b := by
  obtain ⟨gow', w', c', h1, h2, h3, h4, h5, _, _, h6⟩ := chain_read (gow := Map.empty) h hc hn (by simp [Map.empty]) (by simp [Map.empty]) hch
  exact ⟨gow', w', c', h1, h2, h3, h4, h5, fun pre inss hp hl hi => h6 pre _ inss hp hl hi (fun _ => rfl)⟩

/-- exact texts -/
theorem after_of_text {P : Nat → Prop} {f : File} {text : Str} (ht : Text f text) (hu : Uses (fun x => P x ∨ x < f.numIn) f.gates)
    (hroom : f.numOut ≤ f.numWire) (houts : ∀ x, f.IsOut x → Defined (fun x => P x ∨ x < f.numIn) f.gates x) : AcceptsAfter P f text := by
  obtain ⟨l1, l2, l3, l4, ls, tail, hls, h1, h2, h3, hgs, htail⟩ := ht
  obtain ⟨k1, k2, k3⟩ := rows_of_gates hgs hu
  exact ⟨⟨ls, tail, _, ⟨l1, l2, l3, l4, hls, h1, h2, h3⟩, k1, k2, k3.symm, htail⟩, hroom, houts⟩

/-! ### the hypotheses are satisfiable -/

/-- wires 0 and 1 are inputs, wire 2 is their sum -/
def firstFile : File := ⟨1, 3, [2], [1], [⟨.xor, [0, 1], 2⟩]⟩

/-- a new input takes wire 0; wire 2 is that of `firstFile` -/
def nextText : Str := chars! "2 5\n1 1\n1 2\n\n2 1 0 2 3 AND\n1 1 1 4 INV\n"

def nextFile : File := ⟨2, 5, [1], [2], [⟨.and, [0, 2], 3⟩, ⟨.inv, [1], 4⟩]⟩

theorem first_next : Chain (fun _ => False) [(firstFile, xorText), (nextFile, nextText)] := by
  refine ⟨after_of_text (file?_some (by rfl)) ?_ (by decide) ?_, after_of_text (file?_some (by rfl)) ?_ (by decide) ?_, trivial⟩
  · simp [Uses, firstFile, File.numIn, GOp.arity]
  · rintro x ⟨h1, h2⟩
    have : x = 2 := by simp only [firstFile, File.numOut, List.sum_cons, List.sum_nil] at h1 h2; omega
    subst this
    exact .inr ⟨⟨.xor, [0, 1], 2⟩, by simp [firstFile], rfl⟩
  · simp [Uses, Defined, firstFile, nextFile, File.numIn, GOp.arity]
  · rintro x ⟨h1, h2⟩
    have : x = 3 ∨ x = 4 := by simp only [nextFile, File.numOut, List.sum_cons, List.sum_nil] at h1 h2; omega
    rcases this with rfl | rfl
    · exact .inr ⟨⟨.and, [0, 2], 3⟩, by simp [nextFile], rfl⟩
    · exact .inr ⟨⟨.inv, [1], 4⟩, by simp [nextFile], rfl⟩

/-- C75_texts: the second text computes with a wire of the first -/
example : ∃ gow' w' c', readAll 0 Map.empty [xorText, nextText] (run [.newStorage, .newCircuit 0]) = (.ok gow', w') ∧
    w'.circs[0]? = some c' ∧ c'.inputLen = 3 ∧ c'.outputLen = 3 ∧ ∀ x y z : Bool, ∃ o, c'.outputMap 1 = some o ∧
      Val w' 0 [x, y, z] o (z && (x != y)) := by
  obtain ⟨gow', w', c', h1, h2, h3, h4, _, h6⟩ := C75_texts (r := 0) (c := (run [.newStorage, .newCircuit 0]).circs[0])
    (run_reachable [.newStorage, .newCircuit 0]) rfl (by
      rintro ⟨q, c, hq, g, nIn, nOut, ids, oi, mid, hg, _⟩
      match q, hq with
      | 0, hq => cases hq; cases hg
      | _ + 1, hq => cases hq) first_next
  refine ⟨gow', w', c', h1, h2, h3, h4, ?_⟩
  intro x y z
  obtain ⟨_, h7⟩ := h6 [] [[x, y], [z]] rfl rfl (by
    intro i f ins hf hi
    match i, hf, hi with
    | 0, hf, hi => cases hf; cases hi; rfl
    | 1, hf, hi => cases hf; cases hi; rfl
    | i + 2, _, hi => cases hi)
  obtain ⟨o, b, k1, k2, k3⟩ := h7 1 (some (z && (x != y))) (by cases x <;> cases y <;> cases z <;> rfl)
  cases k2
  exact ⟨o, k1, k3⟩

/-- and the evaluator agrees -/
example : ∃ gow' w', readAll 0 Map.empty [xorText, nextText] (run [.newStorage, .newCircuit 0]) = (.ok gow', w') ∧
    ∀ x y z, evalOutput w' 9 0 [x, y, z] = .ok [x ^^ y, z && (x ^^ y), !y] :=
  ⟨_, _, rfl, by intro x y z; cases x <;> cases y <;> cases z <;> rfl⟩

/-- C55_accepts_iff, C55_fails_iff: a text that is one output wire `2`. It is fine if the reader knows a gate of the circuit, and
reported otherwise -/
def outText : Str := chars! "0 3\n0\n1 1\n\n"

def outFile : File := ⟨0, 3, [], [1], []⟩

theorem outParses {K : Known} : ParsesFrom K outFile outText := by
  have : Text outFile outText := file?_some (by rfl)
  obtain ⟨l1, l2, l3, l4, ls, tail, hls, h1, h2, h3, hgs, htail⟩ := this
  match ls, hgs with
  | [], _ => exact ⟨[], tail, [], ⟨l1, l2, l3, l4, hls, h1, h2, h3⟩, trivial, trivial, rfl, htail⟩

theorem outWire {x : Nat} (h : outFile.IsOut x) : x = 2 := by
  obtain ⟨h1, h2⟩ := h
  simp only [outFile, File.numOut, List.sum_cons, List.sum_nil] at h1 h2
  omega

/-- the circuit of `orOps` has gates 0, 1, 2 -/
example : AcceptsFrom (Map.empty.insert 2 1) 3 outFile outText := by
  refine ⟨outParses, by decide, ?_, ?_⟩
  · intro x hx hm
    rw [outWire hx] at hm
    exact hm (.inl (.inl (by simp [Map.insert])))
  · rintro x g hx ⟨h1, _, h2⟩
    rw [outWire hx] at h1
    simp only [Map.insert, if_true] at h1
    cases h1
    omega

example : ∃ w', read 0 (Map.empty.insert 2 9) outText (run orOps) = (.error (.unknownGate 9), w') := by
  refine (C55_fails_iff (run_reachable orOps) (r := 0) (c := (run orOps).circs[0]) rfl _ _ _).mpr
    (.foreign (f := outFile) (x := 2) (g := 9) outParses (by decide) ⟨by decide, by decide⟩ ⟨rfl, ?_, ?_⟩ ?_)
  · rintro (h | ⟨l, hl, _⟩)
    · exact absurd h (by decide)
    · cases hl
  · decide
  · intro y hy hlt
    have := outWire hy
    omega

example : ∃ w', read 0 Map.empty outText (run orOps) = (.error (.panic .missingKey), w') := by
  refine (C55_fails_iff (run_reachable orOps) (r := 0) (c := (run orOps).circs[0]) rfl _ _ _).mpr
    (.missing (f := outFile) (x := 2) outParses (by decide) ⟨by decide, by decide⟩ ?_ ?_)
  · rintro ((h | h) | ⟨l, hl, _⟩)
    · exact h rfl
    · exact absurd h (by decide)
    · cases hl
  · intro y g hy hlt
    have := outWire hy
    omega

/-- C75_meaning: wire 2 is gate 2 of the circuit, the disjunction of the inputs -/
example : ∃ gow' w' c', read 0 (Map.empty.insert 2 2) outText (run orOps) = (.ok gow', w') ∧ w'.circs[0]? = some c' ∧
    ∀ a b : Bool, ∃ o, c'.outputMap 1 = some o ∧ Val w' 0 [a, b] o (a || b) := by
  obtain ⟨gow', w', c', h1, h2, _, _, _, h3⟩ := C75_meaning (run_reachable orOps) (r := 0) (c := (run orOps).circs[0]) rfl (by
      rintro ⟨q, c, hq, g, nIn, nOut, ids, oi, mid, hg, _⟩
      match q, hq with
      | 0, hq =>
        cases hq
        match g, hg with
        | 0, hg => cases hg
        | 1, hg => cases hg
        | 2, hg => cases hg
        | _ + 3, hg => cases hg
      | _ + 1, hq => cases hq) (known := Map.empty.insert 2 2) (gow := Map.empty.insert 2 2) (fun _ _ h => h)
    (f := outFile) (text := outText) (by
      refine ⟨outParses, by decide, ?_, ?_⟩
      · intro x hx hm
        rw [outWire hx] at hm
        exact hm (.inl (.inl (by simp [Map.insert])))
      · rintro x g hx ⟨h1, _, h2⟩
        rw [outWire hx] at h1
        simp only [Map.insert, if_true] at h1
        cases h1
        exact absurd h2 (by decide))
  refine ⟨gow', w', c', h1, h2, ?_⟩
  intro a b
  obtain ⟨h4, _⟩ := h3 [a, b] [] (fun x => if x = 2 then some (a || b) else none) rfl rfl (by
    intro x
    by_cases hx : x = 2
    · subst hx
      exact ⟨a || b, rfl, .or rfl rfl (.input rfl rfl rfl) (.input rfl rfl rfl)⟩
    · rw [Map.insert_ne _ _ hx]
      exact if_neg hx)
  obtain ⟨o, v, k1, k2, k3⟩ := h4 0 (by decide)
  have : v = (a || b) := by
    have h5 : (some (a || b) : Option Bool) = some v := k2
    cases h5; rfl
  subst this
  exact ⟨o, k1, k3⟩

end CC.Props
