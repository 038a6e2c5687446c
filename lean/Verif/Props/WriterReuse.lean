import Verif.Proofs.WriterObj
import Verif.Proofs.BrTwin
import Verif.Props.Writer

/-!
# C56: writers that are used again

`Obj.Writer` is the writer as an object; `Obj.write w fuel numFirst wog o` is a call of `write` on object `o`, with the caller's
map `wog`. It gives the result, the object afterwards and the map afterwards, also when the call fails.
-/

namespace CC.Props
open CC Spec CC.Bristol Spec.Bristol

/-- C56: the object gives the result of the function `write` (C19–C22), or its error; if it succeeds it refers to the same
circuit as before. Text is only added, also when the call fails. -/
theorem C56_object {w : World} {o : Obj.Writer} {c : Circuit} (hc : w.circs[o.cref]? = some c) (fuel numFirst : Nat)
    (wog : Map GateId Nat) :
    (∃ text, (Obj.write w fuel numFirst wog o).2.1.out = o.out ++ text) ∧
    (∀ res, write w fuel o.cref numFirst ⟨o.numWire, o.lastConstWire, o.out, Map.empty⟩ wog = .ok res →
      Obj.write w fuel numFirst wog o =
        (.ok res.consts, ⟨o.cref, res.st.numWire, res.st.lastConstWire, res.st.out⟩, res.wog)) ∧
    (∀ e, write w fuel o.cref numFirst ⟨o.numWire, o.lastConstWire, o.out, Map.empty⟩ wog = .error e →
      (Obj.write w fuel numFirst wog o).1 = .error e) := by
  obtain ⟨⟨t, h1⟩, h2⟩ := Obj.write_same hc fuel numFirst wog (st := ⟨o.numWire, o.lastConstWire, o.out, Map.empty⟩) rfl rfl rfl
  refine ⟨⟨t, h1.symm⟩, fun res h => ?_, fun e h => ?_⟩
  · rw [h] at h2; exact h2
  · rw [h] at h2; exact h2

/-- a circuit compared with itself -/
theorem twins_self (w : World) : Twins w w fun r r' D θ => r = r' ∧ (∀ g, D g) ∧ ∀ g, θ g = g := by
  rintro r r' D θ ⟨rfl, hD, hθ⟩ c hc
  have hθ' : θ = id := funext hθ
  subst hθ'
  refine ⟨c, hc, ?_⟩
  exact {
    closed := fun _ _ _ _ x _ => hD x
    inj := fun _ _ _ _ h => h
    gates := by
      intro g gate _ hg
      refine ⟨gate, hg, ?_⟩
      cases gate with
      | module nIn nOut ids oi mid =>
        have := TwinGate.module (θ := id) nIn nIn nOut ids oi mid mid
        rwa [List.map_id] at this
      | input k => exact .input _ _
      | const v => exact .const _
      | not x => exact .not _
      | xor x y => exact .xor _ _
      | and x y => exact .and _ _
      | or x y => exact .or _ _
    inputs := fun k g h => ⟨hD g, h⟩
    outputs := fun k g h => ⟨hD g, h⟩
    outputLen := rfl
    consts := ⟨by rw [List.map_id], fun g _ => hD g⟩
    mods := by
      intro g nIn nOut ids oi mid nIn' ids' oi' mid' mr _ h1 h2 h3
      rw [id, h1] at h2
      cases h2
      exact ⟨mr, D, id, h3, ⟨rfl, hD, hθ⟩, fun h => ⟨h, fun i _ => ⟨hD _, rfl⟩⟩⟩ }

/-- C56: what a writer in any state does, when the constants fit in the wires reserved for them (`C21_returns`: always, if called circuits
are not changed): the same result and the same lines as a new writer, except that every wire is renamed: constants keep their
number, and the counter of the writer is added to the others. -/
theorem C56_again {w : World} (h : Reachable w) {o : Obj.Writer} {c : Circuit} (hc : w.circs[o.cref]? = some c) {fuel numFirst : Nat}
    {res : Written} (hw : write w fuel o.cref numFirst WSt.new Map.empty = .ok res) (hfit : res.consts.length ≤ c.numConst) :
    ∃ ls o' wog, res.st.out = header c numFirst ++ gatesText ls ∧
      Obj.write w fuel numFirst Map.empty o = (.ok res.consts, o', wog) ∧ o'.cref = o.cref ∧
      o'.numWire = o.numWire + res.st.numWire ∧
      o'.out = o.out ++ header c numFirst ++ gatesText (ls.map (relabel (shiftWire c.inputLen c.numConst o.numWire))) ∧
      ∀ g, wog g = (res.wog g).map (shiftWire c.inputLen c.numConst o.numWire) := by
  obtain ⟨res', ls, h1, h2, h3, h4, h5, h6⟩ := write_twin (twins_self w) (r := o.cref) (D := fun _ => True) (θ := id)
    ⟨rfl, fun _ => trivial, fun _ => rfl⟩ hc hc ((WFw.of_reachable h).circ _ c hc) ⟨rfl, rfl, rfl, rfl, rfl⟩ (st := WSt.new)
    (st' := ⟨o.numWire, o.lastConstWire, o.out, Map.empty⟩) rfl hw (.inr hfit)
  have := (C56_object hc fuel numFirst Map.empty).2.1 res' h1
  rw [h2] at this
  exact ⟨ls, _, _, by simpa [WSt.new] using h3, this, rfl, by simp only [h5]; omega, h4, fun g => h6 g trivial⟩

/-- C56: so the text is that of a new writer exactly if the writer's counter is 0 or no gate is written. The counter is 0 only if
nothing with inputs, constants or gates was written before. -/
theorem C56_same_iff {w : World} (h : ValidRun w) {o : Obj.Writer} {c : Circuit} (hc : w.circs[o.cref]? = some c) {numFirst : Nat}
    (hn : numFirst ≤ c.inputLen + c.numConst) : ∃ res ls, Wrote w o.cref c numFirst res ls ∧
      ∃ F, ∀ fuel ≥ F, ∃ o' wog, Obj.write w fuel numFirst Map.empty o = (.ok res.consts, o', wog) ∧ o'.cref = o.cref ∧
        o'.numWire = o.numWire + c.inputLen + c.numConst + ls.length ∧
        (o'.out = o.out ++ res.st.out ↔ o.numWire = 0 ∨ ls = []) := by
  obtain ⟨res, ls, hw, hf, _⟩ := wrote_file h.wf (h.allBuilt _ c hc) hc hn
  obtain ⟨F, hF⟩ := hw.1
  refine ⟨res, ls, hw, F, fun fuel hfu => ?_⟩
  obtain ⟨ls', o', wog, h1, h2, h3, h4, h5, _⟩ := C56_again h.reachable hc (hF fuel hfu) (fits_of_valid h hc _ _ hf.inlined)
  have e : ls' = ls := by
    have := hf.text
    rw [h1, ← header_text] at this
    exact gatesText_inj (List.append_cancel_left this)
  subst e
  refine ⟨o', wog, h2, h3, by rw [h4, hf.numWire]; omega, ?_⟩
  rw [h5, h1, List.append_assoc]
  constructor
  · intro e
    have e := gatesText_inj (List.append_cancel_left (List.append_cancel_left e))
    cases ls' with
    | nil => exact .inr rfl
    | cons l ls' =>
      left
      have e := congrArg GLine.out (List.cons.inj e).1
      have ho := hf.outs 0 l rfl
      simp only [relabel, shiftWire] at e
      rw [if_neg (by omega)] at e
      omega
  · rintro (e | e)
    · rw [e]
      have : relabel (shiftWire c.inputLen c.numConst 0) = id := by
        funext l
        have : shiftWire c.inputLen c.numConst 0 = id := funext fun x => shiftWire_zero _ _ x
        simp [relabel, this]
      rw [this, List.map_id]
    · rw [e]; rfl

/-! ### maps that are used again -/

theorem writeInputs_quiet {w : World} {fuel : Nat} {r : Ref} {c : Circuit} (hwf : WFc c) (hc : w.circs[r]? = some c) :
    ∀ (k i : Nat) {s s' : WS}, writeInputs w fuel r c i k s = .ok s' →
      s'.1.out = s.1.out ∧ ∀ g, s.2 g ≠ none → s'.2 g ≠ none
  | 0, i, s, s', h => by cases h; exact ⟨rfl, fun _ h => h⟩
  | k + 1, i, s, s', h => by
    unfold writeInputs at h
    cases hi : c.inputMap i with
    | none => rw [hi] at h; cases h
    | some g =>
      rw [hi] at h
      simp only at h
      rw [(hwf.input_iff i g).mp hi] at h
      simp only at h
      obtain ⟨s1, e1, e2⟩ := ok_bind h
      obtain ⟨h1, h2⟩ := writeInputs_quiet hwf hc k (i + 1) e2
      cases fuel with
      | zero => cases e1
      | succ fuel =>
        unfold writeGate at e1
        rw [bind_of_ok (circuit_of hc)] at e1
        cases e1
        refine ⟨h1, fun y hy => h2 y ?_⟩
        simp only [updateWire, Map.insert_apply]
        split
        · simp
        · exact hy

theorem writeConsts_quiet {c : Circuit} : ∀ {gs : List GateId} {s s' : WS}, writeConsts c gs s = .ok s' →
    s'.1.out = s.1.out ∧ ∀ g, s.2 g ≠ none → s'.2 g ≠ none
  | [], s, s', h => by cases h; exact ⟨rfl, fun _ h => h⟩
  | g :: gs, s, s', h => by
    unfold writeConsts at h
    split at h
    · cases h
    · obtain ⟨h1, h2⟩ := writeConsts_quiet h
      refine ⟨h1, fun y hy => h2 y ?_⟩
      simp only [Map.insert_apply]
      split
      · simp
      · exact hy
    · exact writeConsts_quiet h

theorem ensureWires_quiet {c : Circuit} {wg : WriteGate} {s : WS} : ∀ {ids : List GateId}, (∀ x ∈ ids, s.2 x ≠ none) →
    ensureWires c wg ids s = .ok s
  | [], _ => rfl
  | id :: ids, h => by
    have : ensureWire c wg id s = .ok s := by
      unfold ensureWire
      cases hx : s.2 id with
      | none => exact absurd hx (h id (List.mem_cons_self ..))
      | some x => rfl
    unfold ensureWires
    rw [bind_of_ok this]
    exact ensureWires_quiet fun x hx => h x (List.mem_cons_of_mem _ hx)

theorem writePass1_quiet {c : Circuit} {wg : WriteGate} {s : WS}
    (h : ∀ i o gate, c.outputMap i = some o → c.gateMap o = some gate → s.2 o ≠ none ∧ ∀ x ∈ gate.operands, s.2 x ≠ none) :
    ∀ (k i : Nat) {outs : List (GateId × Gate)} {s' : WS}, writePass1 c wg i k s = .ok (outs, s') →
      s' = s ∧ ∀ p ∈ outs, s.2 p.1 ≠ none
  | 0, i, outs, s', e => by cases e; exact ⟨rfl, by simp⟩
  | k + 1, i, outs, s', e => by
    unfold writePass1 at e
    cases ho : c.outputMap i with
    | none => rw [ho] at e; cases e
    | some g =>
      rw [ho] at e
      simp only at e
      cases hg : c.gateMap g with
      | none => rw [hg] at e; cases e
      | some gate =>
        rw [hg] at e
        simp only at e
        obtain ⟨h1, h2⟩ := h i g gate ho hg
        rw [bind_of_ok (ensureWires_quiet h2)] at e
        obtain ⟨⟨rest, s2⟩, e1, e2⟩ := ok_bind e
        cases e2
        obtain ⟨k1, k2⟩ := writePass1_quiet h k (i + 1) e1
        refine ⟨k1, fun p hp => ?_⟩
        rcases List.mem_cons.mp hp with rfl | hp
        · exact h1
        · exact k2 p hp

theorem writePass2_quiet {wg : WriteGate} {s : WS} : ∀ {outs : List (GateId × Gate)}, (∀ p ∈ outs, s.2 p.1 ≠ none) →
    writePass2 wg outs s = .ok s
  | [], _ => rfl
  | (g, gate) :: rest, h => by
    unfold writePass2
    cases hx : s.2 g with
    | none => exact absurd hx (h (g, gate) (List.mem_cons_self ..))
    | some x => exact writePass2_quiet fun p hp => h p (List.mem_cons_of_mem _ hp)

/-- C56: a map passed by the caller that already has wires for the outputs and their operands, for example the map that an earlier
`write` of the same circuit filled: only the header is written, whatever the writer. -/
theorem C56_map {w : World} (h : Reachable w) {r : Ref} {c : Circuit} (hc : w.circs[r]? = some c) {fuel numFirst : Nat} {st : WSt}
    {wog : Map GateId Nat} (hm : ∀ i o gate, c.outputMap i = some o → c.gateMap o = some gate →
      wog o ≠ none ∧ ∀ x ∈ gate.operands, wog x ≠ none) {res : Written}
    (hw : write w fuel r numFirst st wog = .ok res) : res.st.out = st.out ++ header c numFirst := by
  unfold write at hw
  rw [bind_of_ok (circuit_of hc)] at hw
  simp only at hw
  split at hw
  · cases hw
  · obtain ⟨s1, e1, hw⟩ := ok_bind hw
    obtain ⟨s2, e2, hw⟩ := ok_bind hw
    obtain ⟨cs, e3, hw⟩ := ok_bind hw
    cases hw
    obtain ⟨a1, a2⟩ := writeInputs_quiet ((WFw.of_reachable h).circ r c hc) hc _ _ e1
    unfold writeAll at e2
    obtain ⟨s3, e4, e2⟩ := ok_bind e2
    obtain ⟨⟨outs, s4⟩, e5, e6⟩ := ok_bind e2
    obtain ⟨b1, b2⟩ := writeConsts_quiet e4
    obtain ⟨rfl, d2⟩ := writePass1_quiet (fun i o gate ho hg =>
      ⟨b2 o (a2 o (hm i o gate ho hg).1), fun x hx => b2 x (a2 x ((hm i o gate ho hg).2 x hx))⟩) _ _ e5
    simp only at e6
    rw [writePass2_quiet d2] at e6
    cases e6
    rw [b1]
    exact a1

/-- C56, for the map of an earlier write of the same circuit -/
theorem C56_map_again {w : World} (h : ValidRun w) {r : Ref} {c : Circuit} (hc : w.circs[r]? = some c) {numFirst numFirst' fuel : Nat}
    {res res' : Written} {ls : List GLine} (h1 : Wrote w r c numFirst res ls) {st : WSt}
    (h2 : write w fuel r numFirst' st res.wog = .ok res') : res'.st.out = st.out ++ header c numFirst' := by
  have hn : numFirst ≤ c.inputLen + c.numConst := by
    obtain ⟨⟨F, hF⟩, _⟩ := h1
    have := hF F (Nat.le_refl _)
    unfold write at this
    rw [bind_of_ok (circuit_of hc)] at this
    split at this
    · cases this
    · omega
  obtain ⟨res1, ls1, k1, k2, _⟩ := wrote_file h.wf (h.allBuilt r c hc) hc hn
  obtain ⟨rfl, rfl⟩ := h1.det k1
  refine C56_map h.reachable hc (fun i o gate ho hg => ⟨(k2.dom o).mpr (.inr (.inr ⟨i, o, ho, .refl⟩)), fun x hx => ?_⟩) h2
  exact (k2.dom x).mpr (.inr (.inr ⟨i, o, ho, .operand .refl hg hx⟩))

/-! ### C56 is false -/

local instance : DecidableEq (Except Err (List Bool))
  | .ok a, .ok b => decidable_of_iff (a = b) ⟨congrArg _, Except.ok.inj⟩
  | .error a, .error b => decidable_of_iff (a = b) ⟨congrArg _, Except.error.inj⟩
  | .ok _, .error _ => isFalse nofun
  | .error _, .ok _ => isFalse nofun

theorem split_run {α β γ : Type} {p : α × β × γ} {a : α} (h : p.1 = a) : p = (a, p.2.1, p.2.2) := by rw [← h]

/-- an XOR -/
def xorOps : List Op := [.newStorage, .newCircuit 0, .input 0, .input 0, .xor 0 0 1, .output 0 2]

theorem xorOps_valid : ValidRun (run xorOps) := validRun_of_check xorOps .nil (by decide)

def xorWritten : Str := chars! "1 3\n2 1 1\n1 1\n\n2 1 0 1 2 XOR\n"

def xorAgain : Str := chars! "1 3\n2 1 1\n1 1\n\n2 1 3 4 5 XOR\n"

/-- C56 is false: the same circuit is written twice with one writer. Both calls succeed. The first text is read back; the second one
is rejected, because its input wires are 3 and 4 instead of 0 and 1. -/
theorem C56_false : ∃ w o1 o2 m1 m2, ValidRun w ∧ Obj.write w 9 1 Map.empty (.new 0) = (.ok [], o1, m1) ∧
    Obj.write w 9 1 Map.empty o1 = (.ok [], o2, m2) ∧ o1.out = xorWritten ∧ o2.out = xorWritten ++ xorAgain ∧
    ∀ w2, Reachable w2 → ∀ r2 c2, w2.circs[r2]? = some c2 →
      (∃ gow w3, read r2 Map.empty xorWritten w2 = (.ok gow, w3)) ∧
      ∃ w3, read r2 Map.empty xorAgain w2 = (.error (.unknownWire 3), w3) := by
  refine ⟨run xorOps, _, _, _, _, xorOps_valid, split_run (by decide +kernel), split_run (by decide +kernel), by decide +kernel,
    by decide +kernel, fun w2 h2 r2 c2 hc2 => ⟨?_, ?_⟩⟩
  · obtain ⟨gow, w3, _, h3, _⟩ := C16_read h2 hc2 (f := ⟨1, 3, [1, 1], [1], [⟨.xor, [0, 1], 2⟩]⟩) (text := xorWritten)
      (file?_some (by rfl)) (valid?_true (by rfl))
    exact ⟨gow, w3, h3⟩
  · refine C17_rejects h2 hc2 (.gate (ls := []) (lines_iff.mpr rfl) (two?_some (a := 1) (b := 3) rfl)
      (counted?_some (ns := [1, 1]) rfl) (counted?_some (ns := [1]) rfl) (show All2 _ [] [] from trivial) trivial (by decide)
      (layout_iff.mpr rfl) (.operands (num?_some (n := 2) rfl) (num?_some (n := 1) rfl) (.unknown (num?_some (n := 3) rfl) ?_)))
    simp [Defined]

/-- circuit 1 negates a gate that does not exist yet; circuit 0 calls it -/
def early : List Op :=
  [.newStorage, .newCircuit 0, .subCircuit 0, .input 1, .not 1 2, .output 1 1, .input 0, .module 0 0 [0], .output 0 1]

/-- the gate is added -/
def repaired : List Op := early ++ [.not 1 0]

/-- C56 is false after a call that failed: a writer on circuit 0 reports that a gate is missing in circuit 1. After the gate was
added, the same writer succeeds, but it writes circuit 1: it still refers to the circuit it was in. A new writer on circuit 0
also succeeds and writes another header. -/
theorem C56_failed_false : ∃ o1 o2 o3 m1 m2 m3, Obj.write (run early) 9 1 Map.empty (.new 0) = (.error (.unknownGate 2), o1, m1) ∧
    o1.cref = 1 ∧ Obj.write (run repaired) 9 1 Map.empty o1 = (.ok [], o2, m2) ∧
    Obj.write (run repaired) 9 1 Map.empty (.new 0) = (.ok [], o3, m3) ∧
    o2.out = o1.out ++ chars! "2 3\n2 1 0\n1 1\n\n1 1 1 2 INV\n1 1 2 3 INV\n" ∧
    o3.out = chars! "1 2\n2 1 0\n1 1\n\n1 1 0 1 INV\n1 1 1 2 INV\n" :=
  ⟨_, _, _, _, _, _, split_run (by decide +kernel), by decide +kernel, split_run (by decide +kernel), split_run (by decide +kernel),
    by decide +kernel, by decide +kernel⟩

/-- C56 is false for maps: writing the same circuit with a new writer and the map of the first call succeeds and writes no gates. -/
theorem C56_map_false : ∃ o1 o2 m1 m2, Obj.write (run xorOps) 9 1 Map.empty (.new 0) = (.ok [], o1, m1) ∧
    Obj.write (run xorOps) 9 1 m1 (.new 0) = (.ok [], o2, m2) ∧ o1.out = xorWritten ∧
    o2.out = chars! "1 3\n2 1 1\n1 1\n\n" :=
  ⟨_, _, _, _, split_run (by decide +kernel), split_run (by decide +kernel), by decide +kernel, by decide +kernel⟩

/-! ### the hypotheses are satisfiable -/

/-- a circuit that calls a module twice and has a constant, and a writer that was used before -/
example : ∃ o : Obj.Writer, o.numWire = 13 ∧ o.cref = 0 ∧
    ∃ o' m, Obj.write (run nested) 9 1 Map.empty o = (.ok [true], o', m) ∧
      o'.out = nestedText ++ chars! "10 14\n2 1 2\n1 3\n\n2 1 13 14 16 AND\n1 1 16 17 INV\n2 1 13 14 18 XOR\n2 1 17 2 19 XOR\n1 1 19 20 INV\n1 1 20 21 INV\n2 1 20 18 22 AND\n1 1 22 23 INV\n2 1 20 18 24 XOR\n1 1 21 25 INV\n" :=
  ⟨(Obj.write (run nested) 9 1 Map.empty (.new 0)).2.1, by decide +kernel, by decide +kernel, _, _, split_run (by decide +kernel), by decide +kernel⟩

/-- C56_object: a writer on `nested` that has 13 wires already -/
example : ∃ res, write (run nested) 9 0 1 ⟨13, 2, [], Map.empty⟩ Map.empty = .ok res ∧
    (Obj.write (run nested) 9 1 Map.empty ⟨0, 13, 2, []⟩).1 = .ok res.consts := by
  have h : ((write (run nested) 9 0 1 ⟨13, 2, [], Map.empty⟩ Map.empty).toOption).isSome = true := by rfl
  cases hw : write (run nested) 9 0 1 ⟨13, 2, [], Map.empty⟩ Map.empty with
  | error e => rw [hw] at h; cases h
  | ok res => exact ⟨res, rfl, by rw [(C56_object (o := ⟨0, 13, 2, []⟩) rfl 9 1 Map.empty).2.1 res hw]⟩

/-- C56_again and C56_same_iff for such a writer: it writes another text than a new one -/
example : ∃ res, Wrote (run nested) 0 (run nested).circs[0] 1 res nestedLines ∧ ∃ F, ∀ fuel ≥ F, ∃ o' wog,
    Obj.write (run nested) fuel 1 Map.empty ⟨0, 13, 2, []⟩ = (.ok [true], o', wog) ∧ o'.numWire = 26 ∧ o'.out ≠ res.st.out ∧
      o'.out = header (run nested).circs[0] 1 ++ gatesText (nestedLines.map (relabel (shiftWire 2 1 13))) := by
  obtain ⟨res, h1, h2, _⟩ := nested_wrote
  obtain ⟨res', ls', h3, F, h4⟩ := C56_same_iff nested_valid (o := ⟨0, 13, 2, []⟩) (c := (run nested).circs[0]) rfl (numFirst := 1)
    (by decide)
  obtain ⟨rfl, rfl⟩ := h1.det h3
  obtain ⟨F', hF⟩ := h1.1
  refine ⟨res, h1, max F F', fun fuel hf => ?_⟩
  obtain ⟨o', wog, h5, _, h6, h7⟩ := h4 fuel (by omega)
  obtain ⟨ls, o2, wog2, h8, h9, _, _, h10, _⟩ := C56_again nested_valid.reachable (o := ⟨0, 13, 2, []⟩) (c := (run nested).circs[0]) rfl
    (hF fuel (by omega)) (by rw [h2]; decide)
  rw [h5] at h9
  cases h9
  rw [h2] at h5
  have hls : ls = nestedLines := by
    have h11 := h8.symm.trans h1.2
    exact gatesText_inj (List.append_cancel_left h11)
  rw [hls] at h10
  refine ⟨o', wog, h5, h6, fun he => ?_, h10⟩
  rcases h7.mp (by rw [he]; rfl) with h | h
  · exact absurd h (by decide)
  · exact absurd h (by decide)

/-- C56_map_again: the map of the first write of `nested`, and a new writer -/
example : ∃ res res', Wrote (run nested) 0 (run nested).circs[0] 1 res nestedLines ∧
    write (run nested) 9 0 1 WSt.new res.wog = .ok res' ∧ res'.st.out = chars! "10 14\n2 1 2\n1 3\n\n" := by
  have h : ((write (run nested) 9 0 1 WSt.new Map.empty).bind fun res => write (run nested) 9 0 1 WSt.new res.wog).toOption.isSome =
      true := by rfl
  cases hw : write (run nested) 9 0 1 WSt.new Map.empty with
  | error e => rw [hw] at h; cases h
  | ok res =>
    rw [hw] at h
    simp only [Except.bind] at h
    cases hw' : write (run nested) 9 0 1 WSt.new res.wog with
    | error e => rw [hw'] at h; cases h
    | ok res' =>
      obtain ⟨res2, h1, _⟩ := nested_wrote
      obtain ⟨F, hF⟩ := h1.1
      have h2 := hF (max F 9) (Nat.le_max_left ..)
      rw [write_stable (by rw [hw]; simp) (Nat.le_max_right F 9), hw] at h2
      cases h2
      exact ⟨res, res', h1, hw', C56_map_again nested_valid rfl h1 hw'⟩

/-- C56_map: a map that has a wire for every gate -/
example : ∃ res, write (run nested) 9 0 1 ⟨13, 2, [], Map.empty⟩ (fun g => some g) = .ok res ∧
    res.st.out = chars! "10 14\n2 1 2\n1 3\n\n" := by
  have h : ((write (run nested) 9 0 1 ⟨13, 2, [], Map.empty⟩ (fun g => some g)).toOption).isSome = true := by rfl
  cases hw : write (run nested) 9 0 1 ⟨13, 2, [], Map.empty⟩ (fun g => some g) with
  | error e => rw [hw] at h; cases h
  | ok res =>
    have := C56_map nested_valid.reachable (c := (run nested).circs[0]) rfl
      (fun _ _ _ _ _ => ⟨Option.some_ne_none _, fun _ _ => Option.some_ne_none _⟩) hw
    exact ⟨res, rfl, this⟩

end CC.Props
