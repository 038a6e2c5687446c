import Verif.Proofs.TicksC
import Verif.Props.Writer
import Verif.Proofs.Depth

/-!
# C66: how often gates are computed

`Ticks.evalOutput κ` is the evaluator with a clock that advances by `κ r g` whenever a computation of gate `g` of circuit
`r` begins; `Ticks.time κ w fuel r ins` is the time at the end, whether the evaluation succeeds or not. `Effort` and `Limit`
(`Spec/Effort.lean`) are sums over lists of gates.
-/

namespace CC.Props
open CC Spec Ticks

/-- C66: with the clock the evaluator returns what it returns without. -/
theorem C66_same (κ : Ref → GateId → Nat) (w : World) (fuel : Nat) (r : Ref) (ins : List Bool) (n : Nat) :
    (Ticks.evalOutput κ w fuel r ins n).1 = evalOutput w fuel r ins := Er.evalOutput κ w fuel r ins n

/-- C66, the part that holds: if the outputs of the circuit and of all circuits it calls are `Readable` (C11), then a
successful evaluation takes exactly the time for computing each needed gate once, with one evaluation of the called circuit
per module call. An unsuccessful one takes no longer. This is for any price of the gates. -/
theorem C66_exact_partial (κ : Ref → GateId → Nat) {w : World} (h : Reachable w) {r : Ref} (hev : Evaluable w r) :
    ∃ N, Effort κ w r N ∧ ∀ fuel ins, time κ w fuel r ins ≤ N ∧
      ∀ outs, evalOutput w fuel r ins = .ok outs → time κ w fuel r ins = N := by
  have hw := WFw.of_reachable h
  obtain ⟨N, hN⟩ := hev.built.effort κ hw
  exact ⟨N, hN, fun fuel ins => ⟨(hN.time hw hev fuel ins).1, fun outs ho => (hN.time hw hev fuel ins).2 ⟨outs, ho⟩⟩⟩

/-- C66: for any circuit, if the gates it uses exist and come first, no evaluation takes longer than computing all its
gates once for each output, and likewise in the called circuits. -/
theorem C66_limit (κ : Ref → GateId → Nat) {w : World} (h : Reachable w) {r : Ref} (hb : Built w r) :
    ∃ N, Limit κ w r N ∧ ∀ fuel ins, time κ w fuel r ins ≤ N := by
  have hw := WFw.of_reachable h
  obtain ⟨N, hN⟩ := hb.limit κ hw
  exact ⟨N, hN, hN.time hw hb⟩

/-- the clock counts the computations of gate `g` of circuit `r` -/
def only (r : Ref) (g : GateId) : Ref → GateId → Nat := fun r' g' => if r' = r ∧ g' = g then 1 else 0

/-- the clock counts the computations of logic gates -/
def logic (w : World) : Ref → GateId → Nat := fun r g =>
  match w.circs[r]? with
  | none => 0
  | some c => match c.gateMap g with
    | some (.not _) | some (.xor _ _) | some (.and _ _) | some (.or _ _) => 1
    | _ => 0

theorem effort_zero {κ : Ref → GateId → Nat} {w : World} {r : Ref} {N : Nat} (h : Effort κ w r N)
    (h0 : ∀ g, κ r g = 0) (h1 : ∀ x, CallsPlus w r x → ∀ g, κ x g = 0) : N = 0 := by
  induction h with
  | @mk r c gs m hc hnd hgs hm0 _ ih =>
    have : ∀ g ∈ gs, κ r g + m g = 0 := by
      intro g hg
      rw [h0 g]
      by_cases e : ∃ mr, IsCall w c g mr
      · obtain ⟨mr, hmr⟩ := e
        have hcp : CallsPlus w r mr := .one hc (isCall_calls hmr)
        rw [ih g mr hg hmr (h1 mr hcp) fun x hx => h1 x (.step hc (isCall_calls hmr) hx)]
      · rw [hm0 g hg fun mr hmr => e ⟨mr, hmr⟩]
    exact List.sum_eq_zero (by simpa using this)

theorem limit_zero {κ : Ref → GateId → Nat} {w : World} {r : Ref} {N : Nat} (h : Limit κ w r N)
    (h0 : ∀ g, κ r g = 0) (h1 : ∀ x, CallsPlus w r x → ∀ g, κ x g = 0) : N = 0 := by
  induction h with
  | @mk r c gs m hc hnd hgs hm0 _ ih =>
    have : ∀ g ∈ gs, κ r g + m g = 0 := by
      intro g hg
      rw [h0 g]
      by_cases e : ∃ mr, IsCall w c g mr
      · obtain ⟨mr, hmr⟩ := e
        have hcp : CallsPlus w r mr := .one hc (isCall_calls hmr)
        rw [ih g mr hg hmr (h1 mr hcp) fun x hx => h1 x (.step hc (isCall_calls hmr) hx)]
      · rw [hm0 g hg fun mr hmr => e ⟨mr, hmr⟩]
    rw [List.sum_eq_zero (l := gs.map fun g => κ r g + m g) (by simpa using this), Nat.mul_zero]

theorem sum_map_congr {f g : Nat → Nat} {l : List Nat} (h : ∀ x ∈ l, f x = g x) : (l.map f).sum = (l.map g).sum := by
  rw [List.map_congr_left h]

theorem sum_indicator (g : Nat) : ∀ {l : List Nat}, l.Nodup → (l.map fun x => if x = g then 1 else 0).sum = if g ∈ l then 1 else 0
  | [], _ => by simp
  | x :: xs, h => by
    obtain ⟨h1, h2⟩ := List.nodup_cons.mp h
    rw [List.map_cons, List.sum_cons, sum_indicator g h2]
    by_cases e : x = g
    · subst e; simp [h1]
    · have : g ≠ x := fun h => e h.symm
      simp [e, this]

/-- C66, the part that holds: if the outputs are `Readable`, a successful evaluation of a circuit computes each of its
constants, logic gates and module calls that is needed for an output exactly once, and nothing else. -/
theorem C66_once_partial {w : World} (h : Reachable w) {r : Ref} (hev : Evaluable w r) {c : Circuit} (hc : w.circs[r]? = some c)
    (g : GateId) {fuel : Nat} {ins outs : List Bool} (he : evalOutput w fuel r ins = .ok outs) :
    (Needed c g ∧ IsTask w c g → time (only r g) w fuel r ins = 1) ∧
    (¬ (Needed c g ∧ IsTask w c g) → time (only r g) w fuel r ins = 0) := by
  obtain ⟨N, hN, ht⟩ := C66_exact_partial (only r g) h hev
  rw [(ht fuel ins).2 outs he]
  have hac := hev.built.acyclic
  cases hN with
  | @mk _ c' gs m hc' hnd hgs hm0 hm =>
    rw [hc] at hc'; cases hc'
    have hz : ∀ x ∈ gs, m x = 0 := by
      intro x hx
      by_cases e : ∃ mr, IsCall w c x mr
      · obtain ⟨mr, hmr⟩ := e
        refine effort_zero (hm x mr hx hmr) (fun y => ?_) fun z hz y => ?_
        · refine if_neg ?_
          rintro ⟨rfl, _⟩
          exact hac (.one hc (isCall_calls hmr))
        · refine if_neg ?_
          rintro ⟨rfl, _⟩
          exact hac (.step hc (isCall_calls hmr) hz)
      · exact hm0 x hx fun mr hmr => e ⟨mr, hmr⟩
    have hsum : (gs.map fun x => only r g r x + m x).sum = if g ∈ gs then 1 else 0 := by
      rw [← sum_indicator g hnd]
      refine sum_map_congr fun x hx => ?_
      rw [hz x hx]
      simp [only]
    rw [hsum]
    exact ⟨fun hg => if_pos ((hgs g).mpr hg), fun hg => if_neg fun h => hg ((hgs g).mp h)⟩

/-- C66: no evaluation, successful or not, computes a gate of the circuit more often than the circuit has outputs. -/
theorem C66_per_output {w : World} (h : Reachable w) {r : Ref} (hb : Built w r) {c : Circuit} (hc : w.circs[r]? = some c)
    (g : GateId) (fuel : Nat) (ins : List Bool) : time (only r g) w fuel r ins ≤ c.outputLen := by
  obtain ⟨N, hN, ht⟩ := C66_limit (only r g) h hb
  refine Nat.le_trans (ht fuel ins) ?_
  have hac := hb.acyclic
  cases hN with
  | @mk _ c' gs m hc' hnd hgs hm0 hm =>
    rw [hc] at hc'; cases hc'
    have hz : ∀ x ∈ gs, m x = 0 := by
      intro x hx
      by_cases e : ∃ mr, IsCall w c x mr
      · obtain ⟨mr, hmr⟩ := e
        refine limit_zero (hm x mr hx hmr) (fun y => ?_) fun z hz y => ?_
        · refine if_neg ?_
          rintro ⟨rfl, _⟩
          exact hac (.one hc (isCall_calls hmr))
        · refine if_neg ?_
          rintro ⟨rfl, _⟩
          exact hac (.step hc (isCall_calls hmr) hz)
      · exact hm0 x hx fun mr hmr => e ⟨mr, hmr⟩
    have hsum : (gs.map fun x => only r g r x + m x).sum = if g ∈ gs then 1 else 0 := by
      rw [← sum_indicator g hnd]
      refine sum_map_congr fun x hx => ?_
      rw [hz x hx]
      simp [only]
    rw [hsum]
    split <;> omega

theorem logic_one {w : World} {r : Ref} {c : Circuit} (hc : w.circs[r]? = some c) {g : GateId} (h : IsLogic c g) :
    logic w r g = 1 := by
  obtain ⟨x, y, h | h | h | h⟩ := h <;> simp [logic, hc, h]

theorem logic_zero {w : World} {r : Ref} {c : Circuit} (hc : w.circs[r]? = some c) {g : GateId} (h : ¬ IsLogic c g) :
    logic w r g = 0 := by
  unfold logic
  rw [hc]
  simp only
  split
  · rename_i x e; exact absurd ⟨x, x, Or.inl e⟩ h
  · rename_i x y e; exact absurd ⟨x, y, Or.inr (Or.inl e)⟩ h
  · rename_i x y e; exact absurd ⟨x, y, Or.inr (Or.inr (Or.inl e))⟩ h
  · rename_i x y e; exact absurd ⟨x, y, Or.inr (Or.inr (Or.inr e))⟩ h
  · rfl

theorem call_not_logic {w : World} {c : Circuit} {g : GateId} {mr : Ref} (h : IsCall w c g mr) : ¬ IsLogic c g := by
  obtain ⟨_, _, _, _, h, _⟩ := h
  rintro ⟨x, y, k | k | k | k⟩ <;> rw [h] at k <;> cases k

theorem effort_inlined {w : World} (hw : WFw w) {r : Ref} {N : Nat} (h : Effort (logic w) w r N) :
    ∀ {n : Nat} {bs : List Bool}, Inlined w r n bs → N = n := by
  classical
  induction h with
  | @mk r c gs m hc hnd hgs hm0 _ ih =>
    intro n bs hi
    cases hi with
    | @mk _ c' own gs' n b hc' _ hnd' hgs' hl hcall =>
    rw [hc] at hc'; cases hc'
    have hwf := hw.circ r c hc
    have e1 : sumTo c.gateIndex (fun g => if g ∈ gs then logic w r g + m g else 0) =
        (gs.map fun g => logic w r g + m g).sum := by
      rw [sumTo_list hnd fun g hg => IsTask.lt hwf ((hgs g).mp hg).2]
      · exact sum_map_congr fun g hg => if_pos hg
      · exact fun g _ hg => if_neg hg
    rw [← e1, sumTo_list hnd']
    · refine sum_map_congr fun g hg => ?_
      obtain ⟨hn, ht⟩ := (hgs' g).mp hg
      have hg' : g ∈ gs := (hgs g).mpr ⟨hn, Or.inr ht⟩
      rw [if_pos hg']
      rcases ht with ht | ⟨mr, ht⟩
      · rw [logic_one hc ht, hm0 g hg' fun mr hmr => call_not_logic hmr ht, (hl g hg ht).1]
      · rw [logic_zero hc (call_not_logic ht), ih g mr hg' ht (hcall g mr hg ht), Nat.zero_add]
    · intro g hg
      rcases ((hgs' g).mp hg).2 with ht | ⟨mr, ht⟩
      · exact IsLogic.lt hwf ht
      · exact IsCall.lt hwf ht
    · intro g _ hg
      split
      · rename_i hg'
        obtain ⟨hn, ht⟩ := (hgs g).mp hg'
        have h1 : ¬ IsLogic c g := fun h => hg ((hgs' g).mpr ⟨hn, Or.inl h⟩)
        have h2 : ∀ mr, ¬ IsCall w c g mr := fun mr h => hg ((hgs' g).mpr ⟨hn, Or.inr ⟨mr, h⟩⟩)
        rw [logic_zero hc h1, hm0 g hg' h2]
      · rfl

/-- C66, the part that holds: a successful evaluation of an evaluable circuit computes as many logic gates as there are
gate lines in a file with the circuit (C21). -/
theorem C66_lines_partial {w : World} (h : Reachable w) {r : Ref} (hev : Evaluable w r) {n : Nat} {bs : List Bool}
    (hi : Inlined w r n bs) {fuel : Nat} {ins outs : List Bool} (he : evalOutput w fuel r ins = .ok outs) :
    time (logic w) w fuel r ins = n := by
  obtain ⟨N, hN, ht⟩ := C66_exact_partial (logic w) h hev
  rw [(ht fuel ins).2 outs he, effort_inlined (WFw.of_reachable h) hN hi]

/-- C66, the part that holds: if all calls were valid and the outputs are `Readable`, no evaluation computes more logic gates
than `num_gate`. -/
theorem C66_num_gate_partial {w : World} (h : ValidRun w) {r : Ref} (hev : Evaluable w r) {c : Circuit}
    (hc : w.circs[r]? = some c) (fuel : Nat) (ins : List Bool) : time (logic w) w fuel r ins ≤ c.numGate := by
  obtain ⟨N, hN, ht⟩ := C66_exact_partial (logic w) h.reachable hev
  obtain ⟨res, ls, _, hi⟩ := C21_built h.reachable hev.built hc (Nat.zero_le _)
  refine Nat.le_trans (ht fuel ins).1 ?_
  rw [effort_inlined h.wf hN hi]
  exact (hi.bounds h c hc).1

/-- a constant, negated twice; the outputs are the second negation and the first -/
def backwards : List Op := [.newStorage, .newCircuit 0, .constant 0 true, .not 0 0, .not 0 1, .output 0 2, .output 0 1]

theorem backwards_valid : ValidRun (run backwards) := validRun_of_check backwards .nil (by decide)

/-- C66 is false of the code: a circuit built by valid calls, with a successful evaluation in which the first negation is
computed twice, and three logic gates are computed although the circuit has two. The evaluator drops the first negation
when it has computed the second, and later needs it for the second output. -/
theorem C66_once_false : ∃ w c, ValidRun w ∧ Built w 0 ∧ w.circs[0]? = some c ∧ c.numGate = 2 ∧
    ∀ fuel, evalOutput w (fuel + 3) 0 [] = .ok [true, false] ∧ time (only 0 1) w (fuel + 3) 0 [] = 2 ∧
      time (logic w) w (fuel + 3) 0 [] = 3 :=
  ⟨run backwards, _, backwards_valid, backwards_valid.allBuilt 0 _ rfl, rfl, rfl, fun _ => ⟨rfl, rfl, rfl⟩⟩

theorem nested_evaluable : Evaluable (run nested) 0 :=
  nested_valid.allBuilt.evaluable (readable_of_check nested_valid.wf (by decide)) (r := 0) (c := (run nested).circs[0]) rfl

/-- two calls of a module, shared gates, a constant -/
example : Reachable (run nested) ∧ Evaluable (run nested) 0 ∧ Built (run nested) 0 ∧ ValidRun (run nested) ∧
    evalOutput (run nested) 6 0 [true, false] = .ok [false, false, true] :=
  ⟨run_reachable nested, nested_evaluable, nested_evaluable.built, nested_valid, rfl⟩

/-- gate 3 is the first gate of a call of the module, gate 2 of the module is its AND -/
example : time (only 0 3) (run nested) 6 0 [true, false] = 1 ∧ time (only 0 2) (run nested) 6 0 [true, false] = 1 ∧
    time (only 0 0) (run nested) 6 0 [true, false] = 0 ∧ time (only 1 2) (run nested) 6 0 [true, false] = 2 ∧
    time (logic (run nested)) (run nested) 6 0 [true, false] = 10 := by decide +kernel

/-- the lines of the file -/
example : ∃ bs, Inlined (run nested) 0 10 bs := by
  obtain ⟨res, h, hb, _⟩ := nested_wrote
  exact ⟨res.consts, inlined_of_wrote nested_valid rfl (by decide) h⟩

/-- time passes in evaluations that fail: the negation has been computed when the evicted input is missing -/
example : evalOutput (run evicted) 6 0 [true] = .error (.unknownEvaledBit 0) ∧
    time (logic (run evicted)) (run evicted) 6 0 [true] = 1 := ⟨rfl, by decide +kernel⟩

/-- C66_exact_partial and C66_limit, counting the computations of gate 2 of the module -/
example : (∃ N, Effort (only 1 2) (run nested) 0 N ∧ time (only 1 2) (run nested) 6 0 [true, false] = N) ∧
    ∃ N, Limit (only 1 2) (run nested) 0 N ∧ ∀ fuel ins, time (only 1 2) (run nested) fuel 0 ins ≤ N := by
  refine ⟨?_, C66_limit _ nested_valid.reachable nested_evaluable.built⟩
  obtain ⟨N, h1, h2⟩ := C66_exact_partial (only 1 2) nested_valid.reachable nested_evaluable
  exact ⟨N, h1, (h2 6 [true, false]).2 [false, false, true] rfl⟩

/-- C66_once_partial, C66_per_output, C66_lines_partial, C66_num_gate_partial -/
example : (Needed (run nested).circs[0] 3 ∧ IsTask (run nested) (run nested).circs[0] 3 → time (only 0 3) (run nested) 6 0 [true, false] = 1) ∧
    (∀ fuel ins, time (only 0 3) (run nested) fuel 0 ins ≤ 3) ∧ time (logic (run nested)) (run nested) 6 0 [true, false] = 10 ∧
    ∀ fuel ins, time (logic (run nested)) (run nested) fuel 0 ins ≤ 10 := by
  obtain ⟨res, hw, _⟩ := nested_wrote
  have hi := inlined_of_wrote nested_valid rfl (by decide) hw
  exact ⟨(C66_once_partial nested_valid.reachable nested_evaluable rfl 3 (outs := [false, false, true]) rfl).1,
    fun _ _ => C66_per_output nested_valid.reachable nested_evaluable.built rfl 3 _ _,
    C66_lines_partial nested_valid.reachable nested_evaluable hi (outs := [false, false, true]) rfl,
    fun _ _ => C66_num_gate_partial nested_valid nested_evaluable rfl _ _⟩

end CC.Props
