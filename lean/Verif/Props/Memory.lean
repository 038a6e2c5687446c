import Verif.Proofs.Storeys

/-!
# C79, C80: what an evaluation does apart from the bits, and how much it stores

`Log.evalOutput` is the evaluator with a log of all accesses to its maps (`Model/Log.lean`), `Log.log w fuel r ins` the log
of an evaluation, whether it succeeds or not. `frames`, `held`, `Space`, `Sparing` and `Told` are in `Spec/Memory.lean`.
-/

namespace CC.Props
open CC Spec Log

/-! ### C79 -/

/-- C79: with the log the evaluator returns what it returns without. -/
theorem C79_same (w : World) (fuel : Nat) (r : Ref) (ins : List Bool) (l : List Event) :
    (Log.evalOutput w fuel r ins l).1 = CC.evalOutput w fuel r ins := by
  rw [← C66_same (fun _ _ => 0) w fuel r ins (cost (fun _ _ => 0) l), (Tm.evalOutput _ w fuel r ins).run l]

/-- C79: two evaluations on input vectors of the same length do the same: the same accesses to the maps, for the same gates,
with the same outcome of every lookup, in the same order. This is for every heap, circuit and depth, and for failing
evaluations too, which fail at the same place. -/
theorem C79_log (w : World) (fuel : Nat) (r : Ref) {xs ys : List Bool} (h : xs.length = ys.length) :
    log w fuel r xs = log w fuel r ys := ((evalOutput_blind w fuel r h).run []).2

/-- C79: the time of C66 is the price of the gates in the log. -/
theorem C79_cost (κ : Ref → GateId → Nat) (w : World) (fuel : Nat) (r : Ref) (ins : List Bool) :
    Ticks.time κ w fuel r ins = cost κ (log w fuel r ins) :=
  congrArg Prod.snd ((Tm.evalOutput κ w fuel r ins).run [])

/-- C79: so the time does not depend on the bits, for any price of the gates. -/
theorem C79_time (κ : Ref → GateId → Nat) (w : World) (fuel : Nat) (r : Ref) {xs ys : List Bool} (h : xs.length = ys.length) :
    Ticks.time κ w fuel r xs = Ticks.time κ w fuel r ys := by
  rw [C79_cost, C79_cost, C79_log w fuel r h]

/-! ### C80 -/

theorem below {w : World} (h : Reachable w) {r : Ref} {N : Nat} (hs : Space w r N) (fuel : Nat) (ins : List Bool) :
    Below w N (log w fuel r ins) := log_below (WFw.of_reachable h) (fun _ _ hc => tracks h hc) hs fuel ins

/-- C80: at no moment of an evaluation, successful or not, are more bits stored than there are gates on the longest chain of
circuits that call each other, counting a circuit once however often it is called. -/
theorem C80_space {w : World} (h : Reachable w) {r : Ref} {N : Nat} (hs : Space w r N) {fuel : Nat} {ins : List Bool} {p : List Event}
    (hp : p <+: log w fuel r ins) : held p ≤ N := (below h hs fuel ins p hp).held

/-- C80: in terms of the circuits involved, each counted once. -/
theorem C80_bound {w : World} (h : Reachable w) {r : Ref} (hb : Built w r) {s : List Ref} (hs : s.Nodup)
    (hr : r ∈ s) (hcl : Closed w s) {fuel : Nat} {ins : List Bool} {p : List Event} (hp : p <+: log w fuel r ins) :
    held p ≤ together w s := C80_space h (space_of_closed hb hs hr hcl) hp

/-- C80: in a heap built by valid calls, never more bits than there are gates in the heap. -/
theorem C80_heap {w : World} (h : ValidRun w) {r : Ref} {c : Circuit} (hc : w.circs[r]? = some c) {fuel : Nat} {ins : List Bool}
    {p : List Event} (hp : p <+: log w fuel r ins) : held p ≤ gates w := by
  rw [← together_range]
  exact C80_bound h.reachable (h.allBuilt r c hc) List.nodup_range
    (List.mem_range.mpr (List.getElem?_eq_some_iff.mp hc).1) (closed_range h.allBuilt) hp

/-- C80: at every moment, in every evaluation that is going on, no bit is stored twice, all belong to existing gates, and
none was used as often as the gate has readers, except that gates without readers are kept. -/
theorem C80_sparing {w : World} (h : Reachable w) {r : Ref} (hb : Built w r) {fuel : Nat} {ins : List Bool} {p : List Event}
    (hp : p <+: log w fuel r ins) {f : Frame} (hf : f ∈ frames p) : Sparing w f := by
  obtain ⟨N, hs⟩ := hb.spaced
  obtain ⟨c, hc, hbits⟩ := (below h hs fuel ins p hp).bits f hf
  refine ⟨hbits.nodup, fun g k hg => ⟨c, hc, hbits.lt _ hg, ?_⟩⟩
  rw [← (tracks h hc).list]
  rcases hbits.live _ hg with h | h
  · exact Or.inl h
  · exact Or.inr (List.length_eq_zero_iff.mp h.2)

/-- C80: the log tells the truth about what is stored: every event belongs to the innermost evaluation, a lookup finds a bit
exactly if it is stored, a use is the last one exactly if all readers have used the bit then, and when a bit is stored, every
bit has been used exactly once for each reading by a gate computed since (`uses`, `reads`). -/
theorem C80_told {w : World} (h : Reachable w) {r : Ref} (hb : Built w r) {fuel : Nat} {ins : List Bool} {p : List Event} {e : Event}
    (hp : p ++ [e] <+: log w fuel r ins) : Told w (frames p) e := by
  obtain ⟨N, hs⟩ := hb.spaced
  exact (below h hs fuel ins _ hp).told p e rfl

/-- C80: when an evaluation succeeds, nothing is left. -/
theorem C80_freed {w : World} (h : Reachable w) {r : Ref} (hb : Built w r) {fuel : Nat} {ins outs : List Bool}
    (ho : CC.evalOutput w fuel r ins = .ok outs) : frames (log w fuel r ins) = [] := by
  obtain ⟨N, hs⟩ := hb.spaced
  exact log_freed (WFw.of_reachable h) (fun _ _ hc => tracks h hc) hs ((C79_same w fuel r ins []).trans ho)

/-- C80: the time can be exponential in the number of calls of the library while memory and recursion depth stay linear: six
calls for each storey of the tower, each of which calls the one below twice. -/
theorem C80_exponential (n : Nat) : let w := run (storeys n)
    (storeys n).length = 6 * (n + 1) ∧ ValidRun w ∧ gates w = 3 * n + 2 ∧ ∀ fuel ≥ 3 * n + 2, ∀ b : Bool,
      (∃ outs, CC.evalOutput w fuel n [b] = .ok outs) ∧ Ticks.time (logic w) w fuel n [b] = 2 ^ n ∧
      ∀ p, p <+: log w fuel n [b] → held p ≤ 3 * n + 2 := by
  obtain ⟨hv, e⟩ := storeys_heap n
  simp only
  rw [e] at hv ⊢
  refine ⟨storeys_length n, hv, storeys_gates, fun fuel hf b => ?_⟩
  have hc := storeys_circ (n := n) (Nat.le_refl n)
  obtain ⟨outs, h1, -⟩ := C58_eval hv (fun q c i o hq ho => by
    obtain ⟨-, rfl⟩ := storeys_inv hq
    exact storeys_readable ho) hc (by rw [storeys_gates]; exact hf) (ins := [b]) (storey_one n).inputs.symm
  refine ⟨⟨outs, h1⟩, ?_, fun p hp => ?_⟩
  · exact ((storeys_effort n (Nat.le_refl n)).time hv.wf (storeys_evaluable hv (Nat.le_refl n)) fuel [b]).2 ⟨outs, h1⟩
  · have := C80_heap hv hc hp
    rwa [storeys_gates] at this

/-! ### instances -/

/-- the log of a NOT gate that is read by another one: the bit of gate 1 is dropped when it has been used -/
def twoNots : List Op := [.newStorage, .newCircuit 0, .input 0, .not 0 0, .not 0 1, .output 0 2]

example : log (run twoNots) 3 0 [true] = [.enter 0, .store 0 0, .look 0 2 false, .compute 0 2, .look 0 1 false, .compute 0 1,
    .look 0 0 true, .read 0 0, .count 0 0 true, .store 0 1, .read 0 1, .count 0 1 true, .store 0 2, .read 0 2, .leave 0] := by
  decide +kernel

/-- never more than one bit -/
example : ((log (run twoNots) 3 0 [true]).inits.map held) = [0, 0, 1, 1, 1, 1, 1, 1, 1, 0, 1, 1, 0, 1, 1, 0] := by decide +kernel

/-- C79_same, C79_log, C79_cost, C79_time: `nested` has three outputs and two module calls -/
example : (Log.evalOutput (run nested) 6 0 [true, false] []).1 = .ok [false, false, true] ∧
    log (run nested) 6 0 [true, false] = log (run nested) 6 0 [false, false] ∧ (log (run nested) 6 0 [true, false]).length = 111 ∧
    cost (logic (run nested)) (log (run nested) 6 0 [true, true]) = 10 ∧
    Ticks.time (only 1 2) (run nested) 6 0 [true, true] = Ticks.time (only 1 2) (run nested) 6 0 [false, true] :=
  ⟨C79_same _ _ _ _ [], C79_log _ _ _ rfl, by decide +kernel, (C79_cost _ _ _ _ _).symm.trans (by decide +kernel), C79_time _ _ _ _ rfl⟩

/-- with another number of bits the log may be another one -/
example : log (run nested) 6 0 [true] ≠ log (run nested) 6 0 [true, false] := by decide +kernel

/-- a failing evaluation has a log too; it ends with the access that fails -/
example : CC.evalOutput (run evicted) 6 0 [true] = .error (.unknownEvaledBit 0) ∧
    (log (run evicted) 6 0 [true]).getLast? = some (.read 0 0) ∧ log (run evicted) 6 0 [true] = log (run evicted) 6 0 [false] :=
  ⟨rfl, by decide +kernel, C79_log _ _ _ rfl⟩

/-- C80_space, C80_bound, C80_heap: `nested`, with 11 + 5 gates -/
example : Space (run nested) 0 16 ∧ (∀ p, p <+: log (run nested) 6 0 [true, false] → held p ≤ together (run nested) [0, 1]) ∧
    together (run nested) [0, 1] = 16 ∧ (∀ p, p <+: log (run nested) 6 0 [true, false] → held p ≤ gates (run nested)) ∧
    (∀ fuel ins p, p <+: log (run nested) fuel 0 ins → held p ≤ 16) ∧
    held ((log (run nested) 6 0 [true, false]).take 32) = 5 := by
  have hcl : Closed (run nested) [0, 1] := closed_range nested_valid.allBuilt
  have hs : Space (run nested) 0 16 := space_of_closed nested_evaluable.built (by decide) (by decide) hcl
  exact ⟨hs, fun p hp => C80_bound nested_valid.reachable nested_evaluable.built (by decide) (by decide) hcl hp, by decide +kernel,
    fun p hp => C80_heap nested_valid rfl hp, fun _ _ _ hp => C80_space nested_valid.reachable hs hp, by decide +kernel⟩

/-- during the first call of the module: input 1 of the module has been used once and has another reader -/
example : (frames ((log (run nested) 6 0 [true, false]).take 40)).map (fun f => (f.circuit, f.bits)) =
    [(1, [(3, 0), (1, 1)]), (0, [(1, 0), (0, 0)])] := by decide +kernel

/-- C80_sparing, C80_told, C80_freed -/
example : (∀ f ∈ frames ((log (run nested) 6 0 [true, false]).take 40), Sparing (run nested) f) ∧
    Told (run nested) (frames ((log (run nested) 6 0 [true, false]).take 40)) (.count 1 1 true) ∧
    Told (run nested) (frames ((log (run nested) 6 0 [true, false]).take 31)) (.store 1 3) ∧
    frames (log (run nested) 6 0 [true, false]) = [] := by
  refine ⟨fun f hf => C80_sparing nested_valid.reachable nested_evaluable.built (List.take_prefix ..) hf,
    C80_told (r := 0) (fuel := 6) (ins := [true, false]) nested_valid.reachable nested_evaluable.built (by decide +kernel),
    C80_told (r := 0) (fuel := 6) (ins := [true, false]) nested_valid.reachable nested_evaluable.built (by decide +kernel),
    C80_freed nested_valid.reachable nested_evaluable.built (outs := [false, false, true]) rfl⟩
/-- an evaluation that fails leaves its maps to be freed by the caller -/
example : (frames (log (run evicted) 6 0 [true])).length = 1 := by decide +kernel

/-- C80_exponential: 30 storeys, 186 calls, 92 gates, more than a billion computations -/
example : (storeys 30).length = 186 ∧ gates (run (storeys 30)) = 92 ∧
    Ticks.time (logic (run (storeys 30))) (run (storeys 30)) 92 30 [true] = 1073741824 ∧
    ∀ p, p <+: log (run (storeys 30)) 92 30 [true] → held p ≤ 92 := by
  obtain ⟨h1, _, h2, h3⟩ := C80_exponential 30
  exact ⟨h1, h2, (h3 92 (by decide) true).2.1, (h3 92 (by decide) true).2.2⟩

/-- two storeys: four computations -/
example : CC.evalOutput (run (storeys 2)) 8 2 [true] = .ok [true] ∧ Ticks.time (logic (run (storeys 2))) (run (storeys 2)) 8 2 [true] = 4 :=
  ⟨rfl, by decide +kernel⟩

end CC.Props
