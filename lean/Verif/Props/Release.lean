import Verif.Proofs.ReleaseCheck
import Verif.Props.Overflow

/-!
# C61: release builds

`Op.callC` makes a call in a debug build (additions and subtractions are checked), `Op.callR` in a release build (they wrap
around).
-/

namespace CC.Props
open CC Spec

/-- **C61.** In a heap whose counters fit in 64 bits, a call that does not panic on arithmetic in a debug build does the same in
a release build. -/
theorem C61_same (op : Op) (w : World) (h : Fits w) (k : ∀ e, (op.callC w).1 = .error e → ¬Arith e) :
    op.callR w = op.callC w := by
  by_cases hf : Fits (op.call w).2
  · have h1 := (callC_agrees op).same w hf
    rw [h1] at k ⊢
    exact (callR_same op).same w hf fun e => k _ e trivial
  · exact absurd trivial (k _ ((callC_agrees op).over w h hf))

/-- **C61.** A history without arithmetic panics in a debug build has the same results and the same heap in a release build. -/
theorem C61_history (ops : List Op)
    (h : ∀ e ∈ (playC ops (World.empty, [])).2, ∀ er, e.res = .error er → ¬Arith er) :
    playR ops (World.empty, []) = playC ops (World.empty, []) := by
  have mono (ops : List Op) : ∀ x : World × List Ev, ∀ e ∈ x.2, e ∈ (playC ops x).2 := by
    induction ops with
    | nil => exact fun _ _ h => h
    | cons op ops ih => exact fun x e h => ih _ e (List.mem_append_left _ h)
  suffices hs : ∀ (ops : List Op) (x : World × List Ev), Fits x.1 →
      (∀ e ∈ (playC ops x).2, ∀ er, e.res = .error er → ¬Arith er) → playR ops x = playC ops x from
    hs ops _ ⟨fun _ h => absurd h List.not_mem_nil, fun _ h => absurd h List.not_mem_nil⟩ h
  intro ops
  induction ops with
  | nil => exact fun _ _ _ => rfl
  | cons op ops ih =>
    intro x hf hx
    have hop : ∀ e, (op.callC x.1).1 = .error e → ¬Arith e := fun e he =>
      hx ⟨op, x.1, (op.callC x.1).1⟩ (mono ops _ _ (List.mem_append_right _ (List.mem_singleton.mpr rfl))) e he
    have h1 := C61_same op x.1 hf hop
    have h2 : Fits (op.callC x.1).2 := by
      by_cases hf' : Fits (op.call x.1).2
      · rw [(callC_agrees op).same x.1 hf']
        exact hf'
      · exact absurd trivial (hop _ ((callC_agrees op).over x.1 hf hf'))
    show playR ops ((op.callR x.1).2, x.2 ++ [⟨op, x.1, (op.callR x.1).1⟩]) = _
    rw [h1]
    exact ih _ h2 hx

/-- **C61.** No call panics on arithmetic in a release build. -/
theorem C61_total (op : Op) (w : World) (e : Err) (h : (op.callR w).1 = .error e) : ¬Arith e := noArith_callR op w e h

/-- **C61.** In a release build, a call of a registered module other than the circuit itself always succeeds, and returns one id
per output of the callee. -/
theorem C61_module {w : World} {r q : Ref} {mid : ModuleId} {c m : Circuit} (hr : w.circs[r]? = some c)
    (hmod : w.module? c mid = some q) (hq : q ≠ r) (hm : w.circs[q]? = some m) (ids : List GateId) :
    ∃ outs, ((Op.module r mid ids).callR w).1 = .ok (.gates outs) ∧ outs.length = m.outputLen := by
  have hlen (a b : Nat) (k : Nat) : ∀ (c : Circuit) (i : Nat),
      (Wrapping.addModuleGates c a b ids mid i k).1.length = k := by
    induction k with
    | zero => exact fun _ _ => rfl
    | succ k ih => exact fun c i => congrArg (· + 1) (ih _ (i + 1))
  refine ⟨(Wrapping.module c m mid ids).1, ?_, hlen _ _ _ _ _⟩
  simp only [Op.callR, M.bind_apply, WrappingApi.module, hr, hmod, if_neg hq, hm]
  rfl

/-- **C61.** In every history of a release build, `num_wire` counts the inputs, the constants and the gates of a circuit, called
modules included, modulo 2^64. -/
theorem C61_wires {w : World} (h : RunR w) {r : Ref} {c : Circuit} (hr : w.circs[r]? = some c) :
    c.numWire = (c.inputLen + c.numConst + c.numGate) % 2 ^ 64 := (h.sum.get hr).wires

/-- **C61.** In a release build, evaluation never returns a wrong bit, even if `num_wire`, `num_gate` or `num_const` have wrapped
around. -/
theorem C61_sound {w : World} (h : RunR w) (hroom : Room w) {fuel : Nat} {r : Ref} {ins outs : List Bool}
    (he : evalOutput w fuel r ins = .ok outs) : Outputs w r ins outs := by
  obtain ⟨v, h1, h2, _⟩ := h.ideal hroom
  rw [h1.evalOutput] at he
  exact h1.symm.outputs (evalOutput_sound h2 he)

/-- **C61.** In a release build, a circuit built by valid calls whose outputs are all `Readable` can be evaluated on every input
vector of the right length, and the result are the truth-table values. -/
theorem C61_eval {w : World} (h : ValidRunR w) (hroom : Room w)
    (hread : ∀ (q : Ref) c i o, w.circs[q]? = some c → c.outputMap i = some o → Readable c i o)
    {r : Ref} {c : Circuit} (hc : w.circs[r]? = some c) :
    ∃ F, ∀ fuel ≥ F, ∀ ins : List Bool, ins.length = c.inputLen →
      ∃ outs, evalOutput w fuel r ins = .ok outs ∧ Outputs w r ins outs := by
  obtain ⟨v, h1, h2, _, h3⟩ := h.ideal hroom
  obtain ⟨d, hd, k⟩ := h1.get hc
  have hev : Evaluable v r := h3.evaluable (fun q e i o hq ho => by
    obtain ⟨c', hc', k'⟩ := h1.symm.get hq
    exact k'.symm.readable (hread q c' i o hc' (k'.outputMap ▸ ho))) hd
  obtain ⟨F, hF⟩ := hev.eval_ok h2
  refine ⟨F, fun fuel hf ins hl => ?_⟩
  obtain ⟨outs, h4, _⟩ := hF d hd fuel hf ins (k.inputLen ▸ hl)
  have he : evalOutput w fuel r ins = .ok outs := by
    rw [h1.evalOutput]
    unfold evalOutput
    rw [bind_of_ok (circuit_of hd)]
    exact h4
  exact ⟨outs, he, C61_sound h.run hroom he⟩

/-- circuit 1 swaps its two inputs and has no gates; circuit 0 calls it and computes `y && !x` -/
def swapOps : List Op :=
  [.newStorage, .newCircuit 0, .subCircuit 0, .input 1, .input 1, .output 1 1, .output 1 0, .input 0, .input 0,
   .module 0 0 [0, 1], .not 0 3, .and 0 2 4, .output 0 5]

/-- **C61, the two builds differ.** Calling a module whose outputs are its inputs panics in a debug build. In a release build the
same calls are valid and all succeed, the subtraction wraps around and is undone by the module gates, and the circuit
computes `y && !x`. -/
theorem C61_differ :
    (∃ e ∈ (playC swapOps (World.empty, [])).2, e.res = .error (.panic .underflow)) ∧
      (∀ e ∈ (playR swapOps (World.empty, [])).2, ∃ a, e.res = .ok a) ∧
      ValidRunR (runR swapOps) ∧ Room (runR swapOps) ∧
      ((runR swapOps).circs[0]?).map (fun c => (c.numWire, c.inputLen, c.numGate)) = some (4, 2, 2) ∧
      ∀ x y, evalOutput (runR swapOps) 9 0 [x, y] = .ok [y && !x] := by
  refine ⟨⟨_, List.mem_of_getElem? (i := 9) rfl, rfl⟩, ?_, validRunR_of_check _ (by decide) (by decide),
    room_of_check (by decide), rfl, ?_⟩
  · intro e he
    have : (playR swapOps (World.empty, [])).2.all fun e => match e.res with
      | .ok _ => true
      | .error _ => false := by decide
    have := List.all_eq_true.mp this e he
    cases hres : e.res with
    | ok a => exact ⟨a, rfl⟩
    | error er => rw [hres] at this; cases this
  · intro x y
    cases x <;> cases y <;> rfl

example : ∃ outs, ((Op.module 0 0 [0, 1]).callR (runR swapOps)).1 = .ok (.gates outs) ∧ outs.length = 2 :=
  C61_module (w := runR swapOps) (r := 0) (q := 1) (mid := 0) (m := (runR swapOps).circs[1]) rfl rfl (by decide) rfl [0, 1]

example : ¬Arith (.unknownModule 7) := C61_total (.module 0 7 [0, 1]) (runR swapOps) _ rfl

example : ∀ c, (runR swapOps).circs[0]? = some c → c.numWire = (c.inputLen + c.numConst + c.numGate) % 2 ^ 64 :=
  fun _ h => C61_wires (runR_run _) h

/-- C61_sound and C61_eval: circuit 0, which calls the module -/
example : ∃ F, ∀ fuel ≥ F, ∀ ins : List Bool, ins.length = 2 →
    ∃ outs, evalOutput (runR swapOps) fuel 0 ins = .ok outs ∧ Outputs (runR swapOps) 0 ins outs :=
  C61_eval C61_differ.2.2.1 C61_differ.2.2.2.1 (readableR_of_check (runR_run _) C61_differ.2.2.2.1 (by decide))
    (c := (runR swapOps).circs[0]) rfl

example : Outputs (runR swapOps) 0 [false, true] [true] :=
  C61_sound (runR_run _) C61_differ.2.2.2.1 (C61_differ.2.2.2.2.2 false true)

/-- the hypotheses of `C61_eval` and `C61_sound` are met by this heap -/
example : ValidRunR (runR swapOps) ∧ RunR (runR swapOps) ∧ Room (runR swapOps) ∧
    ∀ (q : Ref) c i o, (runR swapOps).circs[q]? = some c → c.outputMap i = some o → Readable c i o :=
  ⟨C61_differ.2.2.1, runR_run _, C61_differ.2.2.2.1, readableR_of_check (runR_run _) C61_differ.2.2.2.1 (by decide)⟩

/-- a history with two errors, neither an arithmetic panic -/
def errorOps : List Op := [.newStorage, .newCircuit 0, .input 0, .output 0 7, .not 0 0, .output 0 1, .module 0 3 [0]]

/-- the hypotheses of `C61_history` and `C61_same` are met by it -/
theorem errorOps_fine : (playC errorOps (World.empty, [])).2.map (fun e => match e.res with
      | .ok _ => none
      | .error er => some er) =
      [none, none, none, some (.unknownGate 7), none, none, some (.unknownModule 3)] ∧
    (∀ e ∈ (playC errorOps (World.empty, [])).2, ∀ er, e.res = .error er → ¬Arith er) ∧
    Fits (playC errorOps (World.empty, [])).1 := by
  refine ⟨rfl, ?_, ?_⟩
  · intro e he er her ha
    have : (playC errorOps (World.empty, [])).2.all fun e => match e.res with
      | .error (.panic .overflow) | .error (.panic .underflow) => false
      | _ => true := by decide
    have := List.all_eq_true.mp this e he
    rw [her] at this
    unfold Arith at ha
    split at ha
    · cases this
    · cases this
    · exact ha
  · have h1 := C53_short errorOps (by decide)
    rw [h1]
    refine ⟨fun c hc => ?_, fun s hs => ?_⟩
    · have h : ∃ d, (play errorOps (World.empty, [])).1.circs = [d] ∧ FitsC d :=
        ⟨_, rfl, by decide, by decide, by decide, by decide, by decide, by decide⟩
      obtain ⟨d, h2, h3⟩ := h
      rw [h2, List.mem_singleton] at hc
      exact hc ▸ h3
    · have h : ∃ d : Storage, (play errorOps (World.empty, [])).1.stores = [d] ∧ d.numModule < 2 ^ 64 :=
        ⟨_, rfl, by decide⟩
      obtain ⟨d, h2, h3⟩ := h
      rw [h2, List.mem_singleton] at hs
      exact hs ▸ h3

example : playR errorOps (World.empty, []) = playC errorOps (World.empty, []) := C61_history _ errorOps_fine.2.1

example : (Op.not 0 0).callR (playC errorOps (World.empty, [])).1 = (Op.not 0 0).callC (playC errorOps (World.empty, [])).1 :=
  C61_same _ _ errorOps_fine.2.2 fun e he => by
    have : ((Op.not 0 0).callC (playC errorOps (World.empty, [])).1).1 = .ok (.gate 2) := rfl
    rw [this] at he; cases he

theorem runR_play (ops : List Op) : ∀ x : World × List Ev, RunR x.1 → RunR (playR ops x).1 := by
  induction ops with
  | nil => exact fun _ h => h
  | cons op ops ih => exact fun x h => ih _ (.step op h)

/-- **C61, statistics do wrap around.** The module call that overflows in a debug build (`C53_overflow`) succeeds in a release
build. The circuit then has 2^64 gates, called modules included, and says it has none; `C61_sound` still applies to the heap. -/
theorem C61_wraps :
    (∀ e ∈ (playR tower63 (World.empty, [])).2, ∃ a, e.res = .ok a) ∧
      ∃ w', (Op.module 63 62 [1]).callR (playR tower63 (World.empty, [])).1 = (.ok (.gates [2]), w') ∧
        RunR w' ∧ Room w' ∧ (w'.circs[63]?).map (fun c => (c.numWire, c.numGate)) = some (1, 0) := by
  have hall := C53_overflow.2.1
  have heq0 := C61_history tower63 fun e he er her => by
    obtain ⟨a, ha⟩ := hall e he
    rw [ha] at her
    cases her
  have hrun : RunR (playR tower63 (World.empty, [])).1 := runR_play _ _ .nil
  obtain ⟨hok, hw⟩ := tower 62
  generalize hg : after (towerOps 62) World.empty = w at hw
  obtain ⟨c, sok, ha, q1, q2, q3, q4, q5, q6, q7⟩ := level_start hw
  have p63 : (2 : Nat) ^ 64 = 2 * 2 ^ 63 := by decide
  have p0 : (4 : Nat) < 2 ^ 63 := by decide
  have haft : after tower63 World.empty = w.push c := by
    rw [tower63, after_append, hg]
    exact ha
  have hfit : Fits (after tower63 World.empty) := by
    rw [haft]
    have hf := hw.fits (Nat.le_refl _)
    refine ⟨fun d hd => ?_, hf.stores⟩
    rcases List.mem_append.mp hd with hd | hd
    · exact hf.circs d hd
    · rw [List.mem_singleton] at hd
      subst hd
      exact ⟨by omega, by omega, by omega, by omega, by omega, by omega⟩
  have heq1 : (playR tower63 (World.empty, [])).1 = w.push c := by
    rw [heq0, C53_history tower63 hfit]
    exact haft
  refine ⟨by rw [heq0]; exact hall, ?_⟩
  have hwf : WFw (w.push c) := by
    rw [← haft]
    exact WFw.of_reachable ⟨_, play_run tower63 .nil⟩
  rw [heq1] at hrun ⊢
  obtain ⟨s, hs, hn, hmap⟩ := hw.store
  obtain ⟨m, hm, lm⟩ := hw.levels 62 (Nat.le_refl _)
  have hmod : (w.push c).module? c 62 = some 62 := by
    simp [World.module?, World.push, q1, hs, hmap]
  have h63 : 63 = w.circs.length := hw.len.symm
  have hget : (w.push c).circs[63]? = some c := by rw [h63]; exact push_get _ _
  have hcall : (Op.module 63 62 [1]).callR (w.push c) =
      (.ok (.gates (Wrapping.module c m 62 [1]).1), (w.push c).setC 63 (Wrapping.module c m 62 [1]).2) := by
    simp only [Op.callR, M.bind_apply, WrappingApi.module, hget, hmod, push_old _ hm]
    rw [if_neg (by omega)]
    rfl
  have htop : ∀ d : Circuit, WFc d → d.gateIndex ≤ 3 → d.inputLen ≤ 1 → d.outputLen ≤ 1 → RoomC d := by
    intro d hd h1 h2 h3
    have t : 3 < top := by decide
    refine ⟨hd.none_of_ge (by omega), ?_, ?_⟩
    · cases e : d.inputMap top with
      | none => rfl
      | some x => have := (hd.input_dom top).mp (by rw [e]; rfl); omega
    · cases e : d.outputMap top with
      | none => rfl
      | some x => have := (hd.output_dom top).mp (by rw [e]; rfl); omega
  have hroomc : RoomC c := htop c (hwf.circ 63 c hget) (by omega) (by omega) (by omega)
  have hmodule : (Wrapping.module c m 62 [1]).1 = [2] ∧ RoomC (Wrapping.module c m 62 [1]).2 ∧
      (Wrapping.module c m 62 [1]).2.numGate = 0 := by
    have e1 : Wrapping.add c.numGate m.numGate = 0 := by
      rw [q5, lm.numGate]
      decide
    have t : top ≠ 2 := by decide
    simp only [Wrapping.module, lm.inputLen, lm.outputLen, Wrapping.addModuleGates, Wrapping.addGate, q7, e1,
      Circuit.addModuleDeps, List.foldl, true_and, Circuit.addDependence]
    split
    all_goals
      refine ⟨⟨?_, hroomc.input, hroomc.output⟩, rfl⟩
      simp only [Map.insert_apply]
      rw [if_neg t]
      exact hroomc.gate
  obtain ⟨e1, e2, e3⟩ := hmodule
  have hrun' : RunR ((w.push c).setC 63 (Wrapping.module c m 62 [1]).2) := by
    have := RunR.step (Op.module 63 62 [1]) hrun
    rw [hcall] at this
    exact this
  refine ⟨_, by rw [hcall, e1], hrun', ?_, ?_⟩
  · refine ⟨fun d hd => ?_, fun st hst => ?_⟩
    · rcases List.mem_or_eq_of_mem_set hd with h1 | h1
      · obtain ⟨i, hi⟩ := List.mem_iff_getElem?.mp h1
        rcases List.mem_append.mp h1 with h2 | h2
        · obtain ⟨j, hj⟩ := List.mem_iff_getElem?.mp h2
          obtain ⟨d', hd', l⟩ := hw.levels j (by
            have := (List.getElem?_eq_some_iff.mp hj).1
            have := hw.len
            omega)
          rw [hj] at hd'
          cases hd'
          exact htop d (hwf.circ i d hi) (Nat.le_of_eq l.gateIndex) (Nat.le_of_eq l.inputLen) (Nat.le_of_eq l.outputLen)
        · rw [List.mem_singleton] at h2
          exact h2 ▸ hroomc
      · exact h1 ▸ e2
    · have hst' : st ∈ w.stores := hst
      rw [hs, List.mem_singleton] at hst'
      subst hst'
      have t : 63 < top := by decide
      cases e : st.moduleMap top with
      | none => rfl
      | some x =>
        have hst0 : (w.push c).stores[0]? = some st := by simp [World.push, hs]
        have := (hwf.mods 0 st hst0 top).mp (by rw [e]; rfl)
        omega
  · have hset : ((w.push c).setC 63 (Wrapping.module c m 62 [1]).2).circs[63]? = some (Wrapping.module c m 62 [1]).2 := by
      simp [World.setC, (List.getElem?_eq_some_iff.mp hget).1]
    have hsum := C61_wires hrun' hset
    have hin : (Wrapping.module c m 62 [1]).2.inputLen = 1 ∧ (Wrapping.module c m 62 [1]).2.numConst = 0 := by
      have e1 : Wrapping.add c.numConst m.numConst = 0 := by
        rw [q6, lm.numConst]
        decide
      simp only [Wrapping.module, lm.inputLen, lm.outputLen, Wrapping.addModuleGates, Wrapping.addGate, q7, e1,
        Circuit.addModuleDeps, List.foldl, Circuit.addDependence]
      split <;> exact ⟨q2, rfl⟩
    rw [hset]
    rw [e3, hin.1, hin.2] at hsum
    simp only [Option.map_some, e3, hsum]

end CC.Props
