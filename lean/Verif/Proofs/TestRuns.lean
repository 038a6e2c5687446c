import Verif.Proofs.Program
import Verif.Proofs.FpC
import Verif.Model.Tests
import Verif.Props.Evaluator

/-!
# Running a test: a configuration, a body, evaluation
-/

namespace CC
open Spec Logic Arith Fp

/-- what a configuration over a new circuit guarantees -/
def Configures {κ} (mk : Ref → M κ) (Ok : World → Nat → StoreRef → Ref → κ → Prop) : Prop :=
  ∀ {w : World} {r : Ref} {c0 : Circuit} {N : Nat}, WFw w → w.circs[r]? = some c0 → N ≤ w.circs.length →
    ∃ cfg w', mk r w = (.ok cfg, w') ∧ After w w' ∧ Ok w' N c0.storage r cfg

/-- the modules of a configuration can be called by circuit `s` -/
def Callable (w : World) (s : Ref) (K : Ctx) : Prop :=
  ∀ mid nIn nOut f, ModOk w (s + 1) K.st mid nIn nOut f → ModD w (fun d => d < K.out ∨ d = s) K.st mid nIn nOut f

/-- a new circuit with a new configuration is ready for building -/
theorem start_any {κ} {mk : Ref → M κ} {Ok} (hmk : Configures mk Ok) {w : World} (hw : Reachable w) {st : StoreRef}
    (hst : st < w.stores.length) :
    ∃ cfg w1 s K, (newCircuit st >>= fun r => mk r) w = (.ok cfg, w1) ∧ s = w.circs.length ∧ K.st = st ∧
      w1.circs[s]? = some (Circuit.new st) ∧ Bld w1 s K (Circuit.new st) ∧ Ok w1 (s + 1) st s cfg ∧ Callable w1 s K ∧
      (ValidRun w → ValidRun w1) := by
  have h1 := newCircuit_ok hst
  have hr1 : Reachable { w with circs := w.circs ++ [Circuit.new st] } := by
    have := plays_newCircuit st w
    rw [h1] at this
    exact later_reachable hw this
  have hc0 : ({ w with circs := w.circs ++ [Circuit.new st] } : World).circs[w.circs.length]? = some (Circuit.new st) := by
    simp
  obtain ⟨cfg, w1, e, ha, hok⟩ := hmk (N := w.circs.length + 1) (WFw.of_reachable hr1) hc0 (by simp)
  have hg := ha.keeps.circ _ _ trivial hc0
  have hbase : ¬ Called w1 w.circs.length := by
    rintro ⟨q, c, hq, g, nIn, nOut, ids, oi, mid, hg, hm⟩
    unfold World.module? at hm
    cases hs : w1.stores[c.storage]? with
    | none => rw [hs] at hm; cases hm
    | some st' =>
      rw [hs] at hm
      obtain ⟨st2, h3, h4⟩ := ha.reg _ _ _ _ hs hm (by simp)
      have := (WFw.of_reachable hw).mods_ref _ _ h3 _ _ h4
      omega
  refine ⟨cfg, w1, w.circs.length, ⟨st, 0⟩, by rw [bind_ok h1]; exact e, rfl, rfl, hg, ?_, hok, ?_,
    fun h => ha.valid (ValidRun.newCircuit hst h)⟩
  · refine ⟨lt_of_getElem? hg, hbase, rfl, by rw [setC_self hg]; exact ha.wf, ?_, ?_, ?_, ?_, by simp [Circuit.new],
      fun h => by rw [setC_self hg]; exact h⟩
    · intro g gate hg; simp [Circuit.new, Map.empty] at hg
    · intro g _ _ _ _ _ hg; simp [Circuit.new, Map.empty] at hg
    · intro i o ho; simp [Circuit.new, Map.empty] at ho
    · intro i o ho; simp [Circuit.new, Map.empty] at ho
  · rintro mid nIn nOut f ⟨mr, mc, stor, q1, q2, q3, q4⟩
    exact ⟨mr, mc, stor, q1, q2, fun d hd => q3 d (by
      show d < _ + 1
      rcases hd with hd | hd
      · exact absurd hd (Nat.not_lt_zero _)
      · rw [hd]; exact Nat.lt_succ_self _), q4⟩

/-- `p` can be output before `o`: it is an input or a constant, or its group of gates starts before `o` -/
def Early (c : Circuit) (p o : GateId) : Prop := Source c p ∨ ∃ gate, c.gateMap p = some gate ∧ lead p gate ≤ o

theorem Before.early {c : Circuit} {p o : GateId} (h : Before c p o) : Early c p o := by
  obtain ⟨L, src, gs, L', src', gs', h1, h2, h3, h4, h5⟩ := h
  rcases (h1.2 p h4).2 with h | ⟨h6, gate, h7, h8⟩
  · exact .inl h
  · have h9 := h3.resolve_left (by simp [h6])
    have := (h2.2 o h5).1
    exact .inr ⟨gate, h7, by omega⟩

theorem Early.ext {c c' : Circuit} (hx : ExtC c c') {p o : GateId} (h : Early c p o) : Early c' p o := by
  rcases h with h | ⟨gate, h1, h2⟩
  · exact .inl (h.ext hx)
  · exact .inr ⟨gate, hx.gates _ _ h1, h2⟩

/-- nothing needed for `p` reads `o` -/
def Apart (c : Circuit) (p o : GateId) : Prop := ∀ g gate, Reach c p g → c.gateMap g = some gate → o ∉ gate.operands

theorem Early.apart {w : World} {s : Ref} {K : Ctx} {c : Circuit} (hb : Bld w s K c) {p o : GateId} (h : Early c p o) :
    Apart c p o := by
  intro g gate hr hg hmem
  have hwf := hb.wfc
  have ht := hb.topo
  rcases h with hs | ⟨gp, hgp, hl⟩
  · obtain rfl := reach_source hs hr
    rcases hs with ⟨k, hk⟩ | ⟨v, hv⟩
    · rw [hk] at hg; cases hg; simp [Gate.operands] at hmem
    · rw [hv] at hg; cases hg; simp [Gate.operands] at hmem
  · have h6 := reach_lead hwf ht hr
    have e1 : leadOf c p = lead p gp := by simp only [leadOf, hgp]
    have e2 : leadOf c g = lead g gate := by simp only [leadOf, hg]
    have := ht g gate hg o hmem
    omega

theorem evaluable_apart {w : World} {s : Ref} {K : Ctx} {c : Circuit} (hb : Bld w s K c) {gs : List GateId}
    (hgs : gs.Pairwise (Apart c)) : Evaluable (w.setC s (withOutputs c gs)) s := by
  refine evaluable_outputs hb ?_
  intro i o ho
  by_cases hu : ∀ g gate, c.gateMap g = some gate → o ∉ gate.operands
  · exact .inl hu
  · simp only [not_forall, not_not] at hu
    obtain ⟨g, gate, hg, hm⟩ := hu
    refine .inr ⟨g, gate, hg, hm, .inl fun j p hj hp hr => ?_⟩
    have ho : gs[i]? = some o := ho
    have hp : gs[j]? = some p := hp
    have hreach : ∀ x, Reach (withOutputs c gs) p x → Reach c p x := by
      intro x hx
      induction hx with
      | refl => exact .refl
      | operand _ h1 h2 ih => exact .operand ih h1 h2
      | sibling _ h1 h2 ih => exact .sibling ih h1 h2
    obtain ⟨hi', e1⟩ := List.getElem?_eq_some_iff.mp ho
    obtain ⟨hj', e2⟩ := List.getElem?_eq_some_iff.mp hp
    have := (List.pairwise_iff_getElem.mp hgs) j i hj' hi' hj
    rw [e1, e2] at this
    exact this g gate (hreach g hr) hg hm

/-- the body of a test leaves a circuit with `m` inputs and these outputs -/
def Leaves (w : World) (s : Ref) (K : Ctx) (c : Circuit) (m : Nat) (ins outs : List Bool) (c2 : Circuit) : Prop :=
  ∃ c' gs, c2 = withOutputs c' gs ∧ Step w s K c c' ∧ c'.inputLen = m ∧ gs.Pairwise (Apart c') ∧ All2 (V w s ins c') gs outs

/-- the same, with outputs in the right order if `O` -/
def LeavesIf (O : Prop) (w : World) (s : Ref) (K : Ctx) (c : Circuit) (m : Nat) (ins outs : List Bool) (c2 : Circuit) : Prop :=
  ∃ c' gs, c2 = withOutputs c' gs ∧ Step w s K c c' ∧ c'.inputLen = m ∧ (O → gs.Pairwise (Apart c')) ∧ All2 (V w s ins c') gs outs

/-- a body over a configuration, in a given storage; no order is needed for truth tables -/
theorem test_any {κ} {mk : Ref → M κ} {Ok} (hmk : Configures mk Ok) (pmk : ∀ r, Plays (mk r)) {body : Ref → κ → M Ref}
    (pbody : ∀ r cfg, Plays (body r cfg)) {m : Nat} {f : List Bool → List Bool} {O : Prop}
    (hbody : ∀ {w s K c cfg}, Bld w s K c → c.outputLen = 0 → c.inputLen = 0 → Ok w (s + 1) K.st s cfg → Callable w s K →
      ∀ ins : List Bool, ins.length = m → RunsC w s (body s cfg) c fun a c2 => a = s ∧ LeavesIf O w s K c m ins (f ins) c2)
    {w : World} (hw : Reachable w) {st : StoreRef} (hst : st < w.stores.length) :
    ∃ r w', (newCircuit st >>= fun r => mk r >>= fun cfg => body r cfg) w = (.ok r, w') ∧ (ValidRun w → ValidRun w') ∧
      (∃ c, w'.circs[r]? = some c ∧ c.inputLen = m) ∧ (∀ ins : List Bool, ins.length = m → Outputs w' r ins (f ins)) ∧
      (O → ∃ F, ∀ fuel ≥ F, ∀ ins : List Bool, ins.length = m → evalOutput w' fuel r ins = .ok (f ins)) := by
  obtain ⟨cfg, w1, s, K, e, hs, hK, hc1, hb, hok, hcall, hval⟩ := start_any hmk hw hst
  have h0 : (Circuit.new st).outputLen = 0 := rfl
  let X := { xs : List Bool // xs.length = m }
  have hX : Inhabited X := ⟨⟨List.replicate m false, by simp⟩⟩
  rw [← hK] at hok
  obtain ⟨a, c2, hx, hall⟩ := RunsC.forall hb.lt fun ins : X => hbody (cfg := cfg) hb h0 rfl hok hcall ins.1 ins.2
  rw [setC_self hc1] at hx
  obtain ⟨rfl, c', gs, rfl, hstep, hin, hpw, hv⟩ := hall default
  have hrun : (newCircuit st >>= fun r => mk r >>= fun cfg => body r cfg) w =
      (.ok a, w1.setC a (withOutputs c' gs)) := by
    have e1 := newCircuit_ok hst
    rw [bind_ok e1] at e ⊢
    rw [bind_ok e, ← hs]; exact hx
  have hreach : Reachable (w1.setC a (withOutputs c' gs)) := by
    have hp : Plays (newCircuit st >>= fun r => mk r >>= fun cfg => body r cfg) :=
      .bind (plays_newCircuit _) fun r => .bind (pmk r) fun cfg => pbody r cfg
    exact hp.reachable hw hrun
  have hb' := hstep.bld
  have h0' : c'.outputLen = 0 := hstep.outputLen
  have hget : (w1.setC a (withOutputs c' gs)).circs[a]? = some (withOutputs c' gs) := get_of_lt hb.lt _
  have hout : ∀ ins : List Bool, ins.length = m → Outputs (w1.setC a (withOutputs c' gs)) a ins (f ins) := by
    intro ins hins
    obtain ⟨_, c3, gs3, e3, st3, in3, _, v3⟩ := hall ⟨ins, hins⟩
    have h03 : c3.outputLen = 0 := st3.outputLen
    rw [e3]
    refine ⟨withOutputs c3 gs3, get_of_lt hb.lt _, by rw [hins]; exact in3.symm, v3.length.symm, ?_⟩
    intro i b hib
    obtain ⟨g, b', k1, k2, k3⟩ := v3.get (i := i) (by rw [v3.length]; exact lt_of_getElem? hib)
    rw [hib] at k2; cases k2
    exact ⟨g, k1, val_ext st3.bld (ext_withOutputs c3 gs3 st3.bld.wfc h03) k3⟩
  refine ⟨a, _, hrun, fun h => valid_outputs hb' h0' (hval h) gs fun g hg => ?_, ⟨_, hget, hin⟩, hout, fun hO => ?_⟩
  · obtain ⟨b, hgb⟩ := hv.left hg
    exact hgb.lt hb'
  obtain ⟨F, hF⟩ := Props.C11_local_partial hreach hget (evaluable_apart hb' (hpw hO))
  refine ⟨F, fun fuel hf ins hins => ?_⟩
  obtain ⟨os, e1, e2⟩ := hF fuel hf ins (by rw [hins]; exact hin.symm)
  rw [e1, e2.det (hout ins hins)]

/-- a test in a given storage -/
theorem test_at {κ} {mk : Ref → M κ} {Ok} (hmk : Configures mk Ok) (pmk : ∀ r, Plays (mk r)) {body : Ref → κ → M Ref}
    (pbody : ∀ r cfg, Plays (body r cfg)) {m : Nat} {f : List Bool → List Bool}
    (hbody : ∀ {w s K c cfg}, Bld w s K c → c.outputLen = 0 → c.inputLen = 0 → Ok w (s + 1) K.st s cfg → Callable w s K →
      ∀ ins : List Bool, ins.length = m → RunsC w s (body s cfg) c fun a c2 => a = s ∧ Leaves w s K c m ins (f ins) c2)
    {w : World} (hw : Reachable w) {st : StoreRef} (hst : st < w.stores.length) :
    ∃ r w', (newCircuit st >>= fun r => mk r >>= fun cfg => body r cfg) w = (.ok r, w') ∧
      ∃ F, ∀ fuel ≥ F, ∀ ins : List Bool, ins.length = m → evalOutput w' fuel r ins = .ok (f ins) := by
  obtain ⟨r, w', e, _, _, _, h⟩ := test_any (O := True) hmk pmk pbody (fun hb h0 hi hok hc ins hins =>
    (hbody hb h0 hi hok hc ins hins).mono fun _ _ ⟨h1, c', gs, h2, h3, h4, h5, h6⟩ => ⟨h1, c', gs, h2, h3, h4, fun _ => h5, h6⟩) hw hst
  exact ⟨r, w', e, h trivial⟩

theorem test_ok {κ} {mk : Ref → M κ} {Ok} (hmk : Configures mk Ok) (pmk : ∀ r, Plays (mk r)) {body : Ref → κ → M Ref}
    (pbody : ∀ r cfg, Plays (body r cfg)) {m : Nat} {f : List Bool → List Bool}
    (hbody : ∀ {w s K c cfg}, Bld w s K c → c.outputLen = 0 → c.inputLen = 0 → Ok w (s + 1) K.st s cfg → Callable w s K →
      ∀ ins : List Bool, ins.length = m → RunsC w s (body s cfg) c fun a c2 => a = s ∧ Leaves w s K c m ins (f ins) c2)
    {w : World} (hw : Reachable w) :
    ∃ r w', (newStorage >>= fun st => newCircuit st >>= fun r => mk r >>= fun cfg => body r cfg) w = (.ok r, w') ∧
      ∃ F, ∀ fuel ≥ F, ∀ ins : List Bool, ins.length = m → evalOutput w' fuel r ins = .ok (f ins) := by
  have hw0 : Reachable (newStorage w).2 := by
    have : Plays newStorage := .op .newStorage (map_world _ _)
    exact later_reachable hw (this w)
  have e0 : newStorage w = (.ok w.stores.length, (newStorage w).2) := rfl
  have hst : w.stores.length < (newStorage w).2.stores.length := by simp [newStorage]
  obtain ⟨r, w', e, h⟩ := test_at hmk pmk pbody hbody hw0 hst
  exact ⟨r, w', by rw [bind_ok e0]; exact e, h⟩

end CC
