import Verif.Model.TestsFixed
import Verif.Spec.Tests
import Verif.Proofs.TestLogic

/-!
# The tests with fixed inputs
-/

namespace CC
open Spec M

/-! ### Circuits without calls -/

theorem configures_nothing : Configures (fun _ => (pure () : M Unit)) fun _ _ _ _ _ => True := by
  intro w r c0 N hw hr hN
  exact ⟨(), w, rfl, ⟨hw, ⟨fun _ _ _ h => h, fun _ st h => ⟨st, h, fun _ _ h => h⟩⟩, fun _ st _ _ h1 h2 _ => ⟨st, h1, h2⟩, id⟩, trivial⟩

/-- a new circuit and a body, without a configuration -/
theorem plain_ok {body : Ref → M Ref} (pbody : ∀ r, Plays (body r)) {m : Nat} {f : List Bool → List Bool}
    (hbody : ∀ {w s K c}, Bld w s K c → c.outputLen = 0 → c.inputLen = 0 → ∀ ins : List Bool, ins.length = m →
      RunsC w s (body s) c fun a c2 => a = s ∧ Leaves w s K c m ins (f ins) c2) :
    Passes (newStorage >>= fun st => newCircuit st >>= fun r => body r) m f := by
  intro w hw
  exact test_ok (mk := fun _ => (pure () : M Unit)) (Ok := fun _ _ _ _ _ => True) configures_nothing (fun _ => .pure _)
    (body := fun r _ => body r) (fun r _ => pbody r)
    (fun hb h0 hi _ _ ins hins => hbody hb h0 hi ins hins) hw

section
variable {w : World} {s : Ref} {K : Ctx} {c : Circuit} {ins : List Bool}

/-- one input; the earlier values stay -/
theorem RunsC.input1 (hb : Bld w s K c) (h0 : c.outputLen = 0) {b : Bool} (hl : ins[c.inputLen]? = some b) :
    RunsC w s (CC.input s) c fun g c' => Step w s K c c' ∧ c'.inputLen = c.inputLen + 1 ∧ V w s ins c' g b :=
  (RunsC.input hb h0).mono fun _ _ ⟨h1, h2, _, _, h5⟩ => ⟨h1, h2, h5 b hl⟩

end

theorem wire_ok : Passes Tests.Fixed.wire 1 id := by
  refine plain_ok (f := id) (fun r => by plays) fun {w s K c} hb h0 hi ins hins => ?_
  match ins, hins with
  | [a], _ =>
    refine RunsC.seq (RunsC.input1 (ins := [a]) (b := a) hb h0 (by rw [hi]; rfl)) ?_
    rintro x c1 ⟨s1, l1, v1⟩
    refine (RunsC.close1 s1.bld (s1.outputLen.trans h0) v1).mono ?_
    rintro r c2 ⟨rfl, hl⟩
    exact ⟨rfl, hl.after s1 (by omega)⟩

theorem not1_ok : Passes Tests.Fixed.not 1 fun ins => ins.map (!·) := by
  refine plain_ok (f := fun ins => ins.map (!·)) (fun r => by plays) fun {w s K c} hb h0 hi ins hins => ?_
  match ins, hins with
  | [a], _ =>
    refine RunsC.seq (RunsC.input1 (ins := [a]) (b := a) hb h0 (by rw [hi]; rfl)) ?_
    rintro x c1 ⟨s1, l1, v1⟩
    have o1 := s1.outputLen.trans h0
    refine RunsC.seq (RunsC.not s1.bld v1 (s1.bld.notOut o1 _)) ?_
    intro g c2 n2
    have s2 := n2.grew.step
    refine (RunsC.close1 s2.bld (s2.outputLen.trans o1) n2.v).mono ?_
    rintro r c3 ⟨rfl, hl⟩
    exact ⟨rfl, hl.after (s1.trans s2) (by rw [n2.grew.inputLen]; omega)⟩

theorem binary1_ok {op : Ref → GateId → GateId → M GateId} {φ : Bool → Bool → Bool} (hp : ∀ r x y, Plays (op r x y))
    (hop : ∀ {w : World} {s : Ref} {K : Ctx} {c : Circuit} {ins : List Bool}, Bld w s K c → ∀ {x y : GateId} {a b : Bool},
      V w s ins c x a → V w s ins c y b → NotOut c x → NotOut c y →
      RunsC w s (op s x y) c fun g c' => New1 w s K ins c g (φ a b) c') :
    Passes (Tests.Fixed.binary op) 2 (pairwise φ) := by
  refine plain_ok (f := pairwise φ) (fun r => by plays; exact hp _ _ _) fun {w s K c} hb h0 hi ins hins => ?_
  match ins, hins with
  | [a, b], _ =>
    refine RunsC.seq (RunsC.input1 (ins := [a, b]) (b := a) hb h0 (by rw [hi]; rfl)) ?_
    rintro x c1 ⟨s1, l1, v1⟩
    have o1 := s1.outputLen.trans h0
    refine RunsC.seq (RunsC.input1 (ins := [a, b]) (b := b) s1.bld o1 (by rw [l1, hi]; rfl)) ?_
    rintro y c2 ⟨s2, l2, v2⟩
    have o2 := s2.outputLen.trans o1
    have x2 := s2.v s1.bld v1
    refine RunsC.seq (hop s2.bld x2 v2 (s2.bld.notOut o2 _) (s2.bld.notOut o2 _)) ?_
    intro g c3 n3
    have s3 := n3.grew.step
    refine (RunsC.close1 s3.bld (s3.outputLen.trans o2) n3.v).mono ?_
    rintro r c4 ⟨rfl, hl⟩
    exact ⟨rfl, hl.after ((s1.trans s2).trans s3) (by rw [n3.grew.inputLen]; omega)⟩

theorem andOr_ok : Passes Tests.Fixed.andOr 3 andThenOr := by
  refine plain_ok (f := andThenOr) (fun r => by plays) fun {w s K c} hb h0 hi ins hins => ?_
  match ins, hins with
  | [a, b, d], _ =>
    refine RunsC.seq (RunsC.input1 (ins := [a, b, d]) (b := a) hb h0 (by rw [hi]; rfl)) ?_
    rintro x c1 ⟨s1, l1, v1⟩
    have o1 := s1.outputLen.trans h0
    refine RunsC.seq (RunsC.input1 (ins := [a, b, d]) (b := b) s1.bld o1 (by rw [l1, hi]; rfl)) ?_
    rintro y c2 ⟨s2, l2, v2⟩
    have o2 := s2.outputLen.trans o1
    have x2 := s2.v s1.bld v1
    refine RunsC.seq (RunsC.input1 (ins := [a, b, d]) (b := d) s2.bld o2 (by rw [l2, l1, hi]; rfl)) ?_
    rintro z c3 ⟨s3, l3, v3⟩
    have o3 := s3.outputLen.trans o2
    have x3 := s3.v s2.bld x2
    have y3 := s3.v s2.bld v2
    refine RunsC.seq (RunsC.and s3.bld x3 y3 (s3.bld.notOut o3 _) (s3.bld.notOut o3 _)) ?_
    intro g c4 n4
    have s4 := n4.grew.step
    have o4 := s4.outputLen.trans o3
    have z4 := s4.v s3.bld v3
    refine RunsC.seq (RunsC.or s4.bld n4.v z4 (s4.bld.notOut o4 _) (s4.bld.notOut o4 _)) ?_
    intro h c5 n5
    have s5 := n5.grew.step
    refine (RunsC.close1 s5.bld (s5.outputLen.trans o4) n5.v).mono ?_
    rintro r c6 ⟨rfl, hl⟩
    exact ⟨rfl, hl.after ((((s1.trans s2).trans s3).trans s4).trans s5) (by rw [n5.grew.inputLen, n4.grew.inputLen]; omega)⟩

/-! ### The circuit with a call -/

theorem on_first (l : List Circuit) (c : Circuit) (rest : List Circuit) (ss : List Storage) {α}
    (f : Circuit → Except Err α × Circuit) :
    onCircuit l.length f ⟨l ++ c :: rest, ss⟩ = ((f c).1, ⟨l ++ (f c).2 :: rest, ss⟩) := by
  simp [onCircuit, World.setC]

theorem on_second (l : List Circuit) (c0 c : Circuit) (ss : List Storage) {α} (f : Circuit → Except Err α × Circuit) :
    onCircuit (l.length + 1) f ⟨l ++ [c0, c], ss⟩ = ((f c).1, ⟨l ++ [c0, (f c).2], ss⟩) := by
  simp [onCircuit, World.setC]

namespace Module1

def two (st : StoreRef) : Circuit := (Circuit.new st).input.2.input.2
def callee (st : StoreRef) : Circuit := ((((two st).xor 0 1).2.not 2).2.output 3).2
def caller (st st' : StoreRef) : Circuit := (((two st).module (callee st') 0 [0, 1]).2.output 2).2

/-- the heap after the test has built its circuits -/
def built (w : World) : World :=
  ⟨w.circs ++ [caller w.stores.length (w.stores.length + 1), callee (w.stores.length + 1)],
    w.stores ++ [(Storage.new.register (w.circs.length + 1)).2, Storage.new]⟩

theorem runs (w : World) : Tests.Fixed.module1 w = (.ok w.circs.length, built w) := by
  unfold Tests.Fixed.module1
  have a1 : ∀ st, (Circuit.new st).input.1 = 0 := fun _ => rfl
  have a2 : ∀ st, (Circuit.new st).input.2.input.1 = 1 := fun _ => rfl
  have a3 : ∀ st, (Circuit.new st).input.2.input.2 = two st := fun _ => rfl
  have a4 : ∀ st, ((two st).xor 0 1).1 = 2 := fun _ => rfl
  have a5 : ∀ st, (((two st).xor 0 1).2.not 2).1 = 3 := fun _ => rfl
  have a6 : ∀ st, ((((two st).xor 0 1).2.not 2).2.output 3).1 = .ok 0 := fun _ => rfl
  have a7 : ∀ st, ((((two st).xor 0 1).2.not 2).2.output 3).2 = callee st := fun _ => rfl
  have a8 : ∀ m, (Storage.new.register m).1 = 0 := fun _ => rfl
  have a9 : ∀ m, (Storage.new.register m).2.moduleMap 0 = some m := fun _ => rfl
  have b1 : ∀ st, (two st).storage = st := fun _ => rfl
  have b2 : ∀ st st', ((two st).module (callee st') 0 [0, 1]).1 = .ok [2] := fun _ _ => rfl
  have b3 : ∀ st st', (((two st).module (callee st') 0 [0, 1]).2.output 2).1 = .ok 0 := fun _ _ => rfl
  have b4 : ∀ st st', (((two st).module (callee st') 0 [0, 1]).2.output 2).2 = caller st st' := fun _ _ => rfl
  simp [bind, newStorage, newCircuit, input, xor, CC.not, CC.output, registerModule, CC.module, World.module?, World.setC,
    idx, pure, on_first, on_second, built, a1, a2, a3, a4, a5, a6, a7, a8, a9, b1, b2, b3, b4]

theorem reachable {w : World} (h : Reachable w) : Reachable (built w) := by
  have hs : Plays newStorage := .op .newStorage (map_world _ _)
  have : Plays Tests.Fixed.module1 := by
    unfold Tests.Fixed.module1
    refine hs.bind fun st => (plays_newCircuit st).bind fun r => (plays_input r).bind fun x => (plays_input r).bind fun y => ?_
    refine hs.bind fun st' => (plays_newCircuit st').bind fun e => (plays_input e).bind fun x' => (plays_input e).bind fun y' => ?_
    refine (plays_xor _ _ _).bind fun g => (plays_not _ _).bind fun h => (plays_output _ _).bind fun _ => ?_
    refine Plays.bind (.op (.registerModule r e) (map_world _ _)) fun mid => ?_
    plays
  exact this.reachable h (runs w)

section
variable (w : World)

theorem getCaller : (built w).circs[w.circs.length]? = some (caller w.stores.length (w.stores.length + 1)) := by
  simp [built]

theorem getCallee : (built w).circs[w.circs.length + 1]? = some (callee (w.stores.length + 1)) := by
  simp [built]

theorem getModule : (built w).module? (caller w.stores.length (w.stores.length + 1)) 0 = some (w.circs.length + 1) := by
  unfold World.module?
  rw [show (caller w.stores.length (w.stores.length + 1)).storage = w.stores.length from rfl]
  simp [built]
  rfl

variable {w}

theorem gates (h : Reachable w) : (∀ g gate, (callee (w.stores.length + 1)).gateMap g = some gate → g < 4) ∧
    ∀ g gate, (caller w.stores.length (w.stores.length + 1)).gateMap g = some gate → g < 3 := by
  have hw := WFw.of_reachable (reachable h)
  exact ⟨fun g gate hg => ((hw.circ _ _ (getCallee w)).gate_dom g).mp (by rw [hg]; rfl),
    fun g gate hg => ((hw.circ _ _ (getCaller w)).gate_dom g).mp (by rw [hg]; rfl)⟩

theorem evaluable (h : Reachable w) : Evaluable (built w) w.circs.length := by
  obtain ⟨h1, h2⟩ := gates h
  have hE : Evaluable (built w) (w.circs.length + 1) := by
    refine .mk (getCallee w) ?_ ?_ ?_ ?_
    · intro g gate hg
      match g, h1 g gate hg with
      | 0, _ => cases hg; simp [Gate.operands]
      | 1, _ => cases hg; simp [Gate.operands]
      | 2, _ => cases hg; simp [Gate.operands, lead]
      | 3, _ => cases hg; simp [Gate.operands, lead]
    · intro i o hi
      refine .inl fun g gate hg => ?_
      have hi0 : i = 0 ∧ o = 3 := by
        match i with
        | 0 => cases hi; exact ⟨rfl, rfl⟩
        | i + 1 => cases hi
      rw [hi0.2]
      match g, h1 g gate hg with
      | 0, _ => cases hg; simp [Gate.operands]
      | 1, _ => cases hg; simp [Gate.operands]
      | 2, _ => cases hg; simp [Gate.operands]
      | 3, _ => cases hg; simp [Gate.operands]
    · intro g _ _ _ _ _ hg
      match g, h1 g _ hg with
      | 0, _ => cases hg
      | 1, _ => cases hg
      | 2, _ => cases hg
      | 3, _ => cases hg
    · rintro mr ⟨g, _, _, _, _, _, hg, _⟩
      match g, h1 g _ hg with
      | 0, _ => cases hg
      | 1, _ => cases hg
      | 2, _ => cases hg
      | 3, _ => cases hg
  refine .mk (getCaller w) ?_ ?_ ?_ ?_
  · intro g gate hg
    match g, h2 g gate hg with
    | 0, _ => cases hg; simp [Gate.operands]
    | 1, _ => cases hg; simp [Gate.operands]
    | 2, _ => cases hg; simp [Gate.operands, lead]
  · intro i o hi
    refine .inl fun g gate hg => ?_
    have hi0 : i = 0 ∧ o = 2 := by
      match i with
      | 0 => cases hi; exact ⟨rfl, rfl⟩
      | i + 1 => cases hi
    rw [hi0.2]
    match g, h2 g gate hg with
    | 0, _ => cases hg; simp [Gate.operands]
    | 1, _ => cases hg; simp [Gate.operands]
    | 2, _ => cases hg; simp [Gate.operands]
  · intro g _ _ _ _ _ hg
    match g, h2 g _ hg with
    | 0, _ => cases hg
    | 1, _ => cases hg
    | 2, _ => cases hg; exact ⟨_, _, getModule w, getCallee w, rfl, rfl, rfl⟩
  · rintro mr ⟨g, _, _, _, _, _, hg, hm⟩
    match g, h2 g _ hg with
    | 0, _ => cases hg
    | 1, _ => cases hg
    | 2, _ => cases hg; rw [getModule w] at hm; cases hm; exact hE

variable (w) in
theorem value (a b : Bool) : Outputs (built w) w.circs.length [a, b] [a == b] := by
  have v3 : Val (built w) (w.circs.length + 1) [a, b] 3 (a == b) := by
    have h0 : Val (built w) (w.circs.length + 1) [a, b] 0 a := .input (getCallee w) (k := 0) rfl rfl
    have h1 : Val (built w) (w.circs.length + 1) [a, b] 1 b := .input (getCallee w) (k := 1) rfl rfl
    have h2 : Val (built w) (w.circs.length + 1) [a, b] 2 (a != b) := .xor (getCallee w) rfl h0 h1
    have h3 := Val.not (getCallee w) (g := 3) rfl h2
    rwa [show (!(a != b)) = (a == b) by cases a <;> cases b <;> rfl] at h3
  have v2 : Val (built w) w.circs.length [a, b] 2 (a == b) := by
    refine .module (getCaller w) (nIn := 2) (nOut := 1) (ids := [0, 1]) (oi := 0) (mid := 0) rfl (getModule w) (getCallee w)
      (bits := [a, b]) rfl ?_ rfl rfl v3
    intro i x v hx hv
    match i with
    | 0 => cases hx; cases hv; exact .input (getCaller w) (k := 0) rfl rfl
    | 1 => cases hx; cases hv; exact .input (getCaller w) (k := 1) rfl rfl
  refine ⟨_, getCaller w, rfl, rfl, fun i v hi => ?_⟩
  match i with
  | 0 => cases hi; exact ⟨2, rfl, v2⟩

end

end Module1

theorem module1_ok : Passes Tests.Fixed.module1 2 (pairwise (· == ·)) := by
  intro w hw
  refine ⟨_, _, Module1.runs w, ?_⟩
  obtain ⟨F, hF⟩ := Props.C11_local_partial (Module1.reachable hw) (Module1.getCaller w) (Module1.evaluable hw)
  refine ⟨F, fun fuel hf ins hins => ?_⟩
  match ins, hins with
  | [a, b], hins =>
    obtain ⟨os, e1, e2⟩ := hF fuel hf [a, b] rfl
    rw [e1, e2.det (Module1.value w a b)]
    rfl

/-! ### The assertions -/

theorem check_ok {w : World} {fuel : Nat} {r : Ref} {ins : List Bool} {b : Bool} {outs : List Bool}
    (h : evalOutput w fuel r ins = .ok outs) (h0 : outs[0]? = some b) : Tests.Fixed.check fuel r ins b w = (.ok (), w) := by
  unfold Tests.Fixed.check
  rw [bind_ok (show Tests.eval fuel r ins w = (.ok outs, w) by unfold Tests.eval; rw [h])]
  rw [bind_ok (show idx outs 0 w = (.ok b, w) by unfold idx; rw [h0]; rfl)]
  simp; rfl

theorem checks_ok {w : World} {fuel : Nat} {r : Ref} {f : List Bool → List Bool} {m : Nat}
    (h : ∀ ins : List Bool, ins.length = m → evalOutput w fuel r ins = .ok (f ins)) (cases : List (List Bool × Bool))
    (hc : ∀ p ∈ cases, p.1.length = m ∧ (f p.1)[0]? = some p.2) :
    foldList (fun _ (p : List Bool × Bool) => Tests.Fixed.check fuel r p.1 p.2) () cases w = (.ok (), w) := by
  induction cases with
  | nil => rfl
  | cons p ps ih =>
    obtain ⟨h1, h2⟩ := hc p (List.mem_cons_self ..)
    show (Tests.Fixed.check fuel r p.1 p.2 >>= fun _ => foldList _ () ps) w = _
    rw [bind_ok (check_ok (h _ h1) h2)]
    exact ih fun q hq => hc q (List.mem_cons_of_mem _ hq)

theorem evaluated_ok {build : M Ref} {m : Nat} {f : List Bool → List Bool} (hp : Passes build m f)
    (cases : List (List Bool × Bool)) (hc : ∀ p ∈ cases, p.1.length = m ∧ (f p.1)[0]? = some p.2) {w : World}
    (hw : Reachable w) : ∃ F, ∀ fuel ≥ F, (Tests.Fixed.evaluated build fuel cases w).1 = .ok () := by
  obtain ⟨r, w', e, F, hF⟩ := hp w hw
  refine ⟨F, fun fuel hf => ?_⟩
  unfold Tests.Fixed.evaluated
  rw [bind_ok e, checks_ok (hF fuel hf) cases hc]

theorem counted_ok {build : M Ref} (hb : Plays build) {m : Nat} {f : List Bool → List Bool} (hp : Passes build m f)
    {ins : List Bool} (hl : ins.length = m) {o : Nat} (ho : (f ins).length = o) {w : World} (hw : Reachable w) :
    (Tests.Fixed.counted build m o w).1 = .ok () := by
  obtain ⟨r, w', e, F, hF⟩ := hp w hw
  obtain ⟨c, h1, h2, h3, _⟩ := Props.C10_sound (hb.reachable hw e) (hF F (Nat.le_refl _) ins hl)
  unfold Tests.Fixed.counted
  rw [bind_ok e, Tests.Fixed.assertLens]
  simp only [h1]
  rw [if_pos ⟨by rw [← h2, hl], by rw [← h3, ho]⟩]

theorem plays_newStorage : Plays newStorage := .op .newStorage (map_world _ _)

theorem plays_fixed {body : Ref → M Ref} (h : ∀ r, Plays (body r)) :
    Plays (newStorage >>= fun st => newCircuit st >>= fun r => body r) :=
  plays_newStorage.bind fun st => (plays_newCircuit st).bind h

end CC
