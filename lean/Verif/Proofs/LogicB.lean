import Verif.Proofs.Builder
import Verif.Proofs.Num

/-! # The modules of `AllocBits` -/

namespace CC
open Spec Logic

theorem zipWith_range (f : Bool → Bool → Bool) (n : Nat) (xs ys : List Bool) (hx : xs.length = n) (hy : ys.length = n) :
    (List.range n).map (fun i => f (xs[i]?.getD false) (ys[i]?.getD false)) = List.zipWith f xs ys := by
  apply List.ext_getElem?
  intro i
  by_cases h : i < n
  · simp [h, List.getElem?_zipWith, List.getElem?_eq_getElem (show i < xs.length by omega),
      List.getElem?_eq_getElem (show i < ys.length by omega)]
  · rw [List.getElem?_eq_none (by simp; omega), List.getElem?_eq_none (by simp; omega)]

/-- the function of a two-operand module -/
def bin (n : Nat) (f : List Bool → List Bool → List Bool) (ins : List Bool) : List Bool := f (ins.take n) (ins.drop n)

section
variable {w : World} {r : Ref} {c0 : Circuit} {n N : Nat}

theorem buildNot_ok (hw : WFw w) (hr : w.circs[r]? = some c0) (hN : N ≤ w.circs.length) (n : Nat) :
    Builds w N c0.storage (buildNot r n) n n (fun ins => ins.map (!·)) := by
  refine Builds.mk hw hr hN (by simp) ?_
  intro w1 s K mid c1 ins _ hb he hl
  refine RunsC.seq (RunsC.inputs (ins := ins) hb he.outputLen n (by rw [he.inputLen]; omega)) ?_
  rintro a c2 ⟨h1, h2, h3, h4, h5⟩
  rw [he.inputLen] at h2 h5
  have hb2 := h1.bld
  rw [List.drop_zero, List.take_of_length_le (by omega)] at h5
  rw [← rangeFromTo_zero]
  refine RunsC.seq (RunsC.emitLoop 0 n (fun i => !(ins[i]?.getD false))
    (hb2.em (ins := ins) (h1.outputLen.trans he.outputLen)) ?_) ?_
  · intro i bs c hi0 hi hem
    obtain ⟨x, b, hx, hbit, hv⟩ := h5.get (i := i) (by omega)
    refine RunsC.bind (RunsC.idx hx ?_)
    refine RunsC.seq (RunsC.not (ins := ins) hem.bld (hem.v hb2 hv) (hem.notOut (hv.lt hb2))) ?_
    intro g c3 hn
    refine (hem.emit hn).mono ?_
    intro _ c4 h
    rw [hbit]; exact h
  · intro _ c' hem
    refine RunsC.pure ⟨rfl, hem.bld, ?_, by rw [hem.inputLen]; omega⟩
    have := hem.outs
    have e : [] ++ (rangeFromTo 0 n).map (fun i => !(ins[i]?.getD false)) = ins.map (!·) := by
      rw [rangeFromTo_zero, List.nil_append]
      apply List.ext_getElem?
      intro i
      by_cases h : i < n
      · simp [h, List.getElem?_eq_getElem (show i < ins.length by omega)]
      · rw [List.getElem?_eq_none (by simp; omega), List.getElem?_eq_none (by simp; omega)]
    rw [e] at this; exact this

/-- and, or, xor -/
theorem build2_ok (op : Ref → GateId → GateId → M GateId) (φ : Bool → Bool → Bool)
    (hop : ∀ {w1 : World} {s : Ref} {K : Ctx} {c : Circuit} {ins : List Bool}, Bld w1 s K c →
      ∀ {x y : GateId} {a b : Bool}, V w1 s ins c x a → V w1 s ins c y b → NotOut c x → NotOut c y →
      RunsC w1 s (op s x y) c fun g c' => New1 w1 s K ins c g (φ a b) c')
    (hw : WFw w) (hr : w.circs[r]? = some c0) (hN : N ≤ w.circs.length) (n : Nat) :
    Builds w N c0.storage (do
      let (mid, s) ← subCircuit r
      let a ← M.replicate (input s) n
      let b ← M.replicate (input s) n
      let _ ← M.mapList (fun i => do
        let ai ← M.idx a i
        let bi ← M.idx b i
        let out ← op s ai bi
        output s out) (List.range n)
      pure mid) (2 * n) n (bin n (List.zipWith φ)) := by
  refine Builds.mk hw hr hN (by intro ins hl; simp [bin]; omega) ?_
  intro w1 s K mid c1 ins _ hb he hl
  refine RunsC.two (k := fun a b => _) hb he n hl ?_
  intro a b c2 hb2 h0 hin ha hbv
  have hla := ha.length
  have hlb := hbv.length
  simp only [List.length_take, List.length_drop] at hla hlb
  rw [← rangeFromTo_zero]
  refine RunsC.seq (RunsC.emitLoop 0 n
    (fun i => φ ((ins.take n)[i]?.getD false) ((ins.drop n)[i]?.getD false)) (hb2.em (ins := ins) h0) ?_) ?_
  · intro i bs c hi0 hi hem
    obtain ⟨x, b1, hx, hbit1, hv1⟩ := ha.get (i := i) (by omega)
    obtain ⟨y, b2, hy, hbit2, hv2⟩ := hbv.get (i := i) (by omega)
    refine RunsC.bind (RunsC.idx hx ?_)
    refine RunsC.bind (RunsC.idx hy ?_)
    refine RunsC.seq (hop (ins := ins) hem.bld (hem.v hb2 hv1) (hem.v hb2 hv2) (hem.notOut (hv1.lt hb2))
      (hem.notOut (hv2.lt hb2))) ?_
    intro g c3 hn
    refine (hem.emit hn).mono ?_
    intro _ c4 h
    rw [hbit1, hbit2]; exact h
  · intro _ c' hem
    refine RunsC.pure ⟨rfl, hem.bld, ?_, by rw [hem.inputLen]; omega⟩
    have := hem.outs
    rw [List.nil_append, rangeFromTo_zero, zipWith_range φ n _ _ (by simp; omega) (by simp; omega)] at this
    exact this

theorem buildAnd_ok (hw : WFw w) (hr : w.circs[r]? = some c0) (hN : N ≤ w.circs.length) (n : Nat) :
    Builds w N c0.storage (buildAnd r n) (2 * n) n (bin n (List.zipWith (· && ·))) :=
  build2_ok CC.and (· && ·) RunsC.and hw hr hN n

theorem buildOr_ok (hw : WFw w) (hr : w.circs[r]? = some c0) (hN : N ≤ w.circs.length) (n : Nat) :
    Builds w N c0.storage (buildOr r n) (2 * n) n (bin n (List.zipWith (· || ·))) :=
  build2_ok CC.or (· || ·) RunsC.or hw hr hN n

theorem buildXor_ok (hw : WFw w) (hr : w.circs[r]? = some c0) (hN : N ≤ w.circs.length) (n : Nat) :
    Builds w N c0.storage (buildXor r n) (2 * n) n (bin n (List.zipWith (· != ·))) :=
  build2_ok CC.xor (· != ·) RunsC.xor hw hr hN n

theorem take_succ_beq {xs ys : List Bool} {i : Nat} {a b : Bool} (hx : xs[i]? = some a) (hy : ys[i]? = some b) :
    (xs.take i == ys.take i && (a == b)) = (xs.take (i + 1) == ys.take (i + 1)) := by
  have h1 := lt_of_getElem? hx
  have h2 := lt_of_getElem? hy
  rw [List.take_add_one, List.take_add_one, hx, hy, Bool.eq_iff_iff]
  simp only [Bool.and_eq_true, beq_iff_eq, Option.toList_some]
  constructor
  · rintro ⟨e1, e2⟩; rw [e1, e2]
  · intro e
    have := List.append_inj e (by simp; omega)
    exact ⟨this.1, by simpa using this.2⟩

theorem buildEq_ok (hw : WFw w) (hr : w.circs[r]? = some c0) (hN : N ≤ w.circs.length) (n : Nat) :
    Builds w N c0.storage (buildEq r n) (2 * n) 1 (bin n fun a b => [a == b]) := by
  refine Builds.mk hw hr hN (by intro ins hl; simp [bin]) ?_
  intro w1 s K mid c1 ins _ hb he hl
  refine RunsC.two (k := fun a b => _) hb he n hl ?_
  intro a b c2 hb2 h0 hin ha hbv
  have hla := ha.length
  have hlb := hbv.length
  simp only [List.length_take, List.length_drop] at hla hlb
  refine RunsC.seq (RunsC.constant (ins := ins) hb2 true) ?_
  intro e0 c3 hn
  have hpos := hb2.ins
  refine RunsC.seq (RunsC.foldRange (I := fun i e c => Grew w1 s K c2 c ∧
      V w1 s ins c e ((ins.take n).take i == (ins.drop n).take i) ∧ Unread c e ∧ c2.gateIndex ≤ e) n
      ⟨hn.grew, by simpa using hn.v, hn.unread, Nat.le_of_eq hn.id.symm⟩ ?_) ?_
  · rintro i e c hi ⟨hg, hv, _, hge⟩
    obtain ⟨x, b1, hx, hbit1, hv1⟩ := ha.get (i := i) (by omega)
    obtain ⟨y, b2, hy, hbit2, hv2⟩ := hbv.get (i := i) (by omega)
    refine RunsC.bind (RunsC.idx hx ?_)
    refine RunsC.bind (RunsC.idx hy ?_)
    have hbc := hg.step.bld
    have h0c := hg.out0 h0
    refine RunsC.seq (RunsC.equivalent (ins := ins) hbc (hg.step.v hb2 hv1) (hg.step.v hb2 hv2) (hbc.notOut h0c _)
      (hbc.notOut h0c _)) ?_
    rintro g c4 ⟨k1, k2, k3, k4, k5, _⟩
    refine (RunsC.and (ins := ins) k1.bld (k1.v hbc hv) k5 (k1.bld.notOut (k1.outputLen.trans h0c) _)
      (k1.bld.notOut (k1.outputLen.trans h0c) _)).mono ?_
    intro g2 c5 hn2
    refine ⟨hg.trans ⟨k1.trans hn2.step, hn2.inputLen.trans k2⟩, ?_, hn2.unread, ?_⟩
    · have := hn2.v
      rw [take_succ_beq hbit1 hbit2] at this
      exact this
    · have := hg.step.ext.gateIndex; have := k1.ext.gateIndex; rw [hn2.id]; omega
  · rintro e c ⟨hg, hv, hu, hge⟩
    have hbc := hg.step.bld
    have h0c := hg.out0 h0
    refine RunsC.seq (RunsC.output hbc hv hu (by rw [hg.inputLen, h0c]; omega)) ?_
    intro _ c' ho
    refine RunsC.pure ⟨rfl, ho.bld, ?_, by rw [ho.inputLen, hg.inputLen, hin]⟩
    have := (Outs.nil (ins := ins) h0c).output hbc ho hv
    rw [List.take_of_length_le (l := ins.take n) (by simp; omega), List.take_of_length_le (l := ins.drop n) (by simp; omega)] at this
    exact this

theorem All2.app_bin {α} {P : α → Bool → Prop} {as bs : List α} {xs ys : List Bool} {n : Nat} (h1 : All2 P as xs) (h2 : All2 P bs ys)
    (hl : xs.length = n) (f : List Bool → List Bool → List Bool) :
    All2 P (as ++ bs) (xs ++ ys) ∧ bin n f (xs ++ ys) = f xs ys := by
  refine ⟨h1.append h2, ?_⟩
  unfold bin
  rw [← hl]; simp

theorem take_app_drop_bin {ins : List Bool} {n : Nat} (f : List Bool → List Bool → List Bool) :
    bin n f (ins.take n ++ ins.drop n) = bin n f ins := by rw [List.take_append_drop]

/-- one bit, negated -/
theorem buildNeg1_ok {f : List Bool → List Bool → Bool} {m1 : ModuleId} (hw : WFw w) (hr : w.circs[r]? = some c0) (hN : N ≤ w.circs.length)
    (n : Nat) (hm : ModOk w N c0.storage m1 (2 * n) 1 (bin n fun a b => [f a b])) :
    Builds w N c0.storage (do
      let (mid, s) ← subCircuit r
      let a ← M.replicate (input s) n
      let b ← M.replicate (input s) n
      let outs ← module s m1 (a ++ b)
      let e ← M.idx outs 0
      let ne ← CC.not s e
      let _ ← output s ne
      pure mid) (2 * n) 1 (bin n fun a b => [!f a b]) := by
  refine Builds.mk hw hr hN (by intro ins hl; simp [bin]) ?_
  intro w1 s K mid c1 ins hmods hb he hl
  refine RunsC.two (k := fun a b => _) hb he n hl ?_
  intro a b c2 hb2 h0 hin ha hbv
  have hab := ha.append hbv
  rw [List.take_append_drop] at hab
  refine RunsC.seq (RunsC.module (ins := ins) hb2 (hmods _ _ _ _ hm) hab hl (fun x _ => hb2.notOut h0 x)) ?_
  rintro gs c3 ⟨hn, hlen⟩
  obtain ⟨g, b1, hg, hbit, hv⟩ := hn.v.get (i := 0) (by rw [hn.ids]; simp [hlen])
  refine RunsC.bind (RunsC.idx hg ?_)
  have hb3 := hn.step.bld
  have h03 := hn.grew.out0 h0
  refine RunsC.seq (RunsC.not (ins := ins) hb3 hv (hb3.notOut h03 _)) ?_
  intro g2 c4 hn2
  have hb4 := hn2.step.bld
  have h04 := hn2.grew.out0 h03
  have hpos := hb3.ins
  refine RunsC.seq (RunsC.output hb4 hn2.v hn2.unread (by rw [hn2.inputLen, h04, hn2.id]; omega)) ?_
  intro _ c' ho
  refine RunsC.pure ⟨rfl, ho.bld, ?_, by rw [ho.inputLen, hn2.inputLen, hn.inputLen, hin]⟩
  have := (Outs.nil (ins := ins) h04).output hb4 ho hn2.v
  simp [bin] at hbit
  subst hbit
  simpa [bin] using this

theorem buildNeq_ok {m1 : ModuleId} (hw : WFw w) (hr : w.circs[r]? = some c0) (hN : N ≤ w.circs.length) (n : Nat)
    (hm : ModOk w N c0.storage m1 (2 * n) 1 (bin n fun a b => [a == b])) :
    Builds w N c0.storage (buildNeq r n m1) (2 * n) 1 (bin n fun a b => [!(a == b)]) := buildNeg1_ok hw hr hN n hm

/-- what `AllocBitsConfig::new` guarantees -/
structure BitsOk (w : World) (N : Nat) (st : StoreRef) (n : Nat) (cfg : BitsConfig) : Prop where
  not : ModOk w N st cfg.notMid n n (fun ins => ins.map (!·))
  and : ModOk w N st cfg.andMid (2 * n) n (bin n (List.zipWith (· && ·)))
  or : ModOk w N st cfg.orMid (2 * n) n (bin n (List.zipWith (· || ·)))
  xor : ModOk w N st cfg.xorMid (2 * n) n (bin n (List.zipWith (· != ·)))
  eq : ModOk w N st cfg.eqMid (2 * n) 1 (bin n fun a b => [a == b])
  neq : ModOk w N st cfg.neqMid (2 * n) 1 (bin n fun a b => [!(a == b)])

theorem bitsConfig_ok (hw : WFw w) (hr : w.circs[r]? = some c0) (hN : N ≤ w.circs.length) (n : Nat) :
    ∃ cfg w', BitsConfig.new r n w = (.ok cfg, w') ∧ After w w' ∧ cfg.cref = r ∧ BitsOk w' N c0.storage n cfg := by
  obtain ⟨m1, w1, e1, a1, o1⟩ := buildNot_ok hw hr hN n
  have hr1 := a1.keeps.circ r c0 trivial hr
  have hN1 := Nat.le_trans hN a1.length
  obtain ⟨m2, w2, e2, a2, o2⟩ := buildAnd_ok a1.wf hr1 hN1 n
  have hr2 := a2.keeps.circ r c0 trivial hr1
  have hN2 := Nat.le_trans hN1 a2.length
  obtain ⟨m3, w3, e3, a3, o3⟩ := buildOr_ok a2.wf hr2 hN2 n
  have hr3 := a3.keeps.circ r c0 trivial hr2
  have hN3 := Nat.le_trans hN2 a3.length
  obtain ⟨m4, w4, e4, a4, o4⟩ := buildXor_ok a3.wf hr3 hN3 n
  have hr4 := a4.keeps.circ r c0 trivial hr3
  have hN4 := Nat.le_trans hN3 a4.length
  obtain ⟨m5, w5, e5, a5, o5⟩ := buildEq_ok a4.wf hr4 hN4 n
  have hr5 := a5.keeps.circ r c0 trivial hr4
  have hN5 := Nat.le_trans hN4 a5.length
  obtain ⟨m6, w6, e6, a6, o6⟩ := buildNeq_ok a5.wf hr5 hN5 n o5
  refine ⟨⟨r, m1, m2, m3, m4, m5, m6⟩, w6, ?_, (((((a1.trans a2).trans a3).trans a4).trans a5).trans a6), ?_⟩
  · unfold BitsConfig.new
    rw [bind_ok e1, bind_ok e2, bind_ok e3, bind_ok e4, bind_ok e5, bind_ok e6]; rfl
  · exact ⟨rfl, a6.modOk (a5.modOk (a4.modOk (a3.modOk (a2.modOk o1)))), a6.modOk (a5.modOk (a4.modOk (a3.modOk o2))),
      a6.modOk (a5.modOk (a4.modOk o3)), a6.modOk (a5.modOk o4), a6.modOk o5, o6⟩

end

end CC
