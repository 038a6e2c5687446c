import Verif.Proofs.TestFp

/-!
# The tests of `AllocBits`
-/

namespace CC
open Spec Logic Arith Fp

section
variable {w : World} {s : Ref} {K : Ctx} {c : Circuit} {ins : List Bool} {n : Nat} {cfg : BitsConfig}

def BitsReady (n : Nat) (w : World) (N : Nat) (st : StoreRef) (r : Ref) (cfg : BitsConfig) : Prop :=
  cfg.cref = r ∧ BitsOk w N st n cfg

theorem configures_bits (n : Nat) : Configures (fun r => BitsConfig.new r n) (BitsReady n) := by
  intro w r c0 N hw hr hN
  obtain ⟨cfg, w', e, ha, hcr, hok⟩ := bitsConfig_ok hw hr hN n
  exact ⟨cfg, w', e, ha, hcr, hok⟩

theorem RunsC.newBits (hb : Bld w s K c) (h0 : c.outputLen = 0) (hcr : cfg.cref = s) (hl : c.inputLen + n ≤ ins.length) :
    RunsC w s (Bits.new cfg n) c fun x c' => Step w s K c c' ∧ c'.inputLen = c.inputLen + n ∧ x.config = cfg ∧
      All2 (V w s ins c') x.bits ((ins.drop c.inputLen).take n) := by
  unfold Bits.new
  rw [hcr]
  refine RunsC.seq (RunsC.inputs (ins := ins) hb h0 n hl) ?_
  rintro gs c' ⟨h1, h2, _, _, h5⟩
  exact RunsC.pure ⟨h1, h2, rfl, h5⟩

theorem RunsC.outputBits (hlt : s < w.circs.length) (hcr : cfg.cref = s) (gs : List GateId) {x : Bits}
    (hx : x.config = cfg) (hl : x.bits.length = n) (hg : ∀ g ∈ x.bits, ∃ gate, c.gateMap g = some gate) :
    RunsC w s (x.output n) (withOutputs c gs) fun _ c' => c' = withOutputs c (gs ++ x.bits) := by
  unfold Bits.output
  rw [hx, hcr]
  refine RunsC.seq (RunsC.mapRange (I := fun acc c' => c' = withOutputs c (gs ++ x.bits.take acc.length)) n (by simp) ?_) ?_
  · rintro i acc c1 hi hacc rfl
    have hget : x.bits[i]? = some (x.bits[i]'(by omega)) := List.getElem?_eq_getElem _
    refine RunsC.bind (RunsC.idx hget ?_)
    obtain ⟨gate, hgate⟩ := hg _ (List.mem_of_getElem? hget)
    refine (RunsC.output1 hlt (gs ++ x.bits.take acc.length) hgate).mono ?_
    rintro _ c' rfl
    rw [List.append_assoc, hacc, List.length_append, hacc]
    simp only [List.length_cons, List.length_nil]
    rw [List.take_add_one, hget]
    rfl
  · rintro ys c1 ⟨rfl, hys⟩
    refine RunsC.pure ?_
    rw [hys, List.take_of_length_le (by omega)]

/-- a module call whose results are all declared as outputs -/
theorem RunsC.closeCall (hb : Bld w s K c) (h0 : c.outputLen = 0) (hcr : cfg.cref = s) {mid : ModuleId} {m : Nat}
    {f : List Bool → List Bool} (hm : ModD w (fun d => d < K.out ∨ d = s) K.st mid m n f) {gs : List GateId}
    {bs : List Bool} (hv : All2 (V w s ins c) gs bs) (hl : bs.length = m) :
    RunsC w s (do
      let z ← (do
        let outs ← M.expect (CC.module cfg.cref mid gs)
        Pure.pure { bits := outs, config := cfg : Bits })
      z.output n
      Pure.pure s) c fun a c2 => a = s ∧ Leaves w s K c c.inputLen ins (f bs) c2 := by
  rw [hcr]
  refine RunsC.seq (RunsC.seq (RunsC.expect (RunsC.both hb.lt (RunsC.module (ins := ins) hb hm hv hl
    (fun x _ => hb.notOut h0 x)) (RunsC.module_tidy hb hm _)))
    (Q := fun z c' => z.config = cfg ∧ Grew w s K c c' ∧ All2 (V w s ins c') z.bits (f bs) ∧ (f bs).length = n ∧
      Tidy c' c.gateIndex false z.bits) ?_) ?_
  · rintro outs c' ⟨⟨h1, h2⟩, h3⟩
    exact RunsC.pure ⟨rfl, h1.grew, h1.v, h2, h3⟩
  · rintro z c' ⟨h1, h2, h3, h4, h5⟩
    have hb' := h2.step.bld
    have h0' := h2.step.outputLen.trans h0
    have hout := RunsC.outputBits (c := c') (n := n) hb.lt hcr [] h1 (by rw [h3.length, h4]) (fun g hg => by
      obtain ⟨b, hb1⟩ := h3.left hg
      exact hb1.gate hb')
    rw [withOutputs_nil hb'.wfc h0'] at hout
    refine RunsC.seq hout ?_
    rintro _ c2 rfl
    refine RunsC.pure ⟨rfl, c', z.bits, rfl, h2.step, h2.inputLen, ?_, h3⟩
    refine List.pairwise_iff_forall_sublist.mpr fun {a b} hab => ?_
    exact Early.apart hb' (Before.early ⟨_, _, _, _, _, _, h5, h5, .inr (Nat.le_refl _), hab.subset (List.mem_cons_self ..),
      hab.subset (List.mem_cons_of_mem _ (List.mem_cons_self ..))⟩)

end

theorem notTest_ok {w : World} (hw : Reachable w) (n : Nat) :
    ∃ r w', Tests.not n w = (.ok r, w') ∧
      ∃ F, ∀ fuel ≥ F, ∀ ins : List Bool, ins.length = n → evalOutput w' fuel r ins = .ok (ins.map (!·)) := by
  refine test_ok (configures_bits n) (fun r => plays_bitsConfig r n) (fun r cfg => ?_) (f := fun ins => ins.map (!·)) ?_ hw
  · unfold Bits.new Bits.not Bits.output; plays
  · rintro w s K c cfg hb h0 hi0 ⟨hcr, hok⟩ hcall ins hins
    refine RunsC.seq (RunsC.newBits (ins := ins) hb h0 hcr (by omega)) ?_
    rintro x c1 ⟨s1, l1, rfl, x1⟩
    rw [hi0, List.drop_zero, List.take_of_length_le (by omega)] at x1
    refine (RunsC.closeCall s1.bld (s1.outputLen.trans h0) hcr (hcall _ _ _ _ hok.not) x1 hins).mono ?_
    rintro a c2 ⟨rfl, hl⟩
    exact ⟨rfl, hl.after s1 (by omega)⟩

theorem binaryTest_ok {w : World} (hw : Reachable w) (n : Nat) {op : Bits → Bits → M Bits} {mid : BitsConfig → ModuleId}
    (hop : ∀ x y, op x y = do
      let outs ← M.expect (CC.module x.config.cref (mid x.config) (x.bits ++ y.bits))
      pure { bits := outs, config := x.config }) {φ : Bool → Bool → Bool}
    (hmod : ∀ {w N st cfg}, BitsOk w N st n cfg → ModOk w N st (mid cfg) (2 * n) n (bin n (List.zipWith φ))) :
    ∃ r w', Tests.binary op n w = (.ok r, w') ∧
      ∃ F, ∀ fuel ≥ F, ∀ l r' : List Bool, l.length = n → r'.length = n →
        evalOutput w' fuel r (l ++ r') = .ok (List.zipWith φ l r') := by
  have key := test_ok (configures_bits n) (fun r => plays_bitsConfig r n) (m := 2 * n)
    (f := fun ins => List.zipWith φ (ins.take n) (ins.drop n))
    (body := fun r cfg => do
      let x ← Bits.new cfg n
      let y ← Bits.new cfg n
      let z ← op x y
      z.output n
      pure r) (fun r cfg => ?_) ?_ hw
  · obtain ⟨r, w', e, F, h⟩ := key
    refine ⟨r, w', e, F, fun fuel hf l r' hl hr => ?_⟩
    have := h fuel hf (l ++ r') (by simp; omega)
    rw [this, List.take_left' hl, List.drop_left' hl]
  · simp only [hop]
    unfold Bits.new Bits.output; plays
  · rintro w s K c cfg hb h0 hi0 ⟨hcr, hok⟩ hcall ins hins
    refine RunsC.seq (RunsC.newBits (ins := ins) hb h0 hcr (by omega)) ?_
    rintro x c1 ⟨s1, l1, rfl, x1⟩
    rw [hi0, List.drop_zero] at x1
    have o1 := s1.outputLen.trans h0
    refine RunsC.seq (RunsC.newBits (ins := ins) s1.bld o1 hcr (by omega)) ?_
    rintro y c2 ⟨s2, l2, hy, y2⟩
    rw [show c1.inputLen = n by omega, List.take_of_length_le (by simp; omega)] at y2
    have x2 := s2.vs s1.bld x1
    have o2 := s2.outputLen.trans o1
    rw [hop]
    refine (RunsC.closeCall s2.bld o2 hcr (hcall _ _ _ _ (hmod hok)) (x2.append y2) (by simp; omega)).mono ?_
    rintro a c3 ⟨rfl, hl⟩
    refine ⟨rfl, ?_⟩
    rw [(All2.app_bin x2 y2 (by simp; omega) _).2] at hl
    exact hl.after (s1.trans s2) (by omega)

theorem andTest_ok {w : World} (hw : Reachable w) (n : Nat) :
    ∃ r w', Tests.and n w = (.ok r, w') ∧ ∃ F, ∀ fuel ≥ F, ∀ x y : List Bool, x.length = n → y.length = n →
      evalOutput w' fuel r (x ++ y) = .ok (List.zipWith (· && ·) x y) :=
  binaryTest_ok hw n (fun _ _ => rfl) (fun h => h.and)

theorem orTest_ok {w : World} (hw : Reachable w) (n : Nat) :
    ∃ r w', Tests.or n w = (.ok r, w') ∧ ∃ F, ∀ fuel ≥ F, ∀ x y : List Bool, x.length = n → y.length = n →
      evalOutput w' fuel r (x ++ y) = .ok (List.zipWith (· || ·) x y) :=
  binaryTest_ok hw n (fun _ _ => rfl) (fun h => h.or)

theorem xorTest_ok {w : World} (hw : Reachable w) (n : Nat) :
    ∃ r w', Tests.xor n w = (.ok r, w') ∧ ∃ F, ∀ fuel ≥ F, ∀ x y : List Bool, x.length = n → y.length = n →
      evalOutput w' fuel r (x ++ y) = .ok (List.zipWith (· != ·) x y) :=
  binaryTest_ok hw n (fun _ _ => rfl) (fun h => h.xor)

end CC
