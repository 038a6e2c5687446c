import Verif.Proofs.AllocOps
import Verif.Props.Evaluator

/-!
# C24–C31: integers

In all theorems `w0` is an arbitrary reachable heap, `w1` the heap after creating the configuration, and `w` any heap
reached from there by calls that leave the module circuits of the configuration alone. `ins` is an arbitrary assignment
of the input wires.
-/

namespace CC.Props
open CC Spec Arith Logic

/-! ### new values -/

/-- C47: `AllocInt::new` adds `n` inputs to the circuit. At any later time, whatever happened in between, its gates hold
the bits of the input vector at the positions of these inputs, in order. -/
theorem C47_new_int {w : World} (h : Reachable w) {cfg : IntConfig} {c : Circuit} (hc : w.circs[cfg.cref]? = some c)
    (n : Nat) :
    ∃ x w' c', AInt.new cfg n w = (.ok x, w') ∧ On cfg.cref w w' ∧ x.config = cfg ∧ x.val.length = n ∧
      w'.circs[cfg.cref]? = some c' ∧ c'.inputLen = c.inputLen + n ∧ c'.outputLen = c.outputLen ∧
      ∀ w'', Later w' w'' → ∀ ins, c.inputLen + n ≤ ins.length →
        Denotes w'' cfg.cref ins x.val ((ins.drop c.inputLen).take n) := by
  obtain ⟨gs, w', c', e, ho, hw', hx, hc', h1, h2, h3, h4⟩ := inputs_run cfg.cref n (WFw.of_reachable h) hc
  refine ⟨⟨gs, cfg⟩, w', c', ?_, ho, rfl, h3, hc', h1, h2, ?_⟩
  · unfold AInt.new; rw [bind_ok e]; rfl
  · intro w'' hl ins hins
    obtain ⟨d, hd, hxd⟩ := (ext_of_later hw' hl).2.circs _ _ hc'
    refine ⟨by simp [h3]; omega, ?_⟩
    intro i g b hg hb
    have hi := lt_of_getElem? hg
    simp only at hi hg
    rw [List.getElem?_take, if_pos (by omega), List.getElem?_drop] at hb
    exact .input hd (hxd.gates _ _ (h4 i g hg)) hb

/-- C47: the same for `AllocBits::new` -/
theorem C47_new_bits {w : World} (h : Reachable w) {cfg : BitsConfig} {c : Circuit} (hc : w.circs[cfg.cref]? = some c)
    (n : Nat) :
    ∃ x w' c', Bits.new cfg n w = (.ok x, w') ∧ On cfg.cref w w' ∧ x.config = cfg ∧ x.bits.length = n ∧
      w'.circs[cfg.cref]? = some c' ∧ c'.inputLen = c.inputLen + n ∧ c'.outputLen = c.outputLen ∧
      ∀ w'', Later w' w'' → ∀ ins, c.inputLen + n ≤ ins.length →
        Denotes w'' cfg.cref ins x.bits ((ins.drop c.inputLen).take n) := by
  obtain ⟨gs, w', c', e, ho, hw', hx, hc', h1, h2, h3, h4⟩ := inputs_run cfg.cref n (WFw.of_reachable h) hc
  refine ⟨⟨gs, cfg⟩, w', c', ?_, ho, rfl, h3, hc', h1, h2, ?_⟩
  · unfold Bits.new; rw [bind_ok e]; rfl
  · intro w'' hl ins hins
    obtain ⟨d, hd, hxd⟩ := (ext_of_later hw' hl).2.circs _ _ hc'
    refine ⟨by simp [h3]; omega, ?_⟩
    intro i g b hg hb
    have hi := lt_of_getElem? hg
    simp only at hi hg
    rw [List.getElem?_take, if_pos (by omega), List.getElem?_drop] at hb
    exact .input hd (hxd.gates _ _ (h4 i g hg)) hb

/-- a heap with one empty circuit -/
def start : World := run [.newStorage, .newCircuit 0]

theorem start_reachable : Reachable start := run_reachable _

example : Reachable start ∧ (start.circs[0]?).isSome ∧
    ((AInt.new ⟨0, 0, 0, 0, 0, 0, 0, 0, 0, 0⟩ 2 start).1.toOption.map (·.val)) = some [0, 1] := ⟨start_reachable, rfl, rfl⟩

section
variable {w0 w1 w : World} {r : Ref} {n : Nat} {cfg : IntConfig}

/-- Creating a configuration succeeds for every width `≥ 1` on every existing circuit, leaves the existing circuits
alone, and is a sequence of API calls. -/
theorem C24_config {w : World} {r : Ref} {n : Nat} {c : Circuit} (h : Reachable w) (hc : w.circs[r]? = some c)
    (hn : 1 ≤ n) :
    ∃ cfg w1, IntConfig.new r n w = (.ok cfg, w1) ∧ cfg.cref = r ∧ Later w w1 ∧
      ∀ (x : Ref) d, w.circs[x]? = some d → w1.circs[x]? = some d := by
  obtain ⟨cfg, w1, e, ha, hr, _⟩ := intConfig_ok (WFw.of_reachable h) hc (Nat.le_refl _) hn
  refine ⟨cfg, w1, e, hr, ?_, fun x d hd => ha.keeps.circ x d trivial hd⟩
  have := plays_intConfig r n w
  rw [e] at this; exact this

/-- The hypotheses of the theorems below can be met: a configuration of any width `n ≥ 1` on an empty circuit, followed
by two new values `x`, `y`. On the input bits of two numbers `a`, `b`, `x` holds `a` and `y` holds `b`. -/
theorem demo_int {n : Nat} (hn : 1 ≤ n) : ∃ cfg w1 w, ∃ x y : AInt, Made (IntConfig.new 0 n) cfg start w1 w ∧ x.config = cfg ∧
    y.config = cfg ∧ x.val.length = n ∧ y.val.length = n ∧ ∀ a b, a < 2 ^ n → b < 2 ^ n →
      Num w 0 (bitsOf n a ++ bitsOf n b) x.val a ∧ Num w 0 (bitsOf n a ++ bitsOf n b) y.val b := by
  obtain ⟨cfg, w1, e, hcr, hl, hk⟩ := C24_config (r := 0) start_reachable rfl hn
  have hr1 := later_reachable start_reachable hl
  obtain ⟨x, w2, c2, e2, o2, x1, x2, hc2, i2, _, v2⟩ := C47_new_int (cfg := cfg) hr1 (by rw [hcr]; exact hk 0 _ rfl) n
  have hr2 := later_reachable hr1 o2.later
  obtain ⟨y, w3, c3, e3, o3, y1, y2, hc3, i3, _, v3⟩ := C47_new_int (cfg := cfg) hr2 hc2 n
  rw [hcr] at o2 o3 v2 v3
  refine ⟨cfg, w1, w3, x, y, ⟨start_reachable, e, ?_⟩, x1, y1, x2, y2, ?_⟩
  · exact (Since.refl.on (by decide) o2).on (by decide) o3
  · intro a b ha hb
    refine ⟨⟨_, v2 w3 o3.later _ ?_, ?_⟩, ⟨_, v3 w3 (.refl _) _ ?_, ?_⟩⟩
    · simp [Circuit.new]
    · simp [Circuit.new, bitsVal_bitsOf, Nat.mod_eq_of_lt ha]
    · rw [i2]; simp [Circuit.new]
    · rw [i2]
      have e1 : List.drop ((Circuit.new 0).inputLen + n) (bitsOf n a ++ bitsOf n b) = bitsOf n b := by
        rw [List.drop_left' (by simp [Circuit.new])]
      rw [e1, List.take_of_length_le (by simp), bitsVal_bitsOf, Nat.mod_eq_of_lt hb]

/-- the two's-complement reading of a number -/
theorem num_signed {w : World} {r : Ref} {ins : List Bool} {gs : List GateId} {n a : Nat} (hn : 1 ≤ n) (hl : gs.length = n)
    (h : Num w r ins gs a) : SNum w r ins gs (if a < 2 ^ (n - 1) then (a : Int) else (a : Int) - 2 ^ n) := by
  obtain ⟨bs, h1, rfl⟩ := h
  have := h1.1
  refine ⟨bs, h1, (signedVal_eq hn (this.symm.trans hl)).trans ?_⟩
  by_cases h : bitsVal bs < 2 ^ (n - 1)
  · rw [if_pos h, if_neg (by omega)]
  · rw [if_neg h, if_pos (by omega)]

/-- C24: addition modulo `2^n` -/
theorem C24_add (hm : Made (IntConfig.new r n) cfg w0 w1 w) {x y : AInt} (hx : x.config = cfg)
    (lx : x.val.length = n) (ly : y.val.length = n) :
    Gives r w (x.add y) fun z w' => z.config = cfg ∧ z.val.length = n ∧
      ∀ ins a b, Num w r ins x.val a → Num w r ins y.val b → Num w' r ins z.val ((a + b) % 2 ^ n) := by
  obtain ⟨c, h⟩ := int_session hm.reachable hm.made hm.since
  subst hx
  have hr := h.cref
  refine RunsW.gives (Q := fun z w' => z.config = x.config ∧ z.val.length = n ∧ ∀ ins a b, All2 (Val w r ins) x.val a →
    All2 (Val w r ins) y.val b → All2 (Val w' r ins) z.val (addF n a b)) ?_ ?_
  · unfold AInt.add
    rw [hr]
    refine RunsW.seq (RunsW.expect (RunsW.call2 h.wf h.circ h.lt h.ok.add lx ly)) ?_
    rintro gs w' g ⟨h1, h2⟩
    exact RunsW.pure g.wf ⟨rfl, h1, h2⟩
  · rintro z w' ⟨h1, h2, h3⟩
    refine ⟨h1, h2, ?_⟩
    rintro ins _ _ ⟨a, ha, rfl⟩ ⟨b, hb, rfl⟩
    exact ⟨_, denotes_iff.mpr (h3 ins a b (denotes_iff.mp ha) (denotes_iff.mp hb)), bitsVal_bitsOf _ _⟩

example : ∃ w, ∃ x y : AInt, Gives 0 w (x.add y) fun z w' => Num w' 0 (bitsOf 4 11 ++ bitsOf 4 9) z.val 4 := by
  obtain ⟨cfg, w1, w, x, y, hm, hx, hy, lx, ly, hv⟩ := demo_int (n := 4) (by decide)
  obtain ⟨z, w', e1, e2, _, _, h⟩ := C24_add hm hx lx ly
  exact ⟨w, x, y, z, w', e1, e2, h _ _ _ (hv 11 9 (by decide) (by decide)).1 (hv 11 9 (by decide) (by decide)).2⟩

/-- C25: subtraction modulo `2^n` -/
theorem C25_sub (hm : Made (IntConfig.new r n) cfg w0 w1 w) {x y : AInt} (hx : x.config = cfg)
    (lx : x.val.length = n) (ly : y.val.length = n) :
    Gives r w (x.sub y) fun z w' => z.config = cfg ∧ z.val.length = n ∧
      ∀ ins a b, Num w r ins x.val a → Num w r ins y.val b →
        Num w' r ins z.val (((a : Int) - b) % 2 ^ n).toNat := by
  obtain ⟨c, h⟩ := int_session hm.reachable hm.made hm.since
  subst hx
  have hr := h.cref
  refine RunsW.gives (Q := fun z w' => z.config = x.config ∧ z.val.length = n ∧ ∀ ins a b, All2 (Val w r ins) x.val a →
    All2 (Val w r ins) y.val b → All2 (Val w' r ins) z.val (subF n a b)) ?_ ?_
  · unfold AInt.sub
    rw [hr]
    refine RunsW.seq (RunsW.expect (RunsW.call2 h.wf h.circ h.lt h.ok.sub lx ly)) ?_
    rintro gs w' g ⟨h1, h2⟩
    exact RunsW.pure g.wf ⟨rfl, h1, h2⟩
  · rintro z w' ⟨h1, h2, h3⟩
    refine ⟨h1, h2, ?_⟩
    rintro ins _ _ ⟨a, ha, rfl⟩ ⟨b, hb, rfl⟩
    have hlb := (denotes_iff.mp hb).length
    exact ⟨_, denotes_iff.mpr (h3 ins a b (denotes_iff.mp ha) (denotes_iff.mp hb)), subF_val (by omega)⟩

example : ∃ w, ∃ x y : AInt, Gives 0 w (x.sub y) fun z w' => Num w' 0 (bitsOf 4 9 ++ bitsOf 4 11) z.val 14 := by
  obtain ⟨cfg, w1, w, x, y, hm, hx, hy, lx, ly, hv⟩ := demo_int (n := 4) (by decide)
  obtain ⟨z, w', e1, e2, _, _, h⟩ := C25_sub hm hx lx ly
  exact ⟨w, x, y, z, w', e1, e2, h _ _ _ (hv 9 11 (by decide) (by decide)).1 (hv 9 11 (by decide) (by decide)).2⟩

/-- C25: negation modulo `2^n` -/
theorem C25_neg (hm : Made (IntConfig.new r n) cfg w0 w1 w) {x : AInt} (hx : x.config = cfg)
    (lx : x.val.length = n) :
    Gives r w (x.neg n) fun z w' => z.config = cfg ∧ z.val.length = n ∧
      ∀ ins a, Num w r ins x.val a → Num w' r ins z.val ((2 ^ n - a) % 2 ^ n) := by
  obtain ⟨c, h⟩ := int_session hm.reachable hm.made hm.since
  obtain rfl := h.cref
  refine RunsW.gives (RunsW.neg h.wf h.circ h.lt h.ok hx lx) ?_
  rintro z w' ⟨h1, h2, h3⟩
  refine ⟨h1, h2, ?_⟩
  rintro ins _ ⟨a, ha, rfl⟩
  have hla := (denotes_iff.mp ha).length
  refine ⟨_, denotes_iff.mpr (h3 ins a (denotes_iff.mp ha)), ?_⟩
  unfold subF
  rw [bitsVal_bitsOf, bitsVal_replicate_false, Nat.zero_add]

example : ∃ w, ∃ x : AInt, Gives 0 w (x.neg 4) fun z w' => Num w' 0 (bitsOf 4 3 ++ bitsOf 4 0) z.val 13 := by
  obtain ⟨cfg, w1, w, x, y, hm, hx, hy, lx, ly, hv⟩ := demo_int (n := 4) (by decide)
  obtain ⟨z, w', e1, e2, _, _, h⟩ := C25_neg hm hx lx
  exact ⟨w, x, z, w', e1, e2, h _ _ (hv 3 0 (by decide) (by decide)).1⟩

/-- C26: multiplication modulo `2^n` -/
theorem C26_mul (hm : Made (IntConfig.new r n) cfg w0 w1 w) {x y : AInt} (hx : x.config = cfg)
    (lx : x.val.length = n) (ly : y.val.length = n) :
    Gives r w (x.mul y) fun z w' => z.config = cfg ∧ z.val.length = n ∧
      ∀ ins a b, Num w r ins x.val a → Num w r ins y.val b → Num w' r ins z.val (a * b % 2 ^ n) := by
  obtain ⟨c, h⟩ := int_session hm.reachable hm.made hm.since
  subst hx
  have hr := h.cref
  refine RunsW.gives (Q := fun z w' => z.config = x.config ∧ z.val.length = n ∧ ∀ ins a b, All2 (Val w r ins) x.val a →
    All2 (Val w r ins) y.val b → All2 (Val w' r ins) z.val (mulF n a b)) ?_ ?_
  · unfold AInt.mul
    rw [hr]
    refine RunsW.seq (RunsW.expect (RunsW.call2 h.wf h.circ h.lt h.ok.mul lx ly)) ?_
    rintro gs w' g ⟨h1, h2⟩
    exact RunsW.pure g.wf ⟨rfl, h1, h2⟩
  · rintro z w' ⟨h1, h2, h3⟩
    refine ⟨h1, h2, ?_⟩
    rintro ins _ _ ⟨a, ha, rfl⟩ ⟨b, hb, rfl⟩
    exact ⟨_, denotes_iff.mpr (h3 ins a b (denotes_iff.mp ha) (denotes_iff.mp hb)), bitsVal_bitsOf _ _⟩

example : ∃ w, ∃ x y : AInt, Gives 0 w (x.mul y) fun z w' => Num w' 0 (bitsOf 4 11 ++ bitsOf 4 9) z.val 3 := by
  obtain ⟨cfg, w1, w, x, y, hm, hx, hy, lx, ly, hv⟩ := demo_int (n := 4) (by decide)
  obtain ⟨z, w', e1, e2, _, _, h⟩ := C26_mul hm hx lx ly
  exact ⟨w, x, y, z, w', e1, e2, h _ _ _ (hv 11 9 (by decide) (by decide)).1 (hv 11 9 (by decide) (by decide)).2⟩

/-- a configuration of width `2n` and the full-width multiplier on top of its adder -/
def mulExtendOver (r : Ref) (n : Nat) : M ModuleId := do
  let cfg ← IntConfig.new r (2 * n)
  buildMulExtend r n cfg.addMid

/-- C27: building the full-width multiplier succeeds -/
theorem C27_build {w : World} {r : Ref} {n : Nat} {c : Circuit} (h : Reachable w) (hc : w.circs[r]? = some c)
    (hn : 1 ≤ n) : ∃ mid w1, mulExtendOver r n w = (.ok mid, w1) ∧ Later w w1 ∧
      ∀ (x : Ref) d, w.circs[x]? = some d → w1.circs[x]? = some d := by
  obtain ⟨cfg, w1, e, ha, hr, ok⟩ := intConfig_ok (n := 2 * n) (WFw.of_reachable h) hc (Nat.le_refl _) (by omega)
  obtain ⟨mid, w2, e2, ha2, _⟩ := buildMulExtend_ok (n := n) ha.wf (ha.keeps.circ r c trivial hc) ha.length ok.add
  have he : mulExtendOver r n w = (.ok mid, w2) := by unfold mulExtendOver; rw [bind_ok e]; exact e2
  refine ⟨mid, w2, he, ?_, fun x d hd => ha2.keeps.circ x d trivial (ha.keeps.circ x d trivial hd)⟩
  have hp : Plays (mulExtendOver r n) := .bind (plays_intConfig r _) fun _ => plays_buildMulExtend r n _
  have := hp w
  rw [he] at this; exact this

/-- C27: a call of that module returns the exact product, in `2n` bits -/
theorem C27_mulExtend {mid : ModuleId} (hm : Made (mulExtendOver r n) mid w0 w1 w) {x y : List GateId}
    (lx : x.length = n) (ly : y.length = n) :
    Gives r w (module r mid (x ++ y)) fun z w' => z.length = 2 * n ∧
      ∀ ins a b, Num w r ins x a → Num w r ins y b → Num w' r ins z (a * b) := by
  obtain ⟨h0, hmade, hs⟩ := hm
  unfold mulExtendOver at hmade
  have hcfg : ∃ cfg w', IntConfig.new r (2 * n) w0 = (.ok cfg, w') := by
    cases h : IntConfig.new r (2 * n) w0 with
    | mk a w' =>
      cases a with
      | error e => rw [bind_err h] at hmade; cases hmade
      | ok cfg => exact ⟨cfg, w', rfl⟩
  obtain ⟨cfg, w', hcfg⟩ := hcfg
  obtain ⟨c0, hc0⟩ := intConfig_circ hcfg
  have hn := intConfig_pos hcfg
  obtain ⟨cfg', wc, e, ha, hr, ok⟩ := intConfig_ok (n := 2 * n) (WFw.of_reachable h0) hc0 (Nat.le_refl _) hn
  rw [hcfg] at e; cases e
  have hc1 := ha.keeps.circ r c0 trivial hc0
  obtain ⟨mid', w2, e2, ha2, ok2⟩ := buildMulExtend_ok (n := n) ha.wf hc1 ha.length ok.add
  rw [bind_ok hcfg, e2] at hmade; cases hmade
  have hx := ext_of_later ha2.wf hs.later
  obtain ⟨c, hc, he⟩ := hx.2.circs _ _ (ha2.keeps.circ _ _ trivial hc1)
  have ok3 := ok2.session (hs.keeps ha2.wf)
  rw [← he.storage] at ok3
  refine RunsW.gives (RunsW.call2 hx.1 hc (lt_of_getElem? hc0) ok3 lx ly) ?_
  rintro z w' ⟨h1, h2⟩
  refine ⟨h1, ?_⟩
  rintro ins _ _ ⟨a, ha, rfl⟩ ⟨b, hb, rfl⟩
  have la := (denotes_iff.mp ha).length
  have lb := (denotes_iff.mp hb).length
  refine ⟨_, denotes_iff.mpr (h2 ins a b (denotes_iff.mp ha) (denotes_iff.mp hb)), ?_⟩
  unfold mulF
  rw [bitsVal_bitsOf, Nat.mod_eq_of_lt]
  have h1 := bitsVal_lt a
  have h2 := bitsVal_lt b
  rw [← la, lx] at h1
  rw [← lb, ly] at h2
  rw [Nat.two_mul, Nat.pow_add]
  exact Nat.mul_lt_mul'' h1 h2

example : ∃ w, ∃ x y : List GateId, ∃ mid, Gives 0 w (module 0 mid (x ++ y)) fun z w' => z.length = 4 ∧
    Num w' 0 [true, true, true, true] z 9 := by
  obtain ⟨mid, w1, e, hl, hk⟩ := C27_build (n := 2) (r := 0) start_reachable rfl (by decide)
  have hr1 := later_reachable start_reachable hl
  obtain ⟨x, w2, c2, e2, o2, x1, x2, hc2, i2, _, v2⟩ :=
    C47_new_int (cfg := ⟨0, 0, 0, 0, 0, 0, 0, 0, 0, 0⟩) hr1 (hk 0 _ rfl) 2
  obtain ⟨y, w3, c3, e3, o3, y1, y2, hc3, i3, _, v3⟩ := C47_new_int (later_reachable hr1 o2.later) hc2 2
  obtain ⟨z, w', f1, f2, f3, f4⟩ := C27_mulExtend (w := w3) (mid := mid) (n := 2) ⟨start_reachable, e,
    (Since.refl.on (by decide) o2).on (by decide) o3⟩ x2 y2
  refine ⟨w3, x.val, y.val, mid, z, w', f1, f2, f3, f4 _ 3 3 ?_ ?_⟩
  · exact ⟨_, v2 w3 o3.later [true, true, true, true] (by simp [Circuit.new]), rfl⟩
  · exact ⟨_, v3 w3 (.refl _) [true, true, true, true] (by rw [i2]; simp [Circuit.new]), by rw [i2]; rfl⟩

/-- C28: `eq` -/
theorem C28_eq (hm : Made (IntConfig.new r n) cfg w0 w1 w) {x y : AInt} (hx : x.config = cfg)
    (lx : x.val.length = n) (ly : y.val.length = n) :
    Gives r w (x.eq y n) fun g w' =>
      ∀ ins a b, Num w r ins x.val a → Num w r ins y.val b → Val w' r ins g (decide (a = b)) := by
  obtain ⟨c, h⟩ := int_session hm.reachable hm.made hm.since
  subst hx
  refine RunsW.gives (RunsW.compare h.wf h.circ h.lt h.ok.eq h.cref lx ly) ?_
  intro g w' h1
  rintro ins _ _ ⟨a, ha, rfl⟩ ⟨b, hb, rfl⟩
  have := h1 ins a b (denotes_iff.mp ha) (denotes_iff.mp hb)
  have la := ha.1
  have lb := hb.1
  have e : (a == b) = decide (bitsVal a = bitsVal b) := by
    rw [Bool.beq_eq_decide_eq]
    apply decide_eq_decide.mpr
    refine ⟨fun e => by rw [e], fun e => ?_⟩
    rw [← bitsOf_bitsVal (n := n) (bs := a) (by omega), e, bitsOf_bitsVal (by omega)]
  rw [e] at this
  exact this

example : ∃ w, ∃ x y : AInt, Gives 0 w (x.eq y 4) fun z w' => Val w' 0 (bitsOf 4 9 ++ bitsOf 4 9) z true := by
  obtain ⟨cfg, w1, w, x, y, hm, hx, hy, lx, ly, hv⟩ := demo_int (n := 4) (by decide)
  obtain ⟨z, w', e1, e2, h⟩ := C28_eq hm hx lx ly
  exact ⟨w, x, y, z, w', e1, e2, h _ _ _ (hv 9 9 (by decide) (by decide)).1 (hv 9 9 (by decide) (by decide)).2⟩

/-- C28: `neq` -/
theorem C28_neq (hm : Made (IntConfig.new r n) cfg w0 w1 w) {x y : AInt} (hx : x.config = cfg)
    (lx : x.val.length = n) (ly : y.val.length = n) :
    Gives r w (x.neq y n) fun g w' =>
      ∀ ins a b, Num w r ins x.val a → Num w r ins y.val b → Val w' r ins g (decide (a ≠ b)) := by
  obtain ⟨c, h⟩ := int_session hm.reachable hm.made hm.since
  subst hx
  refine RunsW.gives (RunsW.compare h.wf h.circ h.lt h.ok.neq h.cref lx ly) ?_
  intro g w' h1
  rintro ins _ _ ⟨a, ha, rfl⟩ ⟨b, hb, rfl⟩
  have := h1 ins a b (denotes_iff.mp ha) (denotes_iff.mp hb)
  have la := ha.1
  have lb := hb.1
  have e : (!(a == b)) = decide (bitsVal a ≠ bitsVal b) := by
    rw [Bool.beq_eq_decide_eq, ← decide_not]
    apply decide_eq_decide.mpr
    refine ⟨fun h e => h ?_, fun h e => h (by rw [e])⟩
    rw [← bitsOf_bitsVal (n := n) (bs := a) (by omega), e, bitsOf_bitsVal (by omega)]
  rw [e] at this
  exact this

example : ∃ w, ∃ x y : AInt, Gives 0 w (x.neq y 4) fun z w' => Val w' 0 (bitsOf 4 9 ++ bitsOf 4 11) z true := by
  obtain ⟨cfg, w1, w, x, y, hm, hx, hy, lx, ly, hv⟩ := demo_int (n := 4) (by decide)
  obtain ⟨z, w', e1, e2, h⟩ := C28_neq hm hx lx ly
  exact ⟨w, x, y, z, w', e1, e2, h _ _ _ (hv 9 11 (by decide) (by decide)).1 (hv 9 11 (by decide) (by decide)).2⟩

/-- what the four order comparisons return: `less` is the top bit of the difference modulo `2^n` -/
theorem C29_exact (hm : Made (IntConfig.new r n) cfg w0 w1 w) {x y : AInt} (hx : x.config = cfg)
    (lx : x.val.length = n) (ly : y.val.length = n) :
    (Gives r w (x.less y n) fun g w' => ∀ ins a b, Num w r ins x.val a → Num w r ins y.val b →
      Val w' r ins g (decide (2 ^ (n - 1) ≤ (a + (2 ^ n - b)) % 2 ^ n))) ∧
    (Gives r w (x.lessOrEq y n) fun g w' => ∀ ins a b, Num w r ins x.val a → Num w r ins y.val b →
      Val w' r ins g (decide (2 ^ (n - 1) ≤ (a + (2 ^ n - b)) % 2 ^ n ∨ a = b))) ∧
    (Gives r w (x.larger y n) fun g w' => ∀ ins a b, Num w r ins x.val a → Num w r ins y.val b →
      Val w' r ins g (decide (¬ (2 ^ (n - 1) ≤ (a + (2 ^ n - b)) % 2 ^ n ∨ a = b)))) ∧
    (Gives r w (x.largerOrEq y n) fun g w' => ∀ ins a b, Num w r ins x.val a → Num w r ins y.val b →
      Val w' r ins g (decide (¬ 2 ^ (n - 1) ≤ (a + (2 ^ n - b)) % 2 ^ n))) := by
  obtain ⟨c, h⟩ := int_session hm.reachable hm.made hm.since
  subst hx
  have key : ∀ {a b : List Bool}, a.length = n → b.length = n →
      lessF n a b = decide (2 ^ (n - 1) ≤ (bitsVal a + (2 ^ n - bitsVal b)) % 2 ^ n) ∧
      (a == b) = decide (bitsVal a = bitsVal b) := by
    intro a b la lb
    refine ⟨lessF_eq h.pos a b, ?_⟩
    rw [Bool.beq_eq_decide_eq]
    apply decide_eq_decide.mpr
    refine ⟨fun e => by rw [e], fun e => ?_⟩
    rw [← bitsOf_bitsVal (n := n) (bs := a) (by omega), e, bitsOf_bitsVal (by omega)]
  refine ⟨?_, ?_, ?_, ?_⟩
  · refine RunsW.gives (RunsW.compare h.wf h.circ h.lt h.ok.less h.cref lx ly) ?_
    intro g w' h1
    rintro ins _ _ ⟨a, ha, rfl⟩ ⟨b, hb, rfl⟩
    have := h1 ins a b (denotes_iff.mp ha) (denotes_iff.mp hb)
    have la := ha.1
    have lb := hb.1
    obtain ⟨k1, k2⟩ := key (a := a) (b := b) (by omega) (by omega)
    rw [k1] at this
    exact this
  · refine RunsW.gives (RunsW.compare h.wf h.circ h.lt h.ok.lessOrEq h.cref lx ly) ?_
    intro g w' h1
    rintro ins _ _ ⟨a, ha, rfl⟩ ⟨b, hb, rfl⟩
    have := h1 ins a b (denotes_iff.mp ha) (denotes_iff.mp hb)
    have la := ha.1
    have lb := hb.1
    obtain ⟨k1, k2⟩ := key (a := a) (b := b) (by omega) (by omega)
    rw [k1, k2, ← Bool.decide_or] at this
    exact this
  · refine RunsW.gives (RunsW.compare h.wf h.circ h.lt h.ok.larger h.cref lx ly) ?_
    intro g w' h1
    rintro ins _ _ ⟨a, ha, rfl⟩ ⟨b, hb, rfl⟩
    have := h1 ins a b (denotes_iff.mp ha) (denotes_iff.mp hb)
    have la := ha.1
    have lb := hb.1
    obtain ⟨k1, k2⟩ := key (a := a) (b := b) (by omega) (by omega)
    rw [k1, k2, ← Bool.decide_or, ← decide_not] at this
    exact this
  · refine RunsW.gives (RunsW.compare h.wf h.circ h.lt h.ok.largerOrEq h.cref lx ly) ?_
    intro g w' h1
    rintro ins _ _ ⟨a, ha, rfl⟩ ⟨b, hb, rfl⟩
    have := h1 ins a b (denotes_iff.mp ha) (denotes_iff.mp hb)
    have la := ha.1
    have lb := hb.1
    obtain ⟨k1, k2⟩ := key (a := a) (b := b) (by omega) (by omega)
    rw [k1, ← decide_not] at this
    exact this

example : ∃ w, ∃ x y : AInt, Gives 0 w (x.less y 4) fun z w' => Val w' 0 (bitsOf 4 3 ++ bitsOf 4 5) z true := by
  obtain ⟨cfg, w1, w, x, y, hm, hx, hy, lx, ly, hv⟩ := demo_int (n := 4) (by decide)
  obtain ⟨⟨z, w', e1, e2, h⟩, _⟩ := C29_exact hm hx lx ly
  exact ⟨w, x, y, z, w', e1, e2, h _ _ _ (hv 3 5 (by decide) (by decide)).1 (hv 3 5 (by decide) (by decide)).2⟩

/-- the two operands are so close that their difference is again an `n`-bit two's-complement number -/
def Close (n : Nat) (a b : Int) : Prop := -2 ^ (n - 1) ≤ a - b ∧ a - b < 2 ^ (n - 1)

/-- C29, under the additional condition that the difference of the two values does not overflow: the comparisons decide
the order of the two's-complement values. Without the condition the claim is false, see `C29_false`. -/
theorem C29_order_partial (hm : Made (IntConfig.new r n) cfg w0 w1 w) {x y : AInt} (hx : x.config = cfg)
    (lx : x.val.length = n) (ly : y.val.length = n) :
    (Gives r w (x.less y n) fun g w' => ∀ ins a b, SNum w r ins x.val a → SNum w r ins y.val b → Close n a b →
      Val w' r ins g (decide (a < b))) ∧
    (Gives r w (x.lessOrEq y n) fun g w' => ∀ ins a b, SNum w r ins x.val a → SNum w r ins y.val b → Close n a b →
      Val w' r ins g (decide (a ≤ b))) ∧
    (Gives r w (x.larger y n) fun g w' => ∀ ins a b, SNum w r ins x.val a → SNum w r ins y.val b → Close n a b →
      Val w' r ins g (decide (a > b))) ∧
    (Gives r w (x.largerOrEq y n) fun g w' => ∀ ins a b, SNum w r ins x.val a → SNum w r ins y.val b → Close n a b →
      Val w' r ins g (decide (a ≥ b))) := by
  obtain ⟨c, h⟩ := int_session hm.reachable hm.made hm.since
  subst hx
  have key : ∀ {a b : List Bool}, a.length = n → b.length = n → Close n (signedVal a) (signedVal b) →
      lessF n a b = decide (signedVal a < signedVal b) ∧ (a == b) = decide (signedVal a = signedVal b) := by
    intro a b la lb hcl
    refine ⟨less_signed h.pos la lb hcl.1 hcl.2, ?_⟩
    rw [Bool.beq_eq_decide_eq]
    apply decide_eq_decide.mpr
    refine ⟨fun e => by rw [e], fun e => ?_⟩
    rw [signedVal_eq h.pos la, signedVal_eq h.pos lb] at e
    have h1 := bitsVal_lt a
    have h2 := bitsVal_lt b
    rw [la] at h1
    rw [lb] at h2
    have ei : (2 : Int) ^ n = ((2 ^ n : Nat) : Int) := by push_cast; rfl
    rw [ei] at e
    have : bitsVal a = bitsVal b := by split at e <;> split at e <;> omega
    rw [← bitsOf_bitsVal (n := n) (bs := a) (by omega), this, bitsOf_bitsVal (by omega)]
  refine ⟨?_, ?_, ?_, ?_⟩
  · refine RunsW.gives (RunsW.compare h.wf h.circ h.lt h.ok.less h.cref lx ly) ?_
    intro g w' h1
    rintro ins _ _ ⟨a, ha, rfl⟩ ⟨b, hb, rfl⟩ hcl
    have := h1 ins a b (denotes_iff.mp ha) (denotes_iff.mp hb)
    have la := ha.1
    have lb := hb.1
    obtain ⟨k1, k2⟩ := key (a := a) (b := b) (by omega) (by omega) hcl
    rw [k1] at this
    exact this
  · refine RunsW.gives (RunsW.compare h.wf h.circ h.lt h.ok.lessOrEq h.cref lx ly) ?_
    intro g w' h1
    rintro ins _ _ ⟨a, ha, rfl⟩ ⟨b, hb, rfl⟩ hcl
    have := h1 ins a b (denotes_iff.mp ha) (denotes_iff.mp hb)
    have la := ha.1
    have lb := hb.1
    obtain ⟨k1, k2⟩ := key (a := a) (b := b) (by omega) (by omega) hcl
    rw [k1, k2, ← Bool.decide_or, show decide (signedVal a < signedVal b ∨ signedVal a = signedVal b) =
      decide (signedVal a ≤ signedVal b) from decide_eq_decide.mpr (by omega)] at this
    exact this
  · refine RunsW.gives (RunsW.compare h.wf h.circ h.lt h.ok.larger h.cref lx ly) ?_
    intro g w' h1
    rintro ins _ _ ⟨a, ha, rfl⟩ ⟨b, hb, rfl⟩ hcl
    have := h1 ins a b (denotes_iff.mp ha) (denotes_iff.mp hb)
    have la := ha.1
    have lb := hb.1
    obtain ⟨k1, k2⟩ := key (a := a) (b := b) (by omega) (by omega) hcl
    rw [k1, k2, ← Bool.decide_or, ← decide_not, show decide (¬ (signedVal a < signedVal b ∨ signedVal a = signedVal b)) =
      decide (signedVal a > signedVal b) from decide_eq_decide.mpr (by omega)] at this
    exact this
  · refine RunsW.gives (RunsW.compare h.wf h.circ h.lt h.ok.largerOrEq h.cref lx ly) ?_
    intro g w' h1
    rintro ins _ _ ⟨a, ha, rfl⟩ ⟨b, hb, rfl⟩ hcl
    have := h1 ins a b (denotes_iff.mp ha) (denotes_iff.mp hb)
    have la := ha.1
    have lb := hb.1
    obtain ⟨k1, k2⟩ := key (a := a) (b := b) (by omega) (by omega) hcl
    rw [k1, ← decide_not, show decide (¬ signedVal a < signedVal b) =
      decide (signedVal a ≥ signedVal b) from decide_eq_decide.mpr (by omega)] at this
    exact this

/-- `-3 < 2` in four bits -/
example : ∃ w, ∃ x y : AInt, Gives 0 w (x.less y 4) fun z w' => Val w' 0 (bitsOf 4 13 ++ bitsOf 4 2) z true := by
  obtain ⟨cfg, w1, w, x, y, hm, hx, hy, lx, ly, hv⟩ := demo_int (n := 4) (by decide)
  obtain ⟨⟨z, w', e1, e2, h⟩, _⟩ := C29_order_partial hm hx lx ly
  refine ⟨w, x, y, z, w', e1, e2, h _ (-3) 2 ?_ ?_ ⟨by decide, by decide⟩⟩
  · exact num_signed (by decide) lx (hv 13 2 (by decide) (by decide)).1
  · exact num_signed (by decide) ly (hv 13 2 (by decide) (by decide)).2

/-- C29 is false as stated: for every width `≥ 2`, when `x` holds the smallest number `-2^(n-1)` and `y` holds 1, `less`
returns false and `larger` returns true. -/
theorem C29_false (hm : Made (IntConfig.new r n) cfg w0 w1 w) (hn : 2 ≤ n) {x y : AInt} (hx : x.config = cfg)
    (lx : x.val.length = n) (ly : y.val.length = n) {ins : List Bool}
    (hxv : SNum w r ins x.val (-2 ^ (n - 1))) (hyv : SNum w r ins y.val 1) :
    (Gives r w (x.less y n) fun g w' => Val w' r ins g false) ∧
    (Gives r w (x.larger y n) fun g w' => Val w' r ins g true) := by
  obtain ⟨h1, _, h3, _⟩ := C29_exact hm hx lx ly
  obtain ⟨a, ha, hav⟩ := hxv
  obtain ⟨b, hb, hbv⟩ := hyv
  have la := ha.1
  have lb := hb.1
  have hA := bitsVal_lt a
  have hB := bitsVal_lt b
  have e := two_pow_pred (show 1 ≤ n by omega)
  have e2 := two_pow_pred (show 1 ≤ n - 1 by omega)
  have ei : (2 : Int) ^ n = ((2 ^ n : Nat) : Int) := by push_cast; rfl
  have ei' : (2 : Int) ^ (n - 1) = ((2 ^ (n - 1) : Nat) : Int) := by push_cast; rfl
  rw [signedVal_eq (by omega) (show a.length = n by omega)] at hav
  rw [signedVal_eq (by omega) (show b.length = n by omega)] at hbv
  rw [ei, ei'] at hav
  rw [ei] at hbv
  rw [← la, lx] at hA
  rw [← lb, ly] at hB
  have hpos := Nat.two_pow_pos (n - 1 - 1)
  have va : bitsVal a = 2 ^ (n - 1) := by split at hav <;> omega
  have vb : bitsVal b = 1 := by split at hbv <;> omega
  have hno : ¬ 2 ^ (n - 1) ≤ (2 ^ (n - 1) + (2 ^ n - 1)) % 2 ^ n := by
    rw [Nat.mod_eq_sub_mod (by omega), Nat.mod_eq_of_lt (by omega)]; omega
  constructor
  · obtain ⟨g, w', k1, k2, k3⟩ := h1
    refine ⟨g, w', k1, k2, ?_⟩
    have := k3 ins _ _ ⟨a, ha, va⟩ ⟨b, hb, vb⟩
    rw [decide_eq_false hno] at this
    exact this
  · obtain ⟨g, w', k1, k2, k3⟩ := h3
    refine ⟨g, w', k1, k2, ?_⟩
    have := k3 ins _ _ ⟨a, ha, va⟩ ⟨b, hb, vb⟩
    rw [decide_eq_true (show ¬ (2 ^ (n - 1) ≤ (2 ^ (n - 1) + (2 ^ n - 1)) % 2 ^ n ∨ 2 ^ (n - 1) = 1) by omega)] at this
    exact this

/-- `-8 < 1` in four bits is reported false -/
example : ∃ w, ∃ x y : AInt, Gives 0 w (x.less y 4) fun z w' => Val w' 0 (bitsOf 4 8 ++ bitsOf 4 1) z false := by
  obtain ⟨cfg, w1, w, x, y, hm, hx, hy, lx, ly, hv⟩ := demo_int (n := 4) (by decide)
  refine ⟨w, x, y, (C29_false hm (by decide) hx lx ly ?_ ?_).1⟩
  · exact num_signed (by decide) lx (hv 8 1 (by decide) (by decide)).1
  · exact num_signed (by decide) ly (hv 8 1 (by decide) (by decide)).2

end

/-! ### shifts and constants: only need an existing circuit -/

section
variable {w : World} {n : Nat} {c : Circuit}

/-- C30: `shift_left(k)` for `k ≤ n` -/
theorem C30_shl (h : Reachable w) {x : AInt} (hc : w.circs[x.config.cref]? = some c) {k : Nat} (hk : k ≤ n)
    (hl : x.val.length = n) :
    Gives x.config.cref w (x.shiftLeft n k) fun z w' => z.config = x.config ∧ z.val.length = n ∧
      ∀ ins a, Num w x.config.cref ins x.val a → Num w' x.config.cref ins z.val (a * 2 ^ k % 2 ^ n) := by
  refine RunsW.gives (RunsW.shl (WFw.of_reachable h) hc hk hl) ?_
  rintro z w' ⟨h1, h2, h3⟩
  refine ⟨h1, h2, ?_⟩
  rintro ins _ ⟨a, ha, rfl⟩
  have la := ha.1
  exact ⟨_, denotes_iff.mpr (h3 ins a (denotes_iff.mp ha)), shl_val hk (by omega)⟩

example : ∃ w, ∃ x : AInt, Gives 0 w (x.shiftLeft 4 2) fun z w' => Num w' 0 (bitsOf 4 7 ++ bitsOf 4 0) z.val 12 := by
  obtain ⟨cfg, w1, w, x, y, hm, hx, hy, lx, ly, hv⟩ := demo_int (n := 4) (by decide)
  obtain ⟨c, h⟩ := int_session hm.reachable hm.made hm.since
  obtain rfl := hx
  have hr : Reachable w := later_reachable (later_reachable hm.reachable (by
    have := plays_intConfig 0 4 start; rw [hm.made] at this; exact this)) hm.since.later
  obtain ⟨z, w', e1, e2, _, _, k⟩ := C30_shl (k := 2) hr (by rw [h.cref]; exact h.circ) (by decide) lx
  rw [h.cref] at e2 k
  exact ⟨w, x, z, w', e1, e2, k _ _ (hv 7 0 (by decide) (by decide)).1⟩

/-- C30: `shift_right(k)` for `k ≤ n` changes nothing in the heap and returns the floor of the signed value divided by
`2^k` -/
theorem C30_shr (w : World) {x : AInt} {k : Nat} (hn : 1 ≤ n) (hk : k ≤ n) (hl : x.val.length = n) :
    ∃ z, x.shiftRight n k w = (.ok z, w) ∧ z.config = x.config ∧ z.val.length = n ∧
      ∀ ins a, SNum w x.config.cref ins x.val a → SNum w x.config.cref ins z.val (a.fdiv (2 ^ k)) := by
  obtain ⟨sg, h1, h2⟩ := shr_ok w hn hk hl
  refine ⟨_, h2, rfl, by simp; omega, ?_⟩
  rintro ins _ ⟨a, ha, rfl⟩
  have la := ha.1
  have hv := denotes_iff.mp ha
  obtain ⟨g, b, e1, e2, e3⟩ := hv.get (i := n - 1) (by omega)
  rw [h1] at e1; cases e1
  refine ⟨a.drop k ++ List.replicate k b, denotes_iff.mpr ((hv.drop k).append (all2_iff.mpr ⟨by simp, ?_⟩)), ?_⟩
  · intro i g' b' hg hb
    rw [List.getElem?_replicate] at hg hb
    split at hg
    · rw [if_pos ‹_›] at hb; cases hg; cases hb; exact e3
    · cases hg
  · rw [shr_signed hn hk (by omega) e2, Int.fdiv_eq_ediv_of_nonneg]
    exact Int.pow_nonneg (by omega)

/-- `-5` shifted right by one is `-3` -/
example : ∃ w, ∃ x z : AInt, x.shiftRight 4 1 w = (.ok z, w) ∧ SNum w 0 (bitsOf 4 11 ++ bitsOf 4 0) x.val (-5) ∧
    SNum w 0 (bitsOf 4 11 ++ bitsOf 4 0) z.val (-3) := by
  obtain ⟨cfg, w1, w, x, y, hm, hx, hy, lx, ly, hv⟩ := demo_int (n := 4) (by decide)
  obtain ⟨c, h⟩ := int_session hm.reachable hm.made hm.since
  obtain rfl := hx
  obtain ⟨z, e1, _, _, k⟩ := C30_shr (n := 4) (k := 1) w (by decide) (by decide) lx
  rw [h.cref] at k
  have hs := num_signed (by decide) lx (hv 11 0 (by decide) (by decide)).1
  exact ⟨w, x, z, e1, hs, k _ _ hs⟩

/-- C30: shifting by more than the width: `shift_right` panics, and `shift_left` returns `k` zeros, so more than `n`
gates -/
theorem C30_too_far (h : Reachable w) {x : AInt} (hc : w.circs[x.config.cref]? = some c) {k : Nat} (hk : n < k)
    (hn : 1 ≤ n) (hl : x.val.length = n) :
    x.shiftRight n k w = (.error (.panic .underflow), w) ∧
    Gives x.config.cref w (x.shiftLeft n k) fun z w' => z.val.length = k ∧
      ∀ ins, Num w' x.config.cref ins z.val 0 := by
  constructor
  · unfold AInt.shiftRight
    rw [if_neg (by omega)]
    have hi : M.idx x.val (n - 1) w = (.ok (x.val[n - 1]'(by omega)), w) := by
      unfold M.idx
      rw [List.getElem?_eq_getElem (by omega)]; rfl
    rw [bind_ok hi]
    simp only []
    rw [if_pos hk]; rfl
  · refine RunsW.gives (Q := fun z w' => z.val.length = k ∧ ∀ ins, All2 (Val w' x.config.cref ins) z.val
      (List.replicate k false)) ?_ ?_
    · unfold AInt.shiftLeft
      refine RunsW.seq (RunsW.consts (WFw.of_reachable h) hc false k) ?_
      rintro zs w1 g1 ⟨h1, h2⟩
      have e : rangeFromTo k n = [] := by simp [rangeFromTo]; omega
      rw [e]
      refine RunsW.seq (P := fun a w' => a = [] ∧ w' = w1) (RunsW.pure g1.wf ⟨rfl, rfl⟩) ?_
      rintro _ _ _ ⟨rfl, rfl⟩
      exact RunsW.pure g1.wf ⟨by simp [h1], by simpa using h2⟩
    · rintro z w' ⟨h1, h2⟩
      exact ⟨h1, fun ins => ⟨_, denotes_iff.mpr (h2 ins), bitsVal_replicate_false k⟩⟩

example : Reachable (run [.newStorage, .newCircuit 0, .input 0, .input 0]) ∧ ∃ x : AInt, x.val.length = 2 ∧
    ((x.shiftLeft 2 3 (run [.newStorage, .newCircuit 0, .input 0, .input 0])).1.toOption.map (·.val.length)) = some 3 :=
  ⟨run_reachable _, ⟨[0, 1], ⟨0, 0, 0, 0, 0, 0, 0, 0, 0, 0⟩⟩, rfl, rfl⟩

/-- C31: `from_biguint(v)` when the bytes of `v` fit -/
theorem C31_fromBiguint (h : Reachable w) {cfg : IntConfig} (hc : w.circs[cfg.cref]? = some c) {v k : Nat}
    (hk : 1 ≤ k) (hv : v < 256 ^ k) (hn : 8 * k ≤ n) :
    Gives cfg.cref w (AInt.fromBiguint cfg n v) fun x w' => x.config = cfg ∧ x.val.length = n ∧
      ∀ ins, Num w' cfg.cref ins x.val v := by
  have hlen := (bytesLe_len v k hk).mpr hv
  have hbl := (C41_lengths (AInt.bytesLe v)).1
  have hval : bitsVal (Utils.bytes2bitsLe (AInt.bytesLe v)) = v := by
    rw [C42_le_value _ (bytesLe_lt v), bytesLe_val]
  refine RunsW.gives (Q := fun x w' => x.config = cfg ∧ x.val.length = n ∧ ∀ ins, All2 (Val w' cfg.cref ins) x.val
    (Utils.bytes2bitsLe (AInt.bytesLe v) ++ List.replicate (n - (Utils.bytes2bitsLe (AInt.bytesLe v)).length) false)) ?_ ?_
  · unfold AInt.fromBiguint
    simp only []
    rw [if_pos (by omega)]
    refine RunsW.seq (RunsW.constList (WFw.of_reachable h) hc _) ?_
    rintro gs w1 g1 ⟨h1, h2⟩
    obtain ⟨c1, hc1, _⟩ := g1.at hc
    refine RunsW.seq (RunsW.consts g1.wf hc1 false _) ?_
    rintro zs w2 g2 ⟨k1, k2⟩
    refine RunsW.pure g2.wf ⟨rfl, by simp [h1, k1]; omega, fun ins => ?_⟩
    exact (g2.vals (h2 ins)).append (k2 ins)
  · rintro x w' ⟨h1, h2, h3⟩
    refine ⟨h1, h2, fun ins => ⟨_, denotes_iff.mpr (h3 ins), ?_⟩⟩
    rw [bitsVal_app, bitsVal_replicate_false, hval]; omega

example (cfg : IntConfig) (h : cfg.cref = 0) : Gives cfg.cref start (AInt.fromBiguint cfg 20 1000) fun x w' =>
    x.config = cfg ∧ x.val.length = 20 ∧ ∀ ins, Num w' cfg.cref ins x.val 1000 :=
  C31_fromBiguint start_reachable (k := 2) (by rw [h]; rfl) (by decide) (by decide) (by decide)

/-- C31: `from_biguint(v)` when the bytes of `v` do not fit -/
theorem C31_fromBiguint_panic (w : World) (cfg : IntConfig) {v : Nat}
    (hv : ∀ k, 1 ≤ k → v < 256 ^ k → n < 8 * k) :
    AInt.fromBiguint cfg n v w = (.error (.panic .assertFailed), w) := by
  have hbl := (C41_lengths (AInt.bytesLe v)).1
  have hpos : 1 ≤ (AInt.bytesLe v).length := by
    apply Nat.le_of_not_lt
    intro hlt
    have h0 : AInt.bytesLe v = [] := List.length_eq_zero_iff.mp (by omega)
    unfold AInt.bytesLe at h0
    split at h0
    · cases h0
    · next hne =>
      cases v with
      | zero => exact hne rfl
      | succ v => simp [AInt.bytesLeAux] at h0
  have := hv _ hpos ((bytesLe_len v _ hpos).mp (Nat.le_refl _))
  unfold AInt.fromBiguint
  show (if _ then _ else _ : M AInt) w = _
  rw [if_neg (by omega)]; rfl

/-- `5` fits in 7 bits, but its byte does not -/
example (cfg : IntConfig) : AInt.fromBiguint cfg 7 5 start = (.error (.panic .assertFailed), start) :=
  C31_fromBiguint_panic start cfg (by intro k h _; omega)

/-- C31: `from_gate_ids` zero-extends -/
theorem C31_fromGateIds (h : Reachable w) {cfg : IntConfig} (hc : w.circs[cfg.cref]? = some c) {ids : List GateId}
    (hl : ids.length ≤ n) :
    Gives cfg.cref w (AInt.fromGateIds cfg n ids) fun x w' => x.config = cfg ∧ x.val.length = n ∧
      ids <+: x.val ∧ ∀ ins a, Num w cfg.cref ins ids a → Num w' cfg.cref ins x.val a := by
  obtain ⟨x, w', k1, k2, k3, k4, k5⟩ := RunsW.fromGateIds (WFw.of_reachable h) hc hl
  refine ⟨x, w', k1, k2.extends, k3, k4, ?_, ?_⟩
  · unfold AInt.fromGateIds at k1
    rw [if_pos hl] at k1
    obtain ⟨pad, w2, e1, _, _⟩ := RunsW.consts (WFw.of_reachable h) hc false (n - ids.length)
    rw [bind_ok e1] at k1
    cases k1
    exact ⟨pad, rfl⟩
  · rintro ins _ ⟨a, ha, rfl⟩
    refine ⟨_, denotes_iff.mpr (k5 ins a (denotes_iff.mp ha)), ?_⟩
    rw [bitsVal_app, bitsVal_replicate_false]; omega

example (cfg : IntConfig) (h : cfg.cref = 0) : Gives cfg.cref (run [.newStorage, .newCircuit 0, .input 0])
    (AInt.fromGateIds cfg 3 [0]) fun x w' => x.config = cfg ∧ x.val.length = 3 ∧ [0] <+: x.val ∧
      ∀ ins a, Num (run [.newStorage, .newCircuit 0, .input 0]) cfg.cref ins [0] a → Num w' cfg.cref ins x.val a :=
  C31_fromGateIds (run_reachable _) (by rw [h]; rfl) (by decide)

/-- C31: `from_gate_ids` with too many gates -/
theorem C31_fromGateIds_panic (w : World) (cfg : IntConfig) {ids : List GateId} (hl : n < ids.length) :
    AInt.fromGateIds cfg n ids w = (.error (.panic .assertFailed), w) := by
  unfold AInt.fromGateIds
  rw [if_neg (by omega)]; rfl

example (cfg : IntConfig) : AInt.fromGateIds cfg 1 [0, 1] start = (.error (.panic .assertFailed), start) :=
  C31_fromGateIds_panic start cfg (by decide)

/-- C31: `zero` -/
theorem C31_zero (h : Reachable w) {cfg : IntConfig} (hc : w.circs[cfg.cref]? = some c) :
    Gives cfg.cref w (AInt.zero cfg n) fun x w' => x.config = cfg ∧ x.val.length = n ∧
      ∀ ins, Num w' cfg.cref ins x.val 0 := by
  obtain ⟨x, w', k1, k2, k3, k4, _, k5⟩ := C31_fromGateIds h hc (ids := []) (n := n) (Nat.zero_le _)
  exact ⟨x, w', k1, k2, k3, k4, fun ins => k5 ins 0 ⟨[], ⟨rfl, by simp⟩, rfl⟩⟩

example (cfg : IntConfig) (h : cfg.cref = 0) : Gives cfg.cref start (AInt.zero cfg 5) fun x w' =>
    x.config = cfg ∧ x.val.length = 5 ∧ ∀ ins, Num w' cfg.cref ins x.val 0 :=
  C31_zero start_reachable (by rw [h]; rfl)

/-- C31: `one` -/
theorem C31_one (h : Reachable w) {cfg : IntConfig} (hc : w.circs[cfg.cref]? = some c) (hn : 1 ≤ n) :
    Gives cfg.cref w (AInt.one cfg n) fun x w' => x.config = cfg ∧ x.val.length = n ∧
      ∀ ins, Num w' cfg.cref ins x.val 1 := by
  refine RunsW.gives (Q := fun x w' => x.config = cfg ∧ x.val.length = n ∧ ∀ ins, All2 (Val w' cfg.cref ins) x.val
    ([true] ++ List.replicate (n - 1) false)) ?_ ?_
  · unfold AInt.one
    refine RunsW.seq (RunsW.constant (WFw.of_reachable h) hc true) ?_
    intro t w1 g1 h1
    obtain ⟨c1, hc1, _⟩ := g1.at hc
    refine (RunsW.fromGateIds g1.wf hc1 (ids := [t]) (by simpa using hn)).mono ?_
    rintro x w2 g2 ⟨k1, k2, k3⟩
    exact ⟨k1, k2, fun ins => k3 ins [true] ⟨h1 ins, trivial⟩⟩
  · rintro x w' ⟨h1, h2, h3⟩
    refine ⟨h1, h2, fun ins => ⟨_, denotes_iff.mpr (h3 ins), ?_⟩⟩
    rw [bitsVal_app, bitsVal_replicate_false]; rfl

example (cfg : IntConfig) (h : cfg.cref = 0) : Gives cfg.cref start (AInt.one cfg 5) fun x w' =>
    x.config = cfg ∧ x.val.length = 5 ∧ ∀ ins, Num w' cfg.cref ins x.val 1 :=
  C31_one start_reachable (by rw [h]; rfl) (by decide)

/-! ### runs -/

/-- a two-operand program: configuration, two inputs, one operation, outputs -/
def intProgram (n : Nat) (f : AInt → AInt → M AInt) : M Unit := do
  let cfg ← IntConfig.new 0 n
  let x ← AInt.new cfg n
  let y ← AInt.new cfg n
  let z ← f x y
  z.output n

/-- its evaluation by the model of `NXAOBoolEvaluator` -/
def intRun (n : Nat) (f : AInt → AInt → M AInt) (a b : Nat) : Except Err (List Bool) :=
  evalOutput (intProgram n f start).2 100 0 (bitsOf n a ++ bitsOf n b)

set_option maxRecDepth 100000 in
example : intRun 3 AInt.add 5 6 = .ok (bitsOf 3 3) ∧ intRun 3 AInt.sub 5 6 = .ok (bitsOf 3 7) ∧
    intRun 3 AInt.mul 5 6 = .ok (bitsOf 3 6) := by decide +kernel

end

end CC.Props
