import Verif.Proofs.CostC
import Verif.Proofs.Same
import Verif.Props.Fp
import Verif.Props.Logic

/-!
# C65: how many gates the operations cost

As in `Props/Int.lean`: `w0` is an arbitrary reachable heap, `w1` the heap after creating the configuration, `w` any heap reached
from there by calls that leave the module circuits alone. `Added r w w' k`: the call only changed circuit `r`, which got `k.gates`
gates, `k.consts` constants, `k.ins` inputs and `k.outs` outputs more.
-/

namespace CC.Props
open CC Spec Arith Logic Fp

/-- C65: every wire is an input, a constant or the result of a gate, those of called circuits included. -/
theorem C65_wires {w : World} (h : Reachable w) {r : Ref} {c : Circuit} (hc : w.circs[r]? = some c) :
    c.numWire = c.inputLen + c.numGate + c.numConst := by
  have : c.numWire = c.inputLen + c.numConst + c.numGate := (wireSum_inv.reachable h).get hc
  omega

example : (demoRun.1.circs[0]?).map (fun c => (c.numWire, c.inputLen, c.numGate, c.numConst)) = some (12, 3, 8, 1) := rfl

/-- C65: the size of a circuit determines how many wires a call adds. -/
theorem C65_added {w w' : World} {r : Ref} {k : Cost} (h : Reachable w) (h' : Reachable w') (ha : Added r w w' k) :
    ∃ c c', w.circs[r]? = some c ∧ w'.circs[r]? = some c' ∧ c'.numGate = c.numGate + k.gates ∧ c'.numConst = c.numConst + k.consts ∧
      c'.inputLen = c.inputLen + k.ins ∧ c'.outputLen = c.outputLen + k.outs ∧
      c'.numWire = c.numWire + (k.ins + k.gates + k.consts) ∧ ∀ q, q ≠ r → w'.circs[q]? = w.circs[q]? := by
  obtain ⟨c, c', h1, rfl, _, h4⟩ := ha
  have k1 := C65_wires h h1
  have k2 := C65_wires h' (setC_get h1 c')
  obtain ⟨g1, g2, g3, g4⟩ := Cost.ext_iff.mp h4
  simp only [counts, cost_add_gates, cost_add_consts, cost_add_ins, cost_add_outs] at g1 g2 g3 g4
  exact ⟨c, c', h1, setC_get h1 c', g1, g2, g3, g4, by omega, fun q hq => setC_get_ne _ hq⟩

example : Added 0 start (AInt.new ⟨0, 0, 0, 0, 0, 0, 0, 0, 0, 0⟩ 2 start).2 ⟨0, 0, 2, 0⟩ ∧ Reachable start :=
  ⟨⟨_, _, rfl, rfl, rfl, rfl⟩, start_reachable⟩

/-! ### integers -/

section
variable {w0 w1 w w' : World} {r : Ref} {n : Nat} {cfg : IntConfig}

theorem int_cost {α : Type} {x : M α} {a : α} {Q : α → Cost → Prop} (hm : Made (IntConfig.new r n) cfg w0 w1 w)
    (hsp : ∀ E lo, cfg.cref = r → IntEnv E n cfg → Spends E lo r x Q) (hx : x w = (.ok a, w')) : ∃ k, Added r w w' k ∧ Q a k := by
  obtain ⟨c, hc⟩ := intConfig_circ hm.made
  exact made_spends hm (plays_intConfig r n) (lt_of_getElem? hc) (fun lo => makes_int (intConfig_pos hm.made))
    (fun E lo h => hsp E lo h.1 h.2) hx

theorem int_cost1 {α : Type} {x : M α} {a : α} {k : Cost} (hm : Made (IntConfig.new r n) cfg w0 w1 w)
    (hsp : ∀ E lo, cfg.cref = r → IntEnv E n cfg → Spends E lo r x fun _ k' => k' = k) (hx : x w = (.ok a, w')) : Added r w w' k := by
  obtain ⟨k', h1, rfl⟩ := int_cost hm hsp hx
  exact h1

/-- for the examples: the counters added by an operation on two new values of width `n` in a new circuit -/
def spent (n : Nat) {α : Type} (f : AInt → AInt → M α) : Option (Nat × Nat × Nat × Nat) :=
  match (do
      let cfg ← IntConfig.new 0 n
      let x ← AInt.new cfg n
      let y ← AInt.new cfg n
      pure (x, y) : M (AInt × AInt)) start with
  | (.ok (x, y), w) =>
    match f x y w with
    | (.ok _, w') =>
      match w.circs[0]?, w'.circs[0]? with
      | some c, some d => some (d.numGate - c.numGate, d.numConst - c.numConst, d.inputLen - c.inputLen, d.outputLen - c.outputLen)
      | _, _ => none
    | _ => none
  | _ => none

/-- C65: an addition costs `6n - 3` gates. -/
theorem C65_add (hm : Made (IntConfig.new r n) cfg w0 w1 w) {x y z : AInt} (hx : x.config = cfg)
    (hr : x.add y w = (.ok z, w')) : Added r w w' ⟨6 * n - 3, 0, 0, 0⟩ :=
  int_cost1 hm (fun _ _ hc h => hc ▸ Spends.aadd h hx fun _ _ _ => rfl) hr

example : spent 4 (fun x y => x.add y) = some (21, 0, 0, 0) := by decide +kernel

example : ∃ w w', ∃ x y z : AInt, x.add y w = (.ok z, w') ∧ Added 0 w w' ⟨381, 0, 0, 0⟩ := by
  obtain ⟨cfg, w1, w, x, y, hm, hx, hy, lx, ly, hv⟩ := demo_int (n := 64) (by decide)
  obtain ⟨z, w', e1, _⟩ := C24_add hm hx lx ly
  exact ⟨w, w', x, y, z, e1, C65_add hm hx e1⟩

/-- C65: a subtraction costs `13n - 6` gates and `n` constants, a negation `n` constants more. -/
theorem C65_sub (hm : Made (IntConfig.new r n) cfg w0 w1 w) {x y z : AInt} (hx : x.config = cfg)
    (hr : x.sub y w = (.ok z, w')) : Added r w w' ⟨13 * n - 6, n, 0, 0⟩ :=
  int_cost1 hm (fun _ _ hc h => hc ▸ Spends.asub h hx fun _ _ _ => rfl) hr

example : spent 4 (fun x y => x.sub y) = some (46, 4, 0, 0) := by decide +kernel

theorem C65_neg (hm : Made (IntConfig.new r n) cfg w0 w1 w) {x z : AInt} (hx : x.config = cfg)
    (hr : x.neg n w = (.ok z, w')) : Added r w w' ⟨13 * n - 6, 2 * n, 0, 0⟩ := by
  refine int_cost1 hm (fun _ _ hc h => hc ▸ Spends.aneg h hx fun _ _ _ => ?_) hr
  ext <;> simp [subCost, Cost.call]
  omega

example : spent 4 (fun x _ => x.neg 4) = some (46, 8, 0, 0) := by decide +kernel

/-- C65: a multiplication costs `n(n+1)/2 + n(6n-3)` gates and `n + n(n-1)/2` constants. -/
theorem C65_mul (hm : Made (IntConfig.new r n) cfg w0 w1 w) {x y z : AInt} (hx : x.config = cfg)
    (hr : x.mul y w = (.ok z, w')) : Added r w w' ⟨n * (n + 1) / 2 + n * (6 * n - 3), n + n * (n - 1) / 2, 0, 0⟩ :=
  int_cost1 hm (fun _ _ hc h => hc ▸ Spends.amul h hx fun _ _ _ => rfl) hr

example : spent 4 (fun x y => x.mul y) = some (94, 10, 0, 0) := by decide +kernel

/-- C65: the six comparisons. -/
theorem C65_compare (hm : Made (IntConfig.new r n) cfg w0 w1 w) {x y : AInt} (hx : x.config = cfg) {g : GateId} :
    (x.eq y n w = (.ok g, w') → Added r w w' ⟨3 * n, 1, 0, 0⟩) ∧
    (x.neq y n w = (.ok g, w') → Added r w w' ⟨3 * n + 1, 1, 0, 0⟩) ∧
    (x.less y n w = (.ok g, w') → Added r w w' ⟨13 * n - 4, n + 1, 0, 0⟩) ∧
    (x.lessOrEq y n w = (.ok g, w') → Added r w w' ⟨16 * n - 3, n + 2, 0, 0⟩) ∧
    (x.larger y n w = (.ok g, w') → Added r w w' ⟨16 * n - 2, n + 2, 0, 0⟩) ∧
    (x.largerOrEq y n w = (.ok g, w') → Added r w w' ⟨13 * n - 3, n + 1, 0, 0⟩) := by
  subst hx
  refine ⟨fun hr => ?_, fun hr => ?_, fun hr => ?_, fun hr => ?_, fun hr => ?_, fun hr => ?_⟩
  · exact int_cost1 hm (fun _ _ hc h => hc ▸ Spends.acompare h.eq rfl fun _ => rfl) hr
  · exact int_cost1 hm (fun _ _ hc h => hc ▸ Spends.acompare h.neq rfl fun _ => rfl) hr
  · exact int_cost1 hm (fun _ _ hc h => hc ▸ Spends.acompare h.less rfl fun _ => rfl) hr
  · exact int_cost1 hm (fun _ _ hc h => hc ▸ Spends.acompare h.lessOrEq rfl fun _ => rfl) hr
  · exact int_cost1 hm (fun _ _ hc h => hc ▸ Spends.acompare h.larger rfl fun _ => rfl) hr
  · exact int_cost1 hm (fun _ _ hc h => hc ▸ Spends.acompare h.largerOrEq rfl fun _ => rfl) hr

example : spent 4 (fun x y => x.eq y 4) = some (12, 1, 0, 0) ∧ spent 4 (fun x y => x.neq y 4) = some (13, 1, 0, 0) ∧
    spent 4 (fun x y => x.less y 4) = some (48, 5, 0, 0) ∧ spent 4 (fun x y => x.lessOrEq y 4) = some (61, 6, 0, 0) ∧
    spent 4 (fun x y => x.larger y 4) = some (62, 6, 0, 0) ∧ spent 4 (fun x y => x.largerOrEq y 4) = some (49, 5, 0, 0) := by
  decide +kernel

/-- C65: shifting left by `k` costs `k` constants, shifting right nothing, and neither costs gates. -/
theorem C65_shift (hm : Made (IntConfig.new r n) cfg w0 w1 w) {x z : AInt} (hx : x.config = cfg) {k : Nat} :
    (x.shiftLeft n k w = (.ok z, w') → Added r w w' ⟨0, k, 0, 0⟩) ∧ (x.shiftRight n k w = (.ok z, w') → w' = w) := by
  refine ⟨fun hr => int_cost1 hm (fun _ _ hc h => hc ▸ Spends.ashiftLeft hx fun _ _ _ => rfl) hr, fun hr => ?_⟩
  unfold AInt.shiftRight at hr
  have hidx : ∀ {α : Type} (l : List α) (i : Nat) (w : World), (M.idx l i w).2 = w := by
    intro α l i w
    unfold M.idx
    cases l[i]? <;> rfl
  have hmap : ∀ (l : List Nat) (w : World), (M.mapList (fun i => M.idx x.val (i + k)) l w).2 = w := by
    intro l
    induction l with
    | nil => exact fun _ => rfl
    | cons i l ih =>
      intro w
      simp only [M.mapList, M.bind_apply]
      have h1 := hidx x.val (i + k) w
      rcases e : M.idx x.val (i + k) w with ⟨a | a, w2⟩
      · rw [e] at h1; exact h1
      · rw [e] at h1
        have h2 := ih w2
        rcases e2 : M.mapList (fun i => M.idx x.val (i + k)) l w2 with ⟨b | b, w3⟩
        · rw [e2] at h2; simp only [e2]; exact h2.trans h1
        · rw [e2] at h2; simp only [e2]; exact h2.trans h1
  simp only [] at hr
  split at hr
  · cases hr
  rw [M.bind_apply] at hr
  have h1 := hidx x.val (n - 1) w
  rcases e : M.idx x.val (n - 1) w with ⟨a | a, w2⟩
  · rw [e] at hr; cases hr
  rw [e] at hr h1
  simp only [] at hr
  split at hr
  · cases hr
  rw [M.bind_apply] at hr
  have h2 := hmap (List.range (n - k)) w2
  rcases e2 : M.mapList (fun i => M.idx x.val (i + k)) (List.range (n - k)) w2 with ⟨b | b, w3⟩
  · rw [e2] at hr; cases hr
  rw [e2] at hr h2
  cases hr
  exact h2.trans h1

example : spent 4 (fun x _ => x.shiftLeft 4 3) = some (0, 3, 0, 0) ∧ spent 4 (fun x _ => x.shiftRight 4 3) = some (0, 0, 0, 0) := by
  decide +kernel

/-- C65: making values costs inputs or constants only; `output` adds `n` outputs. -/
theorem C65_values (hm : Made (IntConfig.new r n) cfg w0 w1 w) {z : AInt} {v : Nat} {ids : List GateId} {u : Unit} :
    (AInt.new cfg n w = (.ok z, w') → Added r w w' ⟨0, 0, n, 0⟩) ∧
    (AInt.fromBiguint cfg n v w = (.ok z, w') → Added r w w' ⟨0, n, 0, 0⟩) ∧
    (AInt.fromGateIds cfg n ids w = (.ok z, w') → Added r w w' ⟨0, n - ids.length, 0, 0⟩) ∧
    (AInt.zero cfg n w = (.ok z, w') → Added r w w' ⟨0, n, 0, 0⟩) ∧
    (AInt.one cfg n w = (.ok z, w') → Added r w w' ⟨0, n, 0, 0⟩) ∧
    (z.config = cfg → z.output n w = (.ok u, w') → Added r w w' ⟨0, 0, 0, n⟩) := by
  refine ⟨fun hr => ?_, fun hr => ?_, fun hr => ?_, fun hr => ?_, fun hr => ?_, fun hz hr => ?_⟩
  · exact int_cost1 hm (fun _ _ hc h => hc ▸ Spends.anew fun _ _ _ => rfl) hr
  · exact int_cost1 hm (fun _ _ hc h => hc ▸ Spends.abig fun _ _ _ => rfl) hr
  · exact int_cost1 hm (fun _ _ hc h => hc ▸ Spends.afrom fun _ _ _ _ => rfl) hr
  · exact int_cost1 hm (fun _ _ hc h => hc ▸ Spends.azero fun _ _ _ => rfl) hr
  · exact int_cost1 hm (fun _ _ hc h => hc ▸ Spends.aone h.pos fun _ _ _ => rfl) hr
  · exact int_cost1 hm (fun _ _ hc h => hc ▸ Spends.aoutput hz rfl) hr

example : spent 8 (fun x _ => AInt.fromBiguint x.config 8 5) = some (0, 8, 0, 0) ∧
    spent 8 (fun x _ => AInt.fromGateIds x.config 8 [0, 1]) = some (0, 6, 0, 0) ∧
    spent 8 (fun x _ => AInt.one x.config 8) = some (0, 8, 0, 0) ∧ spent 8 (fun x _ => x.output 8) = some (0, 0, 0, 8) := by
  decide +kernel

/-- C65: the product of full width costs `n² + n(12n - 3)` gates and `2n + n²` constants. -/
theorem C65_mulExtend {mid : ModuleId} {ids gs : List GateId} (hn : 1 ≤ n) (hm : Made (mulExtendOver r n) mid w0 w1 w)
    (hr : module r mid ids w = (.ok gs, w')) : Added r w w' ⟨n * n + n * (12 * n - 3), 2 * n + n * n, 0, 0⟩ ∧ gs.length = 2 * n := by
  have hlt : r < w0.circs.length := by
    have := hm.made
    unfold mulExtendOver at this
    rw [M.bind_apply] at this
    rcases e : IntConfig.new r (2 * n) w0 with ⟨a | a, w2⟩
    · rw [e] at this; cases this
    · obtain ⟨c, hc⟩ := intConfig_circ e
      exact lt_of_getElem? hc
  have hmk : ∀ lo, Makes (fun _ _ => False) lo r (mulExtendOver r n) fun mid E => E mid (mulExtendCost n) := by
    intro lo
    unfold mulExtendOver
    refine Makes.bind (makes_int (by omega)) ?_
    rintro ic E1 _ ⟨_, hi⟩
    intro w a w' hw hlo hx
    obtain ⟨k1, k2⟩ := sized_mulExtend (lo := lo) (r := r) hi.add w a w' hw hlo hx
    exact ⟨_, k1, k2, fun _ _ h => .inl h, .inr ⟨rfl, rfl⟩⟩
  obtain ⟨k, h1, rfl, h2⟩ := made_spends (P := fun mid E => E mid (mulExtendCost n))
    (Q := fun gs k => k = (mulExtendCost n).call ∧ gs.length = 2 * n) hm
    (.bind (plays_intConfig r _) fun _ => plays_buildMulExtend r n _) hlt hmk
    (fun E lo h => Spends.module h fun gs hgs => ⟨rfl, hgs⟩) hr
  exact ⟨h1, h2⟩

example : spent 2 (fun x y => do
    let mid ← mulExtendOver 0 2
    module 0 mid (x.val ++ y.val)) = some (46, 8, 0, 0) := by decide +kernel

end

/-! ### bit vectors -/

section
variable {w0 w1 w w' : World} {r : Ref} {n : Nat} {cfg : BitsConfig}

theorem bits_cost1 {α : Type} {x : M α} {a : α} {k : Cost} (hm : Made (BitsConfig.new r n) cfg w0 w1 w)
    (hsp : ∀ E lo, cfg.cref = r → BitsEnv E n cfg → Spends E lo r x fun _ k' => k' = k) (hx : x w = (.ok a, w')) : Added r w w' k := by
  obtain ⟨c, hc⟩ := bitsConfig_circ hm.made
  obtain ⟨k', h1, rfl⟩ := made_spends hm (plays_bitsConfig r n) (lt_of_getElem? hc) (fun lo => makes_bits)
    (fun E lo h => hsp E lo h.1 h.2) hx
  exact h1

/-- C65: the bitwise operations cost one gate per bit, comparing `3n` gates, selecting `3n + 1`. -/
theorem C65_bits (hm : Made (BitsConfig.new r n) cfg w0 w1 w) {x y z : Bits} (hx : x.config = cfg) {g s : GateId} :
    (x.not w = (.ok z, w') → Added r w w' ⟨n, 0, 0, 0⟩) ∧
    (x.and y w = (.ok z, w') → Added r w w' ⟨n, 0, 0, 0⟩) ∧
    (x.or y w = (.ok z, w') → Added r w w' ⟨n, 0, 0, 0⟩) ∧
    (x.xor y w = (.ok z, w') → Added r w w' ⟨n, 0, 0, 0⟩) ∧
    (x.eq y w = (.ok g, w') → Added r w w' ⟨3 * n, 1, 0, 0⟩) ∧
    (x.neq y w = (.ok g, w') → Added r w w' ⟨3 * n + 1, 1, 0, 0⟩) ∧
    (x.mux y n s w = (.ok z, w') → Added r w w' ⟨3 * n + 1, 0, 0, 0⟩) := by
  subst hx
  refine ⟨fun hr => ?_, fun hr => ?_, fun hr => ?_, fun hr => ?_, fun hr => ?_, fun hr => ?_, fun hr => ?_⟩
  · exact bits_cost1 hm (fun _ _ hc h => hc ▸ Spends.bind (Spends.expect (Spends.module h.not fun _ _ => Spends.pure rfl))) hr
  · exact bits_cost1 hm (fun _ _ hc h => hc ▸ Spends.bind (Spends.expect (Spends.module h.and fun _ _ => Spends.pure rfl))) hr
  · exact bits_cost1 hm (fun _ _ hc h => hc ▸ Spends.bind (Spends.expect (Spends.module h.or fun _ _ => Spends.pure rfl))) hr
  · exact bits_cost1 hm (fun _ _ hc h => hc ▸ Spends.bind (Spends.expect (Spends.module h.xor fun _ _ => Spends.pure rfl))) hr
  · exact bits_cost1 hm (fun _ _ hc h => hc ▸ Spends.bind (Spends.module h.eq fun _ _ => Spends.idx fun _ => rfl)) hr
  · exact bits_cost1 hm (fun _ _ hc h => hc ▸ Spends.bind (Spends.module h.neq fun _ _ => Spends.idx fun _ => rfl)) hr
  · refine bits_cost1 hm (fun _ _ hc h => ?_) hr
    unfold Bits.mux
    simp only []
    rw [hc]
    refine Spends.bind (Spends.not fun _ => Spends.bind (Spends.mapConst ⟨3, 0, 0, 0⟩ (fun i _ => ?_) fun _ _ => Spends.pure ?_))
    · exact Spends.bind (Spends.idx fun _ => Spends.bind (Spends.and fun _ => Spends.bind (Spends.idx fun _ => Spends.bind
        (Spends.and fun _ => Spends.xor fun _ => rfl))))
    · ext <;> simp
      omega

example : spent 4 (fun x y => do
    let cfg ← BitsConfig.new 0 4
    (⟨x.val, cfg⟩ : Bits).mux ⟨y.val, cfg⟩ 4 0) = some (13, 0, 0, 0) ∧ spent 4 (fun x y => do
    let cfg ← BitsConfig.new 0 4
    (⟨x.val, cfg⟩ : Bits).xor ⟨y.val, cfg⟩) = some (4, 0, 0, 0) := by decide +kernel

end

/-! ### the field -/

section
variable {w0 w1 w w' : World} {r : Ref} {n p rExp : Nat} {cfg : FpConfig}

theorem field_cost1 {α : Type} {x : M α} {a : α} {k : Cost} (hm : Made (fieldOver r n p rExp) cfg w0 w1 w)
    (hsp : ∀ E lo, cfg.cref = r → cfg.intConfig.cref = r → FieldEnv E n rExp cfg → Spends E lo r x fun _ k' => k' = k)
    (hx : x w = (.ok a, w')) : Added r w w' k := by
  obtain ⟨c, hc⟩ := fieldOver_circ hm.made
  have hn : 1 ≤ n := by
    have := hm.made
    unfold fieldOver at this
    rw [M.bind_apply] at this
    rcases e : IntConfig.new r n w0 with ⟨a | a, w2⟩
    · rw [e] at this; cases this
    · exact intConfig_pos e
  obtain ⟨k', h1, rfl⟩ := made_spends hm (plays_fieldOver r n p rExp) (lt_of_getElem? hc) (fun lo => makes_field hn)
    (fun E lo h => hsp E lo h.1 h.2.1 h.2.2) hx
  exact h1

theorem Spends.fcall {E : Table} {lo : Nat} {x y : AFp} {mid : ModuleId} {k : Cost} (h1 : x.config.cref = r)
    (h2 : x.config.intConfig.cref = r) (hE : E mid k) (hk : k.outs = n) :
    Spends E lo r (do
      let outs ← M.expect (CC.module x.config.cref mid (x.val.val ++ y.val.val))
      AFp.fromGateIdsUnchecked x.config n outs) fun _ k' => k' = k.call := by
  rw [h1]
  refine Spends.bind (Spends.expect (Spends.module hE fun gs hgs => ?_))
  unfold AFp.fromGateIdsUnchecked
  rw [hk] at hgs
  refine h2 ▸ Spends.bind (Spends.expect (Spends.afrom fun _ _ _ _ => Spends.pure ?_))
  rw [hgs, Nat.sub_self]
  rfl

/-- C65: the operations of the field. A multiplication contains ten multiplications of integers. -/
theorem C65_field (hm : Made (fieldOver r n p rExp) cfg w0 w1 w) {x y z : AFp} (hx : x.config = cfg) :
    (x.add y n w = (.ok z, w') → Added r w w' (fieldAddCost n).call) ∧
    (x.sub y n w = (.ok z, w') → Added r w w' (fieldSubCost n).call) ∧
    (x.mul y n w = (.ok z, w') → Added r w w' (fieldMulCost n rExp).call) ∧
    (x.neg n w = (.ok z, w') → Added r w w' (⟨0, n, 0, 0⟩ + (fieldSubCost n).call)) := by
  subst hx
  refine ⟨fun hr => ?_, fun hr => ?_, fun hr => ?_, fun hr => ?_⟩
  · exact field_cost1 hm (fun _ _ h1 h2 h => Spends.fcall h1 h2 h.add rfl) hr
  · exact field_cost1 hm (fun _ _ h1 h2 h => Spends.fcall h1 h2 h.sub rfl) hr
  · exact field_cost1 hm (fun _ _ h1 h2 h => Spends.fcall h1 h2 h.mul rfl) hr
  · refine field_cost1 hm (fun E lo h1 h2 h => ?_) hr
    unfold AFp.neg AFp.zero
    refine Spends.seq (P := fun z k => z.config = x.config ∧ k = ⟨0, n, 0, 0⟩) (Spends.expect ?_) ?_
    · exact h2 ▸ Spends.bind (Spends.azero fun v hv _ => Spends.pure ⟨rfl, rfl⟩)
    · rintro v k ⟨hv, rfl⟩
      refine Spends.mono (Q := fun _ k' => k' = (fieldSubCost n).call) ?_ fun _ k hk => by rw [hk]
      have hs := h.sub
      rw [← hv] at h1 h2 hs
      exact Spends.fcall (x := v) (y := x) h1 h2 hs rfl

example : ((fieldAddCost 8).gates, (fieldSubCost 8).gates, (fieldMulCost 8 4).gates) = (1792, 1890, 4848) := by decide

/-- adding modulo 11, width 8 -/
example : spent 8 (fun x y => do
    let cfg ← FpConfig.new 0 x.config 8 11 4
    (⟨x, cfg⟩ : AFp).add ⟨y, cfg⟩ 8) = some ((fieldAddCost 8).gates, (fieldAddCost 8).consts, 0, 0) := by decide +kernel

example : spent 8 (fun x y => do
    let cfg ← FpConfig.new 0 x.config 8 11 4
    (⟨x, cfg⟩ : AFp).mul ⟨y, cfg⟩ 8) = some ((fieldMulCost 8 4).gates, (fieldMulCost 8 4).consts, 0, 0) := by decide +kernel

end

end CC.Props
