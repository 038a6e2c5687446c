import Verif.Model.Fp
import Verif.Proofs.AIntC

/-!
# The modules of `AllocFpConfig`

For every builder of `src/circuits/finite_field/mod.rs` the exact function on words its module computes.
-/

namespace CC
open Spec Logic Arith

/-- the word `0` or `1` -/
def bvBit (n : Nat) (b : Bool) : BitVec n := BitVec.ofNat n b.toNat

/-- the word of a list of bits -/
def bvOf (n : Nat) (bs : List Bool) : BitVec n := BitVec.ofNat n (bitsVal bs)

theorem bvOf_bvBits {n : Nat} (v : BitVec n) : bvOf n (bvBits v) = v := by
  unfold bvOf; rw [bitsVal_bvBits]; simp

/-- what the addition module computes: `[s > p]·(s − p) + [s < −0]·(s + p) + [otherwise]·s` for `s = a + b` -/
def fpAddV {n : Nat} (p a b : BitVec n) : BitVec n :=
  let s := a + b
  let plus := !((s - p).msb || s == p)
  let minus := (s - -(0 : BitVec n)).msb
  bvBit n plus * (s - p) + bvBit n minus * (s + p) + bvBit n (!(plus || minus)) * s

/-- what the reduction module computes -/
def fpMontV {n : Nat} (p pi : BitVec n) (rExp : Nat) (v : BitVec n) : BitVec n :=
  let m : BitVec n := BitVec.ofNat n ((v * pi).toNat % 2 ^ rExp)
  let t := (v + m * p).sshiftRight rExp
  let ge := bvBit n (!(t - p).msb)
  ge * (t - p) - (1 - ge) * t

/-- list functions from word functions -/
def lift2 {n : Nat} (φ : BitVec n → BitVec n → BitVec n) (a b : List Bool) : List Bool := bvBits (φ (bvOf n a) (bvOf n b))
def lift1 {n : Nat} (φ : BitVec n → BitVec n) (a : List Bool) : List Bool := bvBits (φ (bvOf n a))

theorem lift2_bv {n : Nat} (φ : BitVec n → BitVec n → BitVec n) (x y : BitVec n) :
    lift2 φ (bvBits x) (bvBits y) = bvBits (φ x y) := by
  unfold lift2; rw [bvOf_bvBits, bvOf_bvBits]

theorem lift1_bv {n : Nat} (φ : BitVec n → BitVec n) (x : BitVec n) : lift1 φ (bvBits x) = bvBits (φ x) := by
  unfold lift1; rw [bvOf_bvBits]

theorem All2.set {α β} {P : α → β → Prop} : ∀ {as : List α} {bs : List β}, All2 P as bs → ∀ (i : Nat) {a b}, P a b →
    All2 P (as.set i a) (bs.set i b)
  | [], [], _, _, _, _, _ => trivial
  | _ :: _, _ :: _, h, 0, _, _, hp => ⟨hp, h.2⟩
  | _ :: _, _ :: _, h, i + 1, _, _, hp => ⟨h.1, All2.set h.2 i hp⟩
  | [], _ :: _, h, _, _, _, _ => h.elim
  | _ :: _, [], h, _, _, _, _ => h.elim

section
variable {w : World} {s : Ref} {K : Ctx} {c : Circuit} {ins : List Bool} {n : Nat}

theorem Grew.ival {c' : Circuit} (g : Grew w s K c c') (hb : Bld w s K c) {x : AInt} {cfg : IntConfig} {v : BitVec n}
    (h : IVal w s ins c x cfg v) : IVal w s ins c' x cfg v := h.step hb g.step

/-- two new integers in an empty circuit -/
theorem RunsC.twoI (hb : Bld w s K c) (he : Empty c) {cfg : IntConfig} (hcr : cfg.cref = s) (hl : ins.length = 2 * n)
    {α} {k : AInt → AInt → M α} {Q : α → Circuit → Prop}
    (h : ∀ x y c', Bld w s K c' → c'.outputLen = 0 → c'.inputLen = 2 * n →
      IVal w s ins c' x cfg (bvOf n (ins.take n)) → IVal w s ins c' y cfg (bvOf n (ins.drop n)) → RunsC w s (k x y) c' Q) :
    RunsC w s (do let x ← AInt.new cfg n; let y ← AInt.new cfg n; k x y) c Q := by
  have h0 := he.inputLen
  refine RunsC.seq (RunsC.newI (ins := ins) (n := n) hb he.outputLen hcr (by omega)) ?_
  rintro x c1 ⟨h1, h2, _, h4⟩
  refine RunsC.seq (RunsC.newI (ins := ins) (n := n) h1.bld (h1.outputLen.trans he.outputLen) hcr (by omega)) ?_
  rintro y c2 ⟨k1, k2, _, k4⟩
  refine h x y c2 k1.bld (k1.outputLen.trans (h1.outputLen.trans he.outputLen)) (by omega) ?_ ?_
  · refine (h4 _ ?_).step h1.bld k1
    rw [h0, List.drop_zero]
    exact bvBits_of (by simp; omega)
  · refine k4 _ ?_
    rw [h2, h0, Nat.zero_add, List.take_of_length_le (by simp; omega)]
    exact bvBits_of (by simp; omega)

/-- one new integer in an empty circuit -/
theorem RunsC.oneNew (hb : Bld w s K c) (he : Empty c) {cfg : IntConfig} (hcr : cfg.cref = s) (hl : ins.length = n) :
    RunsC w s (AInt.new cfg n) c fun x c' => Bld w s K c' ∧ c'.outputLen = 0 ∧ c'.inputLen = n ∧
      IVal w s ins c' x cfg (bvOf n ins) := by
  have h0 := he.inputLen
  refine (RunsC.newI (ins := ins) (n := n) hb he.outputLen hcr (by omega)).mono ?_
  rintro x c1 ⟨h1, h2, _, h4⟩
  refine ⟨h1.bld, h1.outputLen.trans he.outputLen, by omega, h4 _ ?_⟩
  rw [h0, List.drop_zero, List.take_of_length_le (by omega)]
  exact bvBits_of hl

/-- the closing `out.output()` of a builder -/
theorem RunsC.finishI (hb : Bld w s K c) (h0 : c.outputLen = 0) {cfg : IntConfig} (hcr : cfg.cref = s) {x : AInt}
    {v : BitVec n} (hx : IVal w s ins c x cfg v) (hr : Ready c x.val) {mid : ModuleId} {m : Nat} (hin : c.inputLen = m)
    {bs : List Bool} (hbs : bvBits v = bs) :
    RunsC w s (do x.output n; Pure.pure mid) c fun m' c' => m' = mid ∧ Bld w s K c' ∧ Outs w s ins c' bs ∧
      c'.inputLen = m := by
  have hl := hx.len
  unfold AInt.output
  rw [hx.config, hcr]
  have := RunsC.outputs (ins := ins) hb h0 hr hx.vals
  rw [hl] at this
  refine RunsC.seq (P := fun _ c' => Bld w s K c' ∧ Outs w s ins c' (bvBits v) ∧ c'.inputLen = c.inputLen)
    (RunsC.seq this fun _ _ h => RunsC.pure h) ?_
  rintro _ c' ⟨h1, h2, h3⟩
  exact RunsC.pure ⟨rfl, h1, hbs ▸ h2, h3.trans hin⟩

/-- `from_gate_ids` of `n` gates changes nothing -/
theorem RunsC.fromAll {cfg : IntConfig} {ids : List GateId} (hl : ids.length = n) :
    RunsC w s (AInt.fromGateIds cfg n ids) c fun x c' => c' = c ∧ x = { val := ids, config := cfg } := by
  unfold AInt.fromGateIds
  rw [if_pos (by omega), show n - ids.length = 0 by omega]
  refine RunsC.bind (RunsC.pure (RunsC.pure ?_))
  simp

/-- calling a module on gates that hold bits -/
theorem RunsC.callThen (hb : Bld w s K c) (h0 : c.outputLen = 0) {mid : ModuleId} {nIn : Nat} {f : List Bool → List Bool}
    {cfg : IntConfig} (hm : ModD w (fun d => d < K.out ∨ d = s) K.st mid nIn n f) {ids : List GateId} {bits : List Bool}
    (hv : All2 (V w s ins c) ids bits) (hl : bits.length = nIn) {v : BitVec n} (hf : f bits = bvBits v)
    {α} {k : AInt → M α} {Q : α → Circuit → Prop}
    (h : ∀ z c', Grew w s K c c' → IVal w s ins c' z cfg v → Ready c' z.val → RunsC w s (k z) c' Q) :
    RunsC w s (do let outs ← CC.module s mid ids; let z ← AInt.fromGateIds cfg n outs; k z) c Q := by
  refine RunsC.seq (RunsC.module (ins := ins) hb hm hv hl (fun x _ => hb.notOut h0 x)) ?_
  rintro gs c1 ⟨h1, h2⟩
  have hlen := h1.v.length
  refine RunsC.seq (RunsC.fromAll (by omega)) ?_
  rintro z c' ⟨rfl, rfl⟩
  refine h _ _ h1.grew ⟨rfl, ?_⟩ (h1.ready hb)
  have := h1.v
  rwa [hf] at this

/-- clearing the bits from position `k` on -/
theorem RunsC.clear (hb : Bld w s K c) (h0 : c.outputLen = 0) {gs : List GateId} {v : BitVec n} {z : GateId}
    (hv : All2 (V w s ins c) gs (bvBits v)) (hz : V w s ins c z false) {k : Nat} (hk : k ≤ n) :
    RunsC w s (M.foldList (fun bits i => do
      let b ← M.idx bits i
      let z ← CC.and s b z
      Pure.pure (bits.set i z)) gs (rangeFromTo k n)) c fun gs' c' => Grew w s K c c' ∧
        All2 (V w s ins c') gs' (bvBits (BitVec.ofNat n (v.toNat % 2 ^ k))) := by
  refine (RunsC.foldFromTo (I := fun i gs' c' => Grew w s K c c' ∧ ∃ bs, All2 (V w s ins c') gs' bs ∧ bs.length = n ∧
    ∀ j, bs[j]? = if k ≤ j ∧ j < i then some false else (bvBits v)[j]?) k n hk
    ⟨hb.grew, _, hv, by simp, fun j => by rw [if_neg (by omega)]⟩ ?_).mono ?_
  · rintro i gs' c1 h1 h2 ⟨g1, bs, a1, a2, a3⟩
    have hb1 := g1.step.bld
    obtain ⟨g, b, e1, e2, e3⟩ := a1.get (i := i) (by rw [a1.length]; omega)
    refine RunsC.bind (RunsC.idx e1 ?_)
    refine RunsC.seq (RunsC.and (ins := ins) hb1 e3 (g1.step.v hb hz) (g1.step.notOut0 h0 _) (g1.step.notOut0 h0 _)) ?_
    intro z' c2 hz'
    refine RunsC.pure ⟨g1.trans hz'.grew, bs.set i false, ?_, by simpa using a2, ?_⟩
    · have hz2 := hz'.v
      rw [Bool.and_false] at hz2
      exact (hz'.step.vs hb1 a1).set i hz2
    · intro j
      rw [List.getElem?_set]
      by_cases hij : i = j
      · rw [if_pos hij, if_pos (by omega), if_pos (by omega)]
      · rw [if_neg hij, a3]
        by_cases hc : k ≤ j ∧ j < i
        · rw [if_pos hc, if_pos (by omega)]
        · rw [if_neg hc, if_neg (by omega)]
  · rintro gs' c' ⟨g1, bs, a1, a2, a3⟩
    refine ⟨g1, ?_⟩
    have : bs = bvBits (BitVec.ofNat n (v.toNat % 2 ^ k)) := by
      apply List.ext_getElem?
      intro j
      rw [a3]
      by_cases hj : j < n
      · rw [bvBits_get _ hj, bvBits_get _ hj, BitVec.getLsbD_ofNat, Nat.testBit_mod_two_pow, decide_eq_true hj,
          Bool.true_and]
        by_cases hkj : k ≤ j
        · rw [if_pos (by omega), decide_eq_false (by omega)]; rfl
        · rw [if_neg (by omega), decide_eq_true (by omega)]; rfl
      · rw [if_neg (by omega), List.getElem?_eq_none (by simp; omega), List.getElem?_eq_none (by simp; omega)]
    rw [← this]; exact a1

end

section
variable {w : World} {r : Ref} {c0 : Circuit} {n N : Nat}

theorem fpAdd_ok {ic : IntConfig} {p : Nat} (hw : WFw w) (hr : w.circs[r]? = some c0) (hN : N ≤ w.circs.length) (hn : 1 ≤ n)
    (hi : IntOk w N c0.storage n ic) (hp : 8 * (AInt.bytesLe p).length ≤ n) :
    Builds w N c0.storage (Fp.buildAdd r ic n p) (2 * n) n (bin n (lift2 (fpAddV (BitVec.ofNat n p)))) := by
  refine Builds.mk hw hr hN (by intro ins hl; simp [bin, lift2]) ?_
  intro w1 s K mid c1 ins hmods hb he hl
  have hd0 : IntD w1 (fun d => d < K.out ∨ d = s) K.st n ic := hi.toD hmods
  have hd : IntD w1 (fun d => d < K.out ∨ d = s) K.st n { ic with cref := s } :=
    ⟨hd0.add, hd0.sub, hd0.mul, hd0.eq, hd0.neq, hd0.less, hd0.lessOrEq, hd0.larger, hd0.largerOrEq⟩
  simp only []
  generalize hic : ({ ic with cref := s } : IntConfig) = cfg at hd
  have hcr : cfg.cref = s := by rw [← hic]
  refine RunsC.twoI hb he hcr hl ?_
  intro x y c2 hb2 h2 hin hx hy
  refine RunsC.seq (RunsC.biguint (ins := ins) hb2 hcr hp) ?_
  intro pI c3 n3
  have hb3 := n3.grew.step.bld
  have h3 := n3.grew.out0 h2
  have hP := n3.val
  refine RunsC.seq (RunsC.add hb3 h3 hd hcr (n3.grew.ival hb2 hx) (n3.grew.ival hb2 hy)) ?_
  rintro sm c4 ⟨n4, _⟩
  have hb4 := n4.grew.step.bld
  have h4 := n4.grew.out0 h3
  have hS := n4.val
  replace hP := n4.grew.ival hb3 hP
  refine RunsC.seq (RunsC.larger hb4 h4 hn hd hcr hS hP) ?_
  intro pl c5 n5
  have hb5 := n5.grew.step.bld
  have h5 := n5.grew.out0 h4
  have hpl := n5.v
  replace hS := n5.grew.ival hb4 hS
  replace hP := n5.grew.ival hb4 hP
  refine RunsC.seq (RunsC.ofBit hb5 hn hcr hpl) ?_
  rintro plI c6 ⟨g6, hplI, _⟩
  have hb6 := g6.step.bld
  have h6 := g6.out0 h5
  replace hpl := g6.step.v hb5 hpl
  replace hS := g6.ival hb5 hS
  replace hP := g6.ival hb5 hP
  refine RunsC.seq (RunsC.zeroI (ins := ins) (n := n) hb6 hcr) ?_
  intro z c7 n7
  have hb7 := n7.grew.step.bld
  have h7 := n7.grew.out0 h6
  have hZ := n7.val
  replace hpl := n7.grew.step.v hb6 hpl
  replace hplI := n7.grew.ival hb6 hplI
  replace hS := n7.grew.ival hb6 hS
  replace hP := n7.grew.ival hb6 hP
  refine RunsC.seq (RunsC.neg hb7 h7 hd hcr hZ) ?_
  rintro nz c8 ⟨n8, _⟩
  have hb8 := n8.grew.step.bld
  have h8 := n8.grew.out0 h7
  have hNZ := n8.val
  replace hpl := n8.grew.step.v hb7 hpl
  replace hplI := n8.grew.ival hb7 hplI
  replace hS := n8.grew.ival hb7 hS
  replace hP := n8.grew.ival hb7 hP
  refine RunsC.seq (RunsC.less hb8 h8 hn hd hcr hS hNZ) ?_
  intro ml c9 n9
  have hb9 := n9.grew.step.bld
  have h9 := n9.grew.out0 h8
  have hml := n9.v
  replace hpl := n9.grew.step.v hb8 hpl
  replace hplI := n9.grew.ival hb8 hplI
  replace hS := n9.grew.ival hb8 hS
  replace hP := n9.grew.ival hb8 hP
  refine RunsC.seq (RunsC.ofBit hb9 hn hcr hml) ?_
  rintro mlI c10 ⟨g10, hmlI, _⟩
  have hb10 := g10.step.bld
  have h10 := g10.out0 h9
  replace hml := g10.step.v hb9 hml
  replace hpl := g10.step.v hb9 hpl
  replace hplI := g10.ival hb9 hplI
  replace hS := g10.ival hb9 hS
  replace hP := g10.ival hb9 hP
  refine RunsC.seq (RunsC.or (ins := ins) hb10 hpl hml (hb10.notOut h10 _) (hb10.notOut h10 _)) ?_
  intro e1 c11 n11
  have hb11 := n11.step.bld
  have h11 := n11.grew.out0 h10
  refine RunsC.seq (RunsC.not (ins := ins) hb11 n11.v (hb11.notOut h11 _)) ?_
  intro e2 c12 n12
  have hb12 := n12.step.bld
  have h12 := n12.grew.out0 h11
  have g12 := n11.grew.trans n12.grew
  refine RunsC.seq (RunsC.ofBit hb12 hn hcr n12.v) ?_
  rintro eI c13 ⟨g13', heI, _⟩
  have hb13 := g13'.step.bld
  have h13 := g13'.out0 h12
  have g13 := g12.trans g13'
  replace hplI := g13.ival hb10 hplI
  replace hmlI := g13.ival hb10 hmlI
  replace hS := g13.ival hb10 hS
  replace hP := g13.ival hb10 hP
  refine RunsC.seq (RunsC.sub hb13 h13 hd hcr hS hP) ?_
  rintro smp c14 ⟨n14, _⟩
  have hb14 := n14.grew.step.bld
  have h14 := n14.grew.out0 h13
  refine RunsC.seq (RunsC.mul hb14 h14 hd hcr (n14.grew.ival hb13 hplI) n14.val) ?_
  rintro t1 c15 ⟨n15, _⟩
  have hb15 := n15.grew.step.bld
  have h15 := n15.grew.out0 h14
  have g15 := n14.grew.trans n15.grew
  have hT1 := n15.val
  replace hmlI := g15.ival hb13 hmlI
  replace heI := g15.ival hb13 heI
  replace hS := g15.ival hb13 hS
  replace hP := g15.ival hb13 hP
  refine RunsC.seq (RunsC.add hb15 h15 hd hcr hS hP) ?_
  rintro spp c16 ⟨n16, _⟩
  have hb16 := n16.grew.step.bld
  have h16 := n16.grew.out0 h15
  refine RunsC.seq (RunsC.mul hb16 h16 hd hcr (n16.grew.ival hb15 hmlI) n16.val) ?_
  rintro t2 c17 ⟨n17, _⟩
  have hb17 := n17.grew.step.bld
  have h17 := n17.grew.out0 h16
  have g17 := n16.grew.trans n17.grew
  refine RunsC.seq (RunsC.add hb17 h17 hd hcr (g17.ival hb15 hT1) n17.val) ?_
  rintro o1 c18 ⟨n18, _⟩
  have hb18 := n18.grew.step.bld
  have h18 := n18.grew.out0 h17
  have g18 := g17.trans n18.grew
  replace heI := g18.ival hb15 heI
  replace hS := g18.ival hb15 hS
  refine RunsC.seq (RunsC.mul hb18 h18 hd hcr heI hS) ?_
  rintro t3 c19 ⟨n19, _⟩
  have hb19 := n19.grew.step.bld
  have h19 := n19.grew.out0 h18
  refine RunsC.seq (RunsC.add hb19 h19 hd hcr (n19.grew.ival hb18 n18.val) n19.val) ?_
  rintro o c20 ⟨n20, hready⟩
  have hb20 := n20.grew.step.bld
  have h20 := n20.grew.out0 h19
  refine RunsC.finishI hb20 h20 hcr n20.val hready ?_ rfl
  rw [n20.grew.inputLen, n19.grew.inputLen, g18.inputLen, g15.inputLen, g13.inputLen, g10.inputLen, n9.grew.inputLen,
    n8.grew.inputLen, n7.grew.inputLen, g6.inputLen, n5.grew.inputLen, n4.grew.inputLen, n3.grew.inputLen, hin]

theorem fpSub_ok {ic : IntConfig} {φ : BitVec n → BitVec n → BitVec n} {m : ModuleId} (hw : WFw w) (hr : w.circs[r]? = some c0)
    (hN : N ≤ w.circs.length) (hi : IntOk w N c0.storage n ic) (hm : ModOk w N c0.storage m (2 * n) n (bin n (lift2 φ))) :
    Builds w N c0.storage (Fp.buildSub r ic n m) (2 * n) n (bin n (lift2 fun a b => φ a (-b))) := by
  refine Builds.mk hw hr hN (by intro ins hl; simp [bin, lift2]) ?_
  intro w1 s K mid c1 ins hmods hb he hl
  have hd0 : IntD w1 (fun d => d < K.out ∨ d = s) K.st n ic := hi.toD hmods
  have hd : IntD w1 (fun d => d < K.out ∨ d = s) K.st n { ic with cref := s } :=
    ⟨hd0.add, hd0.sub, hd0.mul, hd0.eq, hd0.neq, hd0.less, hd0.lessOrEq, hd0.larger, hd0.largerOrEq⟩
  simp only []
  generalize hic : ({ ic with cref := s } : IntConfig) = cfg at hd
  have hcr : cfg.cref = s := by rw [← hic]
  refine RunsC.twoI hb he hcr hl ?_
  intro x y c2 hb2 h2 hin hx hy
  refine RunsC.seq (RunsC.neg hb2 h2 hd hcr hy) ?_
  rintro ng c3 ⟨n3, _⟩
  have hb3 := n3.grew.step.bld
  have h3 := n3.grew.out0 h2
  have hx3 := n3.grew.ival hb2 hx
  refine RunsC.callThen (cfg := cfg) (v := φ (bvOf n (ins.take n)) (-(bvOf n (ins.drop n)))) hb3 h3 (hmods _ _ _ _ hm)
    (hx3.vals.append n3.val.vals) (by simp; omega) ?_ ?_
  · rw [(All2.app_bin hx3.vals n3.val.vals (bvBits_length _) _).2, lift2_bv]
  · intro z c4 g4 hz hready
    refine RunsC.finishI g4.step.bld (g4.out0 h3) hcr hz hready ?_ rfl
    rw [g4.inputLen, n3.grew.inputLen, hin]

theorem fpMont_ok {ic : IntConfig} {p pi k : Nat} (hw : WFw w) (hr : w.circs[r]? = some c0) (hN : N ≤ w.circs.length)
    (hn : 1 ≤ n) (hi : IntOk w N c0.storage n ic) (hp : 8 * (AInt.bytesLe p).length ≤ n)
    (hpi : 8 * (AInt.bytesLe pi).length ≤ n) (hk : k ≤ n) :
    Builds w N c0.storage (Fp.buildMontRed r ic n p pi k) n n (lift1 (fpMontV (BitVec.ofNat n p) (BitVec.ofNat n pi) k)) := by
  refine Builds.mk hw hr hN (by intro ins hl; simp [lift1]) ?_
  intro w1 s K mid c1 ins hmods hb he hl
  have hd0 : IntD w1 (fun d => d < K.out ∨ d = s) K.st n ic := hi.toD hmods
  have hd : IntD w1 (fun d => d < K.out ∨ d = s) K.st n { ic with cref := s } :=
    ⟨hd0.add, hd0.sub, hd0.mul, hd0.eq, hd0.neq, hd0.less, hd0.lessOrEq, hd0.larger, hd0.largerOrEq⟩
  simp only []
  generalize hic : ({ ic with cref := s } : IntConfig) = cfg at hd
  have hcr : cfg.cref = s := by rw [← hic]
  refine RunsC.seq (RunsC.oneNew hb he hcr hl) ?_
  rintro x c2 ⟨hb2, h2, hin, hx⟩
  refine RunsC.seq (RunsC.biguint (ins := ins) hb2 hcr hp) ?_
  intro pI c3 n3
  have hb3 := n3.grew.step.bld
  have h3 := n3.grew.out0 h2
  have hP := n3.val
  refine RunsC.seq (RunsC.biguint (ins := ins) hb3 hcr hpi) ?_
  intro piI c4 n4
  have hb4 := n4.grew.step.bld
  have h4 := n4.grew.out0 h3
  replace hP := n4.grew.ival hb3 hP
  have g4 := n3.grew.trans n4.grew
  replace hx := g4.ival hb2 hx
  refine RunsC.seq (RunsC.mul hb4 h4 hd hcr hx n4.val) ?_
  rintro vp c5 ⟨n5, _⟩
  have hb5 := n5.grew.step.bld
  have h5 := n5.grew.out0 h4
  refine RunsC.seq (RunsC.constant (ins := ins) hb5 false) ?_
  intro fb c6 n6
  have hb6 := n6.step.bld
  have h6 := n6.grew.out0 h5
  refine RunsC.seq (RunsC.clear (v := bvOf n ins * BitVec.ofNat n pi) hb6 h6 (n6.grew.ival hb5 n5.val).vals n6.v hk) ?_
  rintro bits c7 ⟨g7', hbits⟩
  have hb7 := g7'.step.bld
  have h7 := g7'.out0 h6
  have g7 := (n5.grew.trans n6.grew).trans g7'
  replace hP := g7.ival hb4 hP
  replace hx := g7.ival hb4 hx
  have hM : IVal w1 s ins c7 { vp with val := bits } cfg (BitVec.ofNat n ((bvOf n ins * BitVec.ofNat n pi).toNat % 2 ^ k)) :=
    ⟨n5.val.config, hbits⟩
  refine RunsC.seq (RunsC.mul hb7 h7 hd hcr hM hP) ?_
  rintro vpp c8 ⟨n8, _⟩
  have hb8 := n8.grew.step.bld
  have h8 := n8.grew.out0 h7
  refine RunsC.seq (RunsC.add hb8 h8 hd hcr (n8.grew.ival hb7 hx) n8.val) ?_
  rintro vv c9 ⟨n9, _⟩
  have hb9 := n9.grew.step.bld
  have h9 := n9.grew.out0 h8
  have g9 := n8.grew.trans n9.grew
  replace hP := g9.ival hb7 hP
  refine RunsC.seq (RunsC.shr hn n9.val hk) ?_
  rintro t _ ⟨rfl, hT, _⟩
  refine RunsC.seq (RunsC.largerOrEq hb9 h9 hn hd hcr hT hP) ?_
  intro ge c10 n10
  have hb10 := n10.grew.step.bld
  have h10 := n10.grew.out0 h9
  refine RunsC.seq (RunsC.ofBit hb10 hn hcr n10.v) ?_
  rintro geI c11 ⟨g11', hG, _⟩
  have hb11 := g11'.step.bld
  have h11 := g11'.out0 h10
  have g11 := n10.grew.trans g11'
  refine RunsC.seq (RunsC.oneI (ins := ins) (n := n) hb11 hn hcr) ?_
  intro one c12 n12
  have hb12 := n12.grew.step.bld
  have h12 := n12.grew.out0 h11
  replace hG := n12.grew.ival hb11 hG
  refine RunsC.seq (RunsC.sub hb12 h12 hd hcr n12.val hG) ?_
  rintro el c13 ⟨n13, _⟩
  have hb13 := n13.grew.step.bld
  have h13 := n13.grew.out0 h12
  have g13 := (g11.trans n12.grew).trans n13.grew
  replace hG := n13.grew.ival hb12 hG
  replace hT := g13.ival hb9 hT
  replace hP := g13.ival hb9 hP
  refine RunsC.seq (RunsC.sub hb13 h13 hd hcr hT hP) ?_
  rintro ps c14 ⟨n14, _⟩
  have hb14 := n14.grew.step.bld
  have h14 := n14.grew.out0 h13
  refine RunsC.seq (RunsC.mul hb14 h14 hd hcr (n14.grew.ival hb13 hG) n14.val) ?_
  rintro t1 c15 ⟨n15, _⟩
  have hb15 := n15.grew.step.bld
  have h15 := n15.grew.out0 h14
  have g15 := n14.grew.trans n15.grew
  refine RunsC.seq (RunsC.mul hb15 h15 hd hcr (g15.ival hb13 n13.val) (g15.ival hb13 hT)) ?_
  rintro t2 c16 ⟨n16, _⟩
  have hb16 := n16.grew.step.bld
  have h16 := n16.grew.out0 h15
  refine RunsC.seq (RunsC.sub hb16 h16 hd hcr (n16.grew.ival hb15 n15.val) n16.val) ?_
  rintro o c17 ⟨n17, hready⟩
  refine RunsC.finishI n17.grew.step.bld (n17.grew.out0 h16) hcr n17.val hready ?_ rfl
  rw [n17.grew.inputLen, n16.grew.inputLen, g15.inputLen, g13.inputLen, g9.inputLen, g7.inputLen, g4.inputLen, hin]

theorem fpMul_ok {ic : IntConfig} {φ : BitVec n → BitVec n} {m : ModuleId} {r2 : Nat} (hw : WFw w) (hr : w.circs[r]? = some c0)
    (hN : N ≤ w.circs.length) (hi : IntOk w N c0.storage n ic) (hr2 : 8 * (AInt.bytesLe r2).length ≤ n)
    (hm : ModOk w N c0.storage m n n (lift1 φ)) :
    Builds w N c0.storage (Fp.buildMul r ic n r2 m) (2 * n) n
      (bin n (lift2 fun a b => φ (φ (a * b) * BitVec.ofNat n r2))) := by
  refine Builds.mk hw hr hN (by intro ins hl; simp [bin, lift2]) ?_
  intro w1 s K mid c1 ins hmods hb he hl
  have hd0 : IntD w1 (fun d => d < K.out ∨ d = s) K.st n ic := hi.toD hmods
  have hd : IntD w1 (fun d => d < K.out ∨ d = s) K.st n { ic with cref := s } :=
    ⟨hd0.add, hd0.sub, hd0.mul, hd0.eq, hd0.neq, hd0.less, hd0.lessOrEq, hd0.larger, hd0.largerOrEq⟩
  simp only []
  generalize hic : ({ ic with cref := s } : IntConfig) = cfg at hd
  have hcr : cfg.cref = s := by rw [← hic]
  refine RunsC.twoI hb he hcr hl ?_
  intro x y c2 hb2 h2 hin hx hy
  refine RunsC.seq (RunsC.mul hb2 h2 hd hcr hx hy) ?_
  rintro lr c3 ⟨n3, _⟩
  have hb3 := n3.grew.step.bld
  have h3 := n3.grew.out0 h2
  refine RunsC.callThen (cfg := cfg) (v := φ (bvOf n (ins.take n) * bvOf n (ins.drop n))) hb3 h3 (hmods _ _ _ _ hm)
    n3.val.vals (by simp) (lift1_bv _ _) ?_
  intro lm c4 g4 hlm _
  have hb4 := g4.step.bld
  have h4 := g4.out0 h3
  refine RunsC.seq (RunsC.biguint (ins := ins) hb4 hcr hr2) ?_
  intro r2I c5 n5
  have hb5 := n5.grew.step.bld
  have h5 := n5.grew.out0 h4
  refine RunsC.seq (RunsC.mul hb5 h5 hd hcr (n5.grew.ival hb4 hlm) n5.val) ?_
  rintro q c6 ⟨n6, _⟩
  have hb6 := n6.grew.step.bld
  have h6 := n6.grew.out0 h5
  refine RunsC.callThen (cfg := cfg) hb6 h6 (hmods _ _ _ _ hm) n6.val.vals (by simp) (lift1_bv _ _) ?_
  intro o c7 g7 ho hready
  refine RunsC.finishI g7.step.bld (g7.out0 h6) hcr ho hready ?_ rfl
  rw [g7.inputLen, n6.grew.inputLen, n5.grew.inputLen, g4.inputLen, n3.grew.inputLen, hin]

end

end CC
