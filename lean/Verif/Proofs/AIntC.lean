import Verif.Proofs.AllocOps

/-!
# Operations of `AllocInt` inside a circuit under construction

The `RunsC` rules for the operations of `AllocInt`; values are `BitVec n`. In addition to the values, `Tidy` records
where the gates of a value come from, which is needed to show that a value can be declared as the output of a circuit
even if it is used elsewhere.
-/

namespace CC
open Spec Logic Arith

/-- the bits of a word, least significant first -/
def bvBits {n : Nat} (v : BitVec n) : List Bool := bitsOf n v.toNat

@[simp] theorem bvBits_length {n : Nat} (v : BitVec n) : (bvBits v).length = n := by simp [bvBits]

theorem bitsVal_bvBits {n : Nat} (v : BitVec n) : bitsVal (bvBits v) = v.toNat := by
  unfold bvBits; rw [bitsVal_bitsOf, Nat.mod_eq_of_lt v.isLt]

theorem bvBits_ofNat (n k : Nat) : bvBits (BitVec.ofNat n k) = bitsOf n k := by
  unfold bvBits; rw [BitVec.toNat_ofNat, bitsOf_mod]

theorem bvBits_of {n : Nat} {bs : List Bool} (h : bs.length = n) : bs = bvBits (BitVec.ofNat n (bitsVal bs)) := by
  rw [bvBits_ofNat, bitsOf_bitsVal h]

theorem bvBits_inj {n : Nat} {x y : BitVec n} (h : bvBits x = bvBits y) : x = y := by
  apply BitVec.eq_of_toNat_eq
  rw [← bitsVal_bvBits, h, bitsVal_bvBits]

theorem addF_bv {n : Nat} (x y : BitVec n) : addF n (bvBits x) (bvBits y) = bvBits (x + y) := by
  unfold addF
  rw [bitsVal_bvBits, bitsVal_bvBits]
  unfold bvBits
  rw [BitVec.toNat_add, bitsOf_mod]

theorem subF_bv {n : Nat} (x y : BitVec n) : subF n (bvBits x) (bvBits y) = bvBits (x - y) := by
  unfold subF
  rw [bitsVal_bvBits, bitsVal_bvBits]
  unfold bvBits
  rw [BitVec.toNat_sub, bitsOf_mod, Nat.add_comm]

theorem mulF_bv {n : Nat} (x y : BitVec n) : mulF n (bvBits x) (bvBits y) = bvBits (x * y) := by
  unfold mulF
  rw [bitsVal_bvBits, bitsVal_bvBits]
  unfold bvBits
  rw [BitVec.toNat_mul, bitsOf_mod]

theorem bvBits_get {n : Nat} (v : BitVec n) {i : Nat} (h : i < n) : (bvBits v)[i]? = some (v.getLsbD i) := by
  unfold bvBits; rw [bitsOf_get h]; rfl

theorem lessF_bv {n : Nat} (hn : 1 ≤ n) (x y : BitVec n) : lessF n (bvBits x) (bvBits y) = (x - y).msb := by
  have h : (subF n (bvBits x) (bvBits y))[n - 1]? = some (lessF n (bvBits x) (bvBits y)) := by
    unfold subF lessF; rw [bitsOf_get (by omega)]
  rw [subF_bv, bvBits_get _ (by omega)] at h
  rw [BitVec.msb_eq_getLsbD_last]
  exact (Option.some.inj h).symm

theorem eq_bv {n : Nat} (x y : BitVec n) : (bvBits x == bvBits y) = (x == y) := by
  rw [Bool.beq_eq_decide_eq, Bool.eq_iff_iff]
  simp only [decide_eq_true_eq, beq_iff_eq]
  exact ⟨bvBits_inj, fun e => by rw [e]⟩

theorem bvBits_zero (n : Nat) : bvBits (0 : BitVec n) = List.replicate n false := by
  unfold bvBits; rw [show (0 : BitVec n).toNat = 0 by simp, bitsOf_zero]

theorem shl_bv {n k : Nat} (hk : k ≤ n) (x : BitVec n) :
    List.replicate k false ++ (bvBits x).take (n - k) = bvBits (x <<< k) := by
  have h := shl_val hk (bvBits_length x)
  have hl : (List.replicate k false ++ (bvBits x).take (n - k)).length = n := by simp; omega
  rw [← bitsOf_bitsVal hl, h, bitsVal_bvBits, bitsOf_mod]
  unfold bvBits
  rw [BitVec.toNat_shiftLeft, bitsOf_mod, Nat.shiftLeft_eq]

theorem shr_bv {n k : Nat} (hn : 1 ≤ n) (hk : k ≤ n) (x : BitVec n) :
    (bvBits x).drop k ++ List.replicate k x.msb = bvBits (x.sshiftRight k) := by
  apply List.ext_getElem?
  intro i
  by_cases hi : i < n
  · rw [bvBits_get _ hi, BitVec.getLsbD_sshiftRight, decide_eq_false (by omega)]
    simp only [Bool.not_false, Bool.true_and]
    by_cases h2 : k + i < n
    · rw [if_pos h2, List.getElem?_append_left (by simp; omega), List.getElem?_drop, bvBits_get _ h2]
    · rw [if_neg h2, List.getElem?_append_right (by simp; omega), List.getElem?_replicate, if_pos (by simp; omega)]
  · rw [List.getElem?_eq_none (by simp; omega), List.getElem?_eq_none (by simp; omega)]

/-! ### tidy values -/

/-- an input or a constant -/
def Source (c : Circuit) (p : GateId) : Prop := (∃ k, c.gateMap p = some (.input k)) ∨ ∃ v, c.gateMap p = some (.const v)

/-- the gates of a value: gates of the module call made at `L`, inputs and constants not before `L`; only inputs and
constants if `src` -/
def Tidy (c : Circuit) (L : Nat) (src : Bool) (gs : List GateId) : Prop :=
  L ≤ c.gateIndex ∧ ∀ p ∈ gs, L ≤ p ∧ (Source c p ∨ (src = false ∧ ∃ gate, c.gateMap p = some gate ∧ lead p gate = L))

theorem Tidy.ext {c c' : Circuit} (h : ExtC c c') {L src} {gs : List GateId} (ht : Tidy c L src gs) : Tidy c' L src gs := by
  obtain ⟨h1, h2⟩ := ht
  refine ⟨Nat.le_trans h1 h.gateIndex, fun p hp => ?_⟩
  obtain ⟨h3, h4⟩ := h2 p hp
  refine ⟨h3, ?_⟩
  rcases h4 with (⟨k, hk⟩ | ⟨v, hv⟩) | ⟨h0, gate, hg, hl⟩
  · exact .inl (.inl ⟨k, h.gates _ _ hk⟩)
  · exact .inl (.inr ⟨v, h.gates _ _ hv⟩)
  · exact .inr ⟨h0, gate, h.gates _ _ hg, hl⟩

theorem Tidy.subset {c : Circuit} {L src} {gs gs' : List GateId} (ht : Tidy c L src gs) (h : ∀ g ∈ gs', g ∈ gs) :
    Tidy c L src gs' := ⟨ht.1, fun p hp => ht.2 p (h p hp)⟩

theorem reach_source {c : Circuit} {p g : GateId} (h : Source c p) (hr : Reach c p g) : g = p := by
  induction hr with
  | refl => rfl
  | operand _ hy hx ih =>
    subst ih
    rcases h with ⟨k, hk⟩ | ⟨v, hv⟩
    · rw [hk] at hy; cases hy; simp [Gate.operands] at hx
    · rw [hv] at hy; cases hy; simp [Gate.operands] at hx
  | sibling _ hy _ ih =>
    subst ih
    rcases h with ⟨k, hk⟩ | ⟨v, hv⟩
    · rw [hk] at hy; cases hy
    · rw [hv] at hy; cases hy

/-- nothing needed for an earlier value reads a gate of a tidy value -/
theorem Tidy.unread {c : Circuit} (hwf : WFc c) (ht : Topo c) {L L' : Nat} {src src' : Bool} {gs gs' : List GateId}
    (h : Tidy c L src gs) (h' : Tidy c L' src' gs') (hL : src = true ∨ L ≤ L') {p g o : GateId} {gate : Gate}
    (hp : p ∈ gs) (ho : o ∈ gs') (hr : Reach c p g) (hg : c.gateMap g = some gate) : o ∉ gate.operands := by
  intro hmem
  obtain ⟨_, h4⟩ := h.2 p hp
  have h5 := (h'.2 o ho).1
  rcases h4 with hs | ⟨hf, gp, hgp, hl⟩
  · obtain rfl := reach_source hs hr
    rcases hs with ⟨k, hk⟩ | ⟨v, hv⟩
    · rw [hk] at hg; cases hg; simp [Gate.operands] at hmem
    · rw [hv] at hg; cases hg; simp [Gate.operands] at hmem
  · have hL' : L ≤ L' := hL.resolve_left (by simp [hf])
    have h6 := reach_lead hwf ht hr
    have e1 : leadOf c p = L := by simp only [leadOf, hgp]; exact hl
    have e2 : leadOf c g = lead g gate := by simp only [leadOf, hg]
    have := ht g gate hg o hmem
    omega

/-! ### rules -/

/-- the module table of a configuration, for a circuit under construction -/
structure IntD (w : World) (D : Ref → Prop) (st : StoreRef) (n : Nat) (cfg : IntConfig) : Prop where
  add : ModD w D st cfg.addMid (2 * n) n (bin n (addF n))
  sub : ModD w D st cfg.subMid (2 * n) n (bin n (subF n))
  mul : ModD w D st cfg.mulMid (2 * n) n (bin n (mulF n))
  eq : ModD w D st cfg.eqMid (2 * n) 1 (bin n fun a b => [a == b])
  neq : ModD w D st cfg.neqMid (2 * n) 1 (bin n fun a b => [!(a == b)])
  less : ModD w D st cfg.lessMid (2 * n) 1 (bin n fun a b => [lessF n a b])
  lessOrEq : ModD w D st cfg.lessOrEqMid (2 * n) 1 (bin n fun a b => [lessF n a b || a == b])
  larger : ModD w D st cfg.largerMid (2 * n) 1 (bin n fun a b => [!(lessF n a b || a == b)])
  largerOrEq : ModD w D st cfg.largerOrEqMid (2 * n) 1 (bin n fun a b => [!lessF n a b])

theorem IntOk.toD {w w1 : World} {N : Nat} {D : Ref → Prop} {st st1 : StoreRef} {n : Nat} {cfg : IntConfig} (h : IntOk w N st n cfg)
    (hm : ∀ mid nIn nOut f, ModOk w N st mid nIn nOut f → ModD w1 D st1 mid nIn nOut f) : IntD w1 D st1 n cfg :=
  ⟨hm _ _ _ _ h.add, hm _ _ _ _ h.sub, hm _ _ _ _ h.mul, hm _ _ _ _ h.eq, hm _ _ _ _ h.neq, hm _ _ _ _ h.less,
    hm _ _ _ _ h.lessOrEq, hm _ _ _ _ h.larger, hm _ _ _ _ h.largerOrEq⟩

theorem RunsC.both {w : World} {s : Ref} {α} {x : M α} {c : Circuit} {P Q : α → Circuit → Prop}
    (hlt : s < w.circs.length) (h : RunsC w s x c P) (k : RunsC w s x c Q) : RunsC w s x c fun a c' => P a c' ∧ Q a c' := by
  obtain ⟨a, c1, h1, h2⟩ := h
  obtain ⟨a', c1', h1', h2'⟩ := k
  rw [h1] at h1'
  injection h1' with e1 e2
  injection e1 with e1
  subst e1
  rw [← setC_inj hlt e2] at h2'
  exact ⟨a, c1, h1, h2, h2'⟩

section
variable {w : World} {s : Ref} {K : Ctx} {c : Circuit} {ins : List Bool} {n : Nat}

/-- an `AllocInt` of circuit `s` holding the word `v` -/
structure IVal (w : World) (s : Ref) (ins : List Bool) (c : Circuit) {n : Nat} (x : AInt) (cfg : IntConfig) (v : BitVec n) :
    Prop where
  config : x.config = cfg
  vals : All2 (V w s ins c) x.val (bvBits v)

theorem IVal.step {c' : Circuit} {x : AInt} {cfg : IntConfig} {v : BitVec n} (h : IVal w s ins c x cfg v)
    (hb : Bld w s K c) (hs : Step w s K c c') : IVal w s ins c' x cfg v :=
  ⟨h.config, hs.vs hb h.vals⟩

theorem IVal.len {x : AInt} {cfg : IntConfig} {v : BitVec n} (h : IVal w s ins c x cfg v) : x.val.length = n := by
  rw [h.vals.length]; simp

/-- the state after an operation -/
structure NewI (w : World) (s : Ref) (K : Ctx) (ins : List Bool) (c : Circuit) {n : Nat} (x : AInt) (cfg : IntConfig)
    (v : BitVec n) (src : Bool) (c' : Circuit) : Prop where
  grew : Grew w s K c c'
  val : IVal w s ins c' x cfg v
  tidy : ∃ L, c.gateIndex ≤ L ∧ Tidy c' L src x.val

/-- the state after an operation that returns one gate -/
structure NewB (w : World) (s : Ref) (K : Ctx) (ins : List Bool) (c : Circuit) (g : GateId) (b : Bool) (c' : Circuit) :
    Prop where
  grew : Grew w s K c c'
  v : V w s ins c' g b
  tidy : ∃ L, c.gateIndex ≤ L ∧ L < c'.gateIndex ∧ Tidy c' L false [g]

theorem RunsC.constant_src (hb : Bld w s K c) (v : Bool) :
    RunsC w s (CC.constant s v) c fun g c' => c.gateIndex ≤ g ∧ Source c' g := by
  have he : CC.constant s v (w.setC s c) = (.ok c.gateIndex, w.setC s (c.constant v).2) := by
    rw [constant_eq hb.get, setC_setC]
  have ap := Circuit.constant_appends hb.wfc v
  refine ⟨_, _, he, Nat.le_refl _, .inr ⟨v, ?_⟩⟩
  have := ap.new 0
  simpa using this

theorem RunsC.input_src (hb : Bld w s K c) :
    RunsC w s (CC.input s) c fun g c' => c.gateIndex ≤ g ∧ Source c' g := by
  have he : CC.input s (w.setC s c) = (.ok c.gateIndex, w.setC s c.input.2) := by
    rw [input_eq hb.get, setC_setC]
  have ap := Circuit.input_appends hb.wfc
  refine ⟨_, _, he, Nat.le_refl _, .inl ⟨c.inputLen, ?_⟩⟩
  have := ap.new 0
  simpa using this

theorem Source.ext {c c' : Circuit} (h : ExtC c c') {p} (hs : Source c p) : Source c' p := by
  rcases hs with ⟨k, hk⟩ | ⟨v, hv⟩
  · exact .inl ⟨k, h.gates _ _ hk⟩
  · exact .inr ⟨v, h.gates _ _ hv⟩

/-- `n` constants are new sources -/
theorem RunsC.consts_src (hb : Bld w s K c) (v : Bool) (n : Nat) :
    RunsC w s (M.replicate (CC.constant s v) n) c fun gs c' => ∀ g ∈ gs, c.gateIndex ≤ g ∧ Source c' g := by
  refine (RunsC.replicate (I := fun acc c' => Grew w s K c c' ∧ ∀ g ∈ acc, c.gateIndex ≤ g ∧ Source c' g) n [] ⟨hb.grew, by simp⟩ ?_).mono ?_
  · rintro acc c1 _ ⟨h1, h2⟩
    refine (RunsC.both hb.lt (RunsC.constant (ins := []) h1.step.bld v) (RunsC.constant_src h1.step.bld v)).mono ?_
    rintro g c2 ⟨hn, k1, k2⟩
    refine ⟨h1.trans hn.grew, ?_⟩
    intro g' hg'
    rcases List.mem_append.mp hg' with hg' | hg'
    · obtain ⟨a1, a2⟩ := h2 g' hg'
      exact ⟨a1, a2.ext hn.step.ext⟩
    · simp at hg'; subst hg'
      exact ⟨Nat.le_trans h1.step.ext.gateIndex k1, k2⟩
  · rintro gs c' ⟨⟨h1, h2⟩, h3⟩
    simpa using h2

theorem RunsC.constList_src : ∀ (bs : List Bool) {c : Circuit} (_ : Bld w s K c),
    RunsC w s (M.mapList (fun b => CC.constant s b) bs) c fun gs c' => ∀ g ∈ gs, c.gateIndex ≤ g ∧ Source c' g
  | [], _, hb => RunsC.pure (by simp)
  | b :: bs, c, hb => by
    refine RunsC.seq (RunsC.both hb.lt (RunsC.constant (ins := []) hb b) (RunsC.constant_src hb b)) ?_
    rintro g c1 ⟨h1, k1, k2⟩
    refine RunsC.seq (RunsC.both hb.lt (RunsC.constList (ins := []) bs h1.step.bld) (RunsC.constList_src bs h1.step.bld)) ?_
    rintro gs c2 ⟨⟨h2, _⟩, h3⟩
    refine RunsC.pure ?_
    intro g' hg'
    rcases List.mem_cons.mp hg' with rfl | hg'
    · exact ⟨k1, k2.ext h2.step.ext⟩
    · obtain ⟨a1, a2⟩ := h3 g' hg'
      exact ⟨Nat.le_trans h1.step.ext.gateIndex a1, a2⟩

theorem tidy_src {gs : List GateId} {L : Nat} (hl : L ≤ c.gateIndex) (h : ∀ g ∈ gs, L ≤ g ∧ Source c g) :
    Tidy c L true gs := ⟨hl, fun p hp => ⟨(h p hp).1, .inl (h p hp).2⟩⟩

/-- the results of a module call are tidy -/
theorem RunsC.module_tidy (hb : Bld w s K c) {mid : ModuleId} {nIn nOut : Nat} {f : List Bool → List Bool}
    (hm : ModD w (fun d => d < K.out ∨ d = s) K.st mid nIn nOut f) (ids : List GateId) :
    RunsC w s (CC.module s mid ids) c fun gs c' => Tidy c' c.gateIndex false gs := by
  obtain ⟨mr, mc, stor, m1, m2, mA, m4, m5, m6, m7, m8, m9⟩ := hm
  have m3 : mr ≠ s := (mA s (Or.inr rfl)).ne
  have hmod : w.module? c mid = some mr := by rw [hb.module?_eq, m1]; exact m2
  have hmod' : (w.setC s c).module? c mid = some mr := hmod
  have hmc' : (w.setC s c).circs[mr]? = some mc := by rw [setC_get_ne _ m3]; exact m4
  obtain ⟨c', he, heff⟩ := module_eq_ok hb.wfc hb.get hmod' m3 hmc' (by omega) ids
  rw [setC_setC] at he
  have ap := heff.appends
  refine ⟨_, _, he, by rw [ap.idx]; omega, ?_⟩
  intro p hp
  simp at hp
  obtain ⟨i, hi, rfl⟩ : ∃ i, i < mc.outputLen ∧ p = c.gateIndex + i := ⟨p - c.gateIndex, by omega, by omega⟩
  refine ⟨by omega, .inr ⟨rfl, _, by rw [ap.new, moduleGates_get, if_pos hi], ?_⟩⟩
  simp [lead]

theorem Step.notOut0 {c' : Circuit} (h : Step w s K c c') (h0 : c.outputLen = 0) (x : GateId) : NotOut c' x :=
  h.bld.notOut (h.outputLen.trans h0) x

/-- a two-operand module call on words -/
theorem RunsC.callI (hb : Bld w s K c) (h0 : c.outputLen = 0) {mid : ModuleId} {f : List Bool → List Bool → List Bool}
    {φ : BitVec n → BitVec n → BitVec n} (hf : ∀ x y, f (bvBits x) (bvBits y) = bvBits (φ x y))
    (hm : ModD w (fun d => d < K.out ∨ d = s) K.st mid (2 * n) n (bin n f)) {x y : AInt} {cfg : IntConfig} {cfg' : IntConfig}
    (hcr : cfg.cref = s) {a b : BitVec n}
    (hx : IVal w s ins c x cfg a) (hy : IVal w s ins c y cfg' b) :
    RunsC w s (do
      let bits ← M.expect (CC.module x.config.cref mid (x.val ++ y.val))
      Pure.pure { val := bits, config := x.config : AInt }) c fun z c' => NewI w s K ins c z cfg (φ a b) false c' ∧ Ready c' z.val := by
  rw [hx.config, hcr]
  have hl : (bvBits a ++ bvBits b).length = 2 * n := by simp; omega
  refine RunsC.seq (RunsC.expect (RunsC.both hb.lt (RunsC.module (ins := ins) hb hm (hx.vals.append hy.vals) hl
    (fun x _ => hb.notOut h0 x)) (RunsC.module_tidy hb hm _))) ?_
  rintro gs c' ⟨⟨h1, h2⟩, h3⟩
  refine RunsC.pure ⟨⟨h1.grew, ⟨rfl, ?_⟩, _, Nat.le_refl _, h3⟩, h1.ready hb⟩
  have := h1.v
  rw [(All2.app_bin hx.vals hy.vals (bvBits_length _) f).2, hf] at this
  exact this

theorem RunsC.add (hb : Bld w s K c) (h0 : c.outputLen = 0) {cfg cfg' : IntConfig}
    (hi : IntD w (fun d => d < K.out ∨ d = s) K.st n cfg) (hcr : cfg.cref = s) {x y : AInt} {a b : BitVec n}
    (hx : IVal w s ins c x cfg a) (hy : IVal w s ins c y cfg' b) :
    RunsC w s (x.add y) c fun z c' => NewI w s K ins c z cfg (a + b) false c' ∧ Ready c' z.val := by
  unfold AInt.add
  have := RunsC.callI hb h0 addF_bv hi.add hcr hx hy
  rw [← hx.config] at this
  rw [← hx.config]; exact this

theorem RunsC.sub (hb : Bld w s K c) (h0 : c.outputLen = 0) {cfg cfg' : IntConfig}
    (hi : IntD w (fun d => d < K.out ∨ d = s) K.st n cfg) (hcr : cfg.cref = s) {x y : AInt} {a b : BitVec n}
    (hx : IVal w s ins c x cfg a) (hy : IVal w s ins c y cfg' b) :
    RunsC w s (x.sub y) c fun z c' => NewI w s K ins c z cfg (a - b) false c' ∧ Ready c' z.val := by
  unfold AInt.sub
  have := RunsC.callI hb h0 subF_bv hi.sub hcr hx hy
  rw [← hx.config] at this
  rw [← hx.config]; exact this

theorem RunsC.mul (hb : Bld w s K c) (h0 : c.outputLen = 0) {cfg cfg' : IntConfig}
    (hi : IntD w (fun d => d < K.out ∨ d = s) K.st n cfg) (hcr : cfg.cref = s) {x y : AInt} {a b : BitVec n}
    (hx : IVal w s ins c x cfg a) (hy : IVal w s ins c y cfg' b) :
    RunsC w s (x.mul y) c fun z c' => NewI w s K ins c z cfg (a * b) false c' ∧ Ready c' z.val := by
  unfold AInt.mul
  have := RunsC.callI hb h0 mulF_bv hi.mul hcr hx hy
  rw [← hx.config] at this
  rw [← hx.config]; exact this

theorem RunsC.compareI (hb : Bld w s K c) (h0 : c.outputLen = 0) {mid : ModuleId} {f : List Bool → List Bool → Bool}
    {φ : BitVec n → BitVec n → Bool} (hf : ∀ x y, f (bvBits x) (bvBits y) = φ x y)
    (hm : ModD w (fun d => d < K.out ∨ d = s) K.st mid (2 * n) 1 (bin n fun a b => [f a b])) {x y : AInt} {cfg cfg' : IntConfig}
    (hcr : cfg.cref = s) {a b : BitVec n} (hx : IVal w s ins c x cfg a) (hy : IVal w s ins c y cfg' b) :
    RunsC w s (AInt.compareWith mid x y n) c fun g c' => NewB w s K ins c g (φ a b) c' := by
  have lx := hx.len
  have ly := hy.len
  unfold AInt.compareWith AInt.slices
  rw [if_neg (by omega), if_neg (by omega), List.take_of_length_le (by omega), List.take_of_length_le (by omega),
    hx.config, hcr]
  have hl : (bvBits a ++ bvBits b).length = 2 * n := by simp; omega
  refine RunsC.bind (RunsC.pure ?_)
  refine RunsC.seq (RunsC.both hb.lt (RunsC.module (ins := ins) hb hm (hx.vals.append hy.vals) hl
    (fun x _ => hb.notOut h0 x)) (RunsC.module_tidy hb hm _)) ?_
  rintro gs c' ⟨⟨h1, h2⟩, h3⟩
  have := h1.v
  rw [(All2.app_bin hx.vals hy.vals (bvBits_length _) _).2, hf] at this
  match gs, this with
  | [g], hv =>
    refine RunsC.idx rfl ⟨h1.grew, hv.1, _, Nat.le_refl _, ?_, h3⟩
    have h4 := (h3.2 g (by simp)).1
    have h5 := hv.1.lt h1.step.bld
    omega

theorem RunsC.less (hb : Bld w s K c) (h0 : c.outputLen = 0) {cfg cfg' : IntConfig} (hn : 1 ≤ n)
    (hi : IntD w (fun d => d < K.out ∨ d = s) K.st n cfg) (hcr : cfg.cref = s) {x y : AInt} {a b : BitVec n}
    (hx : IVal w s ins c x cfg a) (hy : IVal w s ins c y cfg' b) :
    RunsC w s (x.less y n) c fun g c' => NewB w s K ins c g (a - b).msb c' := by
  have := RunsC.compareI hb h0 (lessF_bv hn) hi.less hcr hx hy
  rw [← hx.config] at this; exact this

theorem RunsC.larger (hb : Bld w s K c) (h0 : c.outputLen = 0) {cfg cfg' : IntConfig} (hn : 1 ≤ n)
    (hi : IntD w (fun d => d < K.out ∨ d = s) K.st n cfg) (hcr : cfg.cref = s) {x y : AInt} {a b : BitVec n}
    (hx : IVal w s ins c x cfg a) (hy : IVal w s ins c y cfg' b) :
    RunsC w s (x.larger y n) c fun g c' => NewB w s K ins c g (!((a - b).msb || a == b)) c' := by
  have := RunsC.compareI (φ := fun a b => !((a - b).msb || a == b)) hb h0 (fun x y => by rw [lessF_bv hn, eq_bv]) hi.larger hcr hx hy
  rw [← hx.config] at this; exact this

theorem RunsC.largerOrEq (hb : Bld w s K c) (h0 : c.outputLen = 0) {cfg cfg' : IntConfig} (hn : 1 ≤ n)
    (hi : IntD w (fun d => d < K.out ∨ d = s) K.st n cfg) (hcr : cfg.cref = s) {x y : AInt} {a b : BitVec n}
    (hx : IVal w s ins c x cfg a) (hy : IVal w s ins c y cfg' b) :
    RunsC w s (x.largerOrEq y n) c fun g c' => NewB w s K ins c g (!(a - b).msb) c' := by
  have := RunsC.compareI (φ := fun a b => !(a - b).msb) hb h0 (fun x y => by rw [lessF_bv hn]) hi.largerOrEq hcr hx hy
  rw [← hx.config] at this; exact this

theorem RunsC.eqI (hb : Bld w s K c) (h0 : c.outputLen = 0) {cfg cfg' : IntConfig}
    (hi : IntD w (fun d => d < K.out ∨ d = s) K.st n cfg) (hcr : cfg.cref = s) {x y : AInt} {a b : BitVec n}
    (hx : IVal w s ins c x cfg a) (hy : IVal w s ins c y cfg' b) :
    RunsC w s (x.eq y n) c fun g c' => NewB w s K ins c g (a == b) c' := by
  have := RunsC.compareI hb h0 eq_bv hi.eq hcr hx hy
  rw [← hx.config] at this; exact this

theorem RunsC.neqI (hb : Bld w s K c) (h0 : c.outputLen = 0) {cfg cfg' : IntConfig}
    (hi : IntD w (fun d => d < K.out ∨ d = s) K.st n cfg) (hcr : cfg.cref = s) {x y : AInt} {a b : BitVec n}
    (hx : IVal w s ins c x cfg a) (hy : IVal w s ins c y cfg' b) :
    RunsC w s (x.neq y n) c fun g c' => NewB w s K ins c g (!(a == b)) c' := by
  have := RunsC.compareI (φ := fun a b => !(a == b)) hb h0 (fun x y => by rw [eq_bv]) hi.neq hcr hx hy
  rw [← hx.config] at this; exact this

/-- zero extension of gates -/
theorem RunsC.fromGateIds (hb : Bld w s K c) {cfg : IntConfig} (hcr : cfg.cref = s) {ids : List GateId} {bs : List Bool}
    (hv : All2 (V w s ins c) ids bs) (hl : ids.length ≤ n) :
    RunsC w s (AInt.fromGateIds cfg n ids) c fun x c' => Grew w s K c c' ∧ x.config = cfg ∧
      All2 (V w s ins c') x.val (bvBits (BitVec.ofNat n (bitsVal bs))) ∧
      ∃ pad, x.val = ids ++ pad ∧ pad.length = n - ids.length ∧ ∀ g ∈ pad, c.gateIndex ≤ g ∧ Source c' g := by
  unfold AInt.fromGateIds
  rw [if_pos hl, hcr]
  refine RunsC.seq (RunsC.both hb.lt (RunsC.consts (ins := ins) hb false _) (RunsC.consts_src hb false _)) ?_
  rintro pad c' ⟨⟨h1, h2⟩, h3⟩
  have := hv.length
  refine RunsC.pure ⟨h1, by simp [hcr], ?_, pad, rfl, ?_, h3⟩
  · rw [bvBits_ofNat, ← bitsOf_extend (by omega)]
    rw [this] at h2
    exact (h1.step.vs hb hv).append h2
  · rw [h2.length]; simp

theorem RunsC.ofBit (hb : Bld w s K c) {cfg : IntConfig} (hn : 1 ≤ n) (hcr : cfg.cref = s) {g : GateId} {b : Bool}
    (hv : V w s ins c g b) :
    RunsC w s (AInt.fromGateIds cfg n [g]) c fun x c' => Grew w s K c c' ∧
      IVal w s ins c' x cfg (BitVec.ofNat n b.toNat) ∧
      ∀ L, L < c.gateIndex → Tidy c L false [g] → Tidy c' L false x.val := by
  refine (RunsC.fromGateIds (ins := ins) (bs := [b]) hb hcr (show All2 _ [_] [_] from ⟨hv, trivial⟩) (by simpa using hn)).mono ?_
  rintro x c' ⟨h1, h2, h3, pad, h4, _, h6⟩
  refine ⟨h1, ⟨h2, by simpa [bitsVal] using h3⟩, fun L hL ht => ?_⟩
  have ht' := ht.ext h1.step.ext
  refine ⟨ht'.1, fun p hp => ?_⟩
  rw [h4] at hp
  rcases List.mem_append.mp hp with hp | hp
  · exact ht'.2 p hp
  · have := (h6 p hp).1
    exact ⟨by omega, .inl (h6 p hp).2⟩

theorem RunsC.zeroI (hb : Bld w s K c) {cfg : IntConfig} (hcr : cfg.cref = s) :
    RunsC w s (AInt.zero cfg n) c fun x c' => NewI w s K ins c x cfg (0 : BitVec n) true c' := by
  unfold AInt.zero
  refine (RunsC.fromGateIds (ins := ins) (n := n) (ids := []) (bs := []) hb hcr trivial (Nat.zero_le _)).mono ?_
  rintro x c' ⟨h1, h2, h3, pad, h4, h5, h6⟩
  refine ⟨h1, ⟨h2, by simpa [bitsVal] using h3⟩, c.gateIndex, Nat.le_refl _, tidy_src h1.step.ext.gateIndex ?_⟩
  intro g hg
  rw [h4] at hg
  exact h6 g (by simpa using hg)

theorem RunsC.oneI (hb : Bld w s K c) (hn : 1 ≤ n) {cfg : IntConfig} (hcr : cfg.cref = s) :
    RunsC w s (AInt.one cfg n) c fun x c' => NewI w s K ins c x cfg (1 : BitVec n) true c' := by
  unfold AInt.one
  rw [hcr]
  refine RunsC.seq (RunsC.both hb.lt (RunsC.constant (ins := ins) hb true) (RunsC.constant_src hb true)) ?_
  rintro t c1 ⟨h1, ht0, ht⟩
  refine (RunsC.fromGateIds (ins := ins) (n := n) (ids := [t]) (bs := [true]) h1.step.bld hcr (show All2 _ [_] [_] from ⟨h1.v, trivial⟩) (by simpa using hn)).mono ?_
  rintro x c' ⟨k1, k2, k3, pad, k4, k5, k6⟩
  refine ⟨h1.grew.trans k1, ⟨k2, by simpa [bitsVal] using k3⟩, c.gateIndex, Nat.le_refl _,
    tidy_src (h1.grew.trans k1).step.ext.gateIndex ?_⟩
  intro g hg
  rw [k4] at hg
  rcases List.mem_append.mp hg with hg | hg
  · simp at hg; subst hg; exact ⟨ht0, ht.ext k1.step.ext⟩
  · exact ⟨Nat.le_trans h1.step.ext.gateIndex (k6 g hg).1, (k6 g hg).2⟩

/-- `from_biguint` when the bytes fit -/
theorem RunsC.biguint (hb : Bld w s K c) {cfg : IntConfig} (hcr : cfg.cref = s) {v : Nat}
    (hv : 8 * (AInt.bytesLe v).length ≤ n) :
    RunsC w s (AInt.fromBiguint cfg n v) c fun x c' => NewI w s K ins c x cfg (BitVec.ofNat n v) true c' := by
  have hbl := (Props.C41_lengths (AInt.bytesLe v)).1
  have hval : bitsVal (Utils.bytes2bitsLe (AInt.bytesLe v)) = v := by
    rw [Props.C42_le_value _ (bytesLe_lt v), bytesLe_val]
  unfold AInt.fromBiguint
  simp only []
  rw [if_pos (by omega), hcr]
  refine RunsC.seq (RunsC.both hb.lt (RunsC.constList (ins := ins) _ hb) (RunsC.constList_src _ hb)) ?_
  rintro gs c1 ⟨⟨h1, h2⟩, h3⟩
  refine RunsC.seq (RunsC.both hb.lt (RunsC.consts (ins := ins) h1.step.bld false _) (RunsC.consts_src h1.step.bld false _)) ?_
  rintro pad c' ⟨⟨k1, k2⟩, k3⟩
  refine RunsC.pure ⟨h1.trans k1, ⟨rfl, ?_⟩, c.gateIndex, Nat.le_refl _, tidy_src (h1.trans k1).step.ext.gateIndex ?_⟩
  · rw [bvBits_ofNat]
    have := bitsOf_extend (n := n) (bs := Utils.bytes2bitsLe (AInt.bytesLe v)) (by omega)
    rw [hval] at this
    rw [← this]
    exact (k1.step.vs h1.step.bld h2).append k2
  · intro g hg
    rcases List.mem_append.mp hg with hg | hg
    · exact ⟨(h3 g hg).1, (h3 g hg).2.ext k1.step.ext⟩
    · exact ⟨Nat.le_trans h1.step.ext.gateIndex (k3 g hg).1, (k3 g hg).2⟩

theorem RunsC.neg (hb : Bld w s K c) (h0 : c.outputLen = 0) {cfg : IntConfig}
    (hi : IntD w (fun d => d < K.out ∨ d = s) K.st n cfg) (hcr : cfg.cref = s) {x : AInt} {a : BitVec n}
    (hx : IVal w s ins c x cfg a) :
    RunsC w s (x.neg n) c fun z c' => NewI w s K ins c z cfg (-a) false c' ∧ Ready c' z.val := by
  unfold AInt.neg
  rw [hx.config]
  refine RunsC.seq (RunsC.expect (RunsC.zeroI (ins := ins) (n := n) hb hcr)) ?_
  intro z c1 h1
  refine (RunsC.sub h1.grew.step.bld (h1.grew.out0 h0) hi hcr h1.val (hx.step hb h1.grew.step)).mono ?_
  rintro z c2 ⟨k1, k2⟩
  obtain ⟨L, hL, ht⟩ := k1.tidy
  refine ⟨⟨h1.grew.trans k1.grew, ?_, L, Nat.le_trans h1.grew.step.ext.gateIndex hL, ht⟩, k2⟩
  have := k1.val
  rwa [show (0 : BitVec n) - a = -a from BitVec.zero_sub a] at this

/-- reading elements does not change the heap -/
theorem RunsC.reads {l : List GateId} {f : Nat → Nat} {is : List Nat} {gs : List GateId} {Q : List GateId → Circuit → Prop}
    (h : M.mapList (fun i => M.idx l (f i)) is (w.setC s c) = (.ok gs, w.setC s c)) (hq : Q gs c) :
    RunsC w s (M.mapList (fun i => M.idx l (f i)) is) c Q := ⟨gs, c, h, hq⟩

theorem RunsC.shl (hb : Bld w s K c) {cfg : IntConfig} (hcr : cfg.cref = s) {x : AInt} {a : BitVec n}
    (hx : IVal w s ins c x cfg a) {k : Nat} (hk : k ≤ n) :
    RunsC w s (x.shiftLeft n k) c fun z c' => Grew w s K c c' ∧ IVal w s ins c' z cfg (a <<< k) ∧
      ∀ L src, Tidy c L src x.val → Tidy c' L src z.val := by
  have hl := hx.len
  unfold AInt.shiftLeft
  rw [hx.config, hcr]
  refine RunsC.seq (RunsC.both hb.lt (RunsC.consts (ins := ins) hb false k) (RunsC.consts_src hb false k)) ?_
  rintro zs c1 ⟨⟨h1, h2⟩, h3⟩
  obtain ⟨gs, e1, e2, e3⟩ := mapIdx_ok x.val (fun i => i - k) (w.setC s c1) (rangeFromTo k n) (by
    intro i hi
    simp [rangeFromTo] at hi
    obtain ⟨a, ha, rfl⟩ := hi
    omega)
  have egs : gs = x.val.take (n - k) := by
    apply List.ext_getElem?
    intro i
    by_cases hi : i < n - k
    · rw [e3 i (k + i) (by simp [rangeFromTo, hi]), List.getElem?_take, if_pos hi]
      congr 1; omega
    · rw [List.getElem?_eq_none (by rw [e2]; simp [rangeFromTo]; omega), List.getElem?_take, if_neg hi]
  refine RunsC.bind (RunsC.reads e1 (RunsC.pure ⟨h1, ⟨by simp, ?_⟩, ?_⟩))
  · rw [egs, ← shl_bv hk]
    exact h2.append ((h1.step.vs hb hx.vals).take _)
  · rintro L src ⟨t1, t2⟩
    refine ⟨Nat.le_trans t1 h1.step.ext.gateIndex, fun p hp => ?_⟩
    rcases List.mem_append.mp hp with hp | hp
    · obtain ⟨q1, q2⟩ := h3 p hp
      exact ⟨by omega, .inl q2⟩
    · rw [egs] at hp
      obtain ⟨q1, q2⟩ := t2 p (List.mem_of_mem_take hp)
      refine ⟨q1, ?_⟩
      rcases q2 with q2 | ⟨q0, gate, q2, q3⟩
      · exact .inl (q2.ext h1.step.ext)
      · exact .inr ⟨q0, gate, h1.step.ext.gates _ _ q2, q3⟩

theorem RunsC.shr (hn : 1 ≤ n) {cfg : IntConfig} {x : AInt} {a : BitVec n}
    (hx : IVal w s ins c x cfg a) {k : Nat} (hk : k ≤ n) :
    RunsC w s (x.shiftRight n k) c fun z c' => c' = c ∧ IVal w s ins c z cfg (a.sshiftRight k) ∧
      ∀ L src, Tidy c L src x.val → Tidy c L src z.val := by
  obtain ⟨sg, h1, h2⟩ := shr_ok (w.setC s c) hn hk hx.len
  refine ⟨_, c, h2, rfl, ⟨hx.config, ?_⟩, fun L src ht => ?_⟩
  · obtain ⟨g, b, e1, e2, e3⟩ := hx.vals.get (i := n - 1) (by rw [hx.len]; omega)
    rw [h1] at e1; cases e1
    rw [bvBits_get _ (by omega), ← BitVec.msb_eq_getLsbD_last] at e2
    cases e2
    rw [← shr_bv hn hk]
    refine (hx.vals.drop k).append (all2_iff.mpr ⟨by simp, ?_⟩)
    intro i g' b' hg hb
    rw [List.getElem?_replicate] at hg hb
    split at hg
    · rw [if_pos ‹_›] at hb; cases hg; cases hb; exact e3
    · cases hg
  · refine ht.subset ?_
    intro g hg
    rcases List.mem_append.mp hg with hg | hg
    · exact List.mem_of_mem_drop hg
    · obtain rfl := (List.mem_replicate.mp hg).2
      exact List.mem_of_getElem? h1

/-- fresh inputs -/
theorem RunsC.newI (hb : Bld w s K c) (h0 : c.outputLen = 0) {cfg : IntConfig} (hcr : cfg.cref = s)
    (hl : c.inputLen + n ≤ ins.length) :
    RunsC w s (AInt.new cfg n) c fun x c' => Step w s K c c' ∧ c'.inputLen = c.inputLen + n ∧
      Tidy c' c.gateIndex true x.val ∧
      ∀ v : BitVec n, (ins.drop c.inputLen).take n = bvBits v → IVal w s ins c' x cfg v := by
  have hsrc : RunsC w s (M.replicate (CC.input s) n) c fun gs c' => ∀ g ∈ gs, c.gateIndex ≤ g ∧ Source c' g := by
    refine (RunsC.replicate (I := fun acc c' => Step w s K c c' ∧ ∀ g ∈ acc, c.gateIndex ≤ g ∧ Source c' g) n [] ⟨hb.refl, by simp⟩ ?_).mono ?_
    · rintro acc c1 _ ⟨h1, h2⟩
      refine (RunsC.both hb.lt (RunsC.input (ins := []) h1.bld (h1.outputLen.trans h0)) (RunsC.input_src h1.bld)).mono ?_
      rintro g c2 ⟨⟨hn, _⟩, k1, k2⟩
      refine ⟨h1.trans hn, ?_⟩
      intro g' hg'
      rcases List.mem_append.mp hg' with hg' | hg'
      · exact ⟨(h2 g' hg').1, (h2 g' hg').2.ext hn.ext⟩
      · simp at hg'; subst hg'; exact ⟨Nat.le_trans h1.ext.gateIndex k1, k2⟩
    · rintro gs c' ⟨⟨h1, h2⟩, h3⟩
      simpa using h2
  unfold AInt.new
  rw [hcr]
  refine RunsC.seq (RunsC.both hb.lt (RunsC.inputs (ins := ins) hb h0 n hl) hsrc) ?_
  rintro gs c' ⟨⟨h1, h2, h3, h4, h5⟩, h6⟩
  refine RunsC.pure ⟨h1, h2, tidy_src h1.ext.gateIndex h6, fun v hv => ⟨rfl, ?_⟩⟩
  rw [hv] at h5; exact h5

end

end CC
