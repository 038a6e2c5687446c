import Verif.Spec.FieldProgram
import Verif.Proofs.Mixed
import Verif.Proofs.TestFp

/-!
# Programs over field elements
-/

namespace CC.FProg
open CC Spec Spec.FieldProgram Logic Arith Fp

/-! ### the word functions -/

theorem fpAddV_correct {n : Nat} (hn : 1 ≤ n) (P a b : BitVec n) : fpAddV P a b = correct P (a + b) := by
  rw [fpAddV_cases hn P _ a b rfl]
  unfold correct
  cases (a + b - P).msb || a + b == P <;> cases (a + b).msb <;> simp

section
variable {w : World} {s : Ref} {K : Ctx} {c : Circuit} {ins : List Bool} {n p rExp : Nat} {cfg : FpConfig}

/-! ### operations -/

/-- the state after an operation that returns an element -/
structure NewF (w : World) (s : Ref) (K : Ctx) (ins : List Bool) (c : Circuit) {n : Nat} (x : AFp) (cfg : FpConfig)
    (v : BitVec n) (src : Bool) (c' : Circuit) : Prop where
  grew : Grew w s K c c'
  val : FVal w s ins c' x cfg v
  tidy : ∃ L, c.gateIndex ≤ L ∧ Tidy c' L src x.val.val

theorem RunsC.fpCall (hb : Bld w s K c) (h0 : c.outputLen = 0) {mid : ModuleId} {φ : BitVec n → BitVec n → BitVec n}
    (hm : ModD w (fun d => d < K.out ∨ d = s) K.st mid (2 * n) n (bin n (lift2 φ))) (hcr : cfg.cref = s) {x y : AFp}
    {a b : BitVec n} (hx : FVal w s ins c x cfg a) (hy : FVal w s ins c y cfg b) :
    RunsC w s (do
      let outs ← M.expect (CC.module cfg.cref mid (x.val.val ++ y.val.val))
      AFp.fromGateIdsUnchecked cfg n outs) c fun z c' => NewF w s K ins c z cfg (φ a b) false c' := by
  rw [hcr]
  have hl : (bvBits a ++ bvBits b).length = 2 * n := by simp; omega
  refine RunsC.seq (RunsC.expect (RunsC.both hb.lt (RunsC.module (ins := ins) hb hm (hx.val.vals.append hy.val.vals) hl
    (fun x _ => hb.notOut h0 x)) (RunsC.module_tidy hb hm _))) ?_
  rintro gs c' ⟨⟨h1, h2⟩, h3⟩
  have hlen := h1.v.length
  unfold AFp.fromGateIdsUnchecked
  refine RunsC.seq (RunsC.expect (RunsC.fromAll (n := n) (by omega))) ?_
  rintro z c2 ⟨rfl, rfl⟩
  refine RunsC.pure ⟨h1.grew, ⟨rfl, rfl, ?_⟩, _, Nat.le_refl _, h3⟩
  have := h1.v
  rw [(All2.app_bin hx.val.vals hy.val.vals (bvBits_length _) _).2, lift2_bv] at this
  exact this

/-- the modules of a field configuration, callable from circuit `s` -/
structure FieldD (w : World) (s : Ref) (K : Ctx) (n p : Nat) (cfg : FpConfig) : Prop where
  cref : cfg.cref = s
  icref : cfg.intConfig.cref = s
  int : IntD w (fun d => d < K.out ∨ d = s) K.st n cfg.intConfig
  add : ModD w (fun d => d < K.out ∨ d = s) K.st cfg.addMid (2 * n) n (bin n (lift2 (fpAddV (BitVec.ofNat n p))))
  sub : ModD w (fun d => d < K.out ∨ d = s) K.st cfg.subMid (2 * n) n (bin n (lift2 fun a b => fpAddV (BitVec.ofNat n p) a (-b)))
  mul : ModD w (fun d => d < K.out ∨ d = s) K.st cfg.mulMid (2 * n) n (bin n (lift2 (n := n) fun _ _ => 0))

variable (hn : 1 ≤ n) (hd : FieldD w s K n p cfg) (hb : Bld w s K c) (h0 : c.outputLen = 0)
include hn hd hb h0

theorem RunsC.addF {x y : AFp} {a b : BitVec n} (hx : FVal w s ins c x cfg a) (hy : FVal w s ins c y cfg b) :
    RunsC w s (x.add y n) c fun z c' => NewF w s K ins c z cfg (correct (BitVec.ofNat n p) (a + b)) false c' := by
  unfold AFp.add
  rw [hx.config, ← fpAddV_correct hn]
  exact RunsC.fpCall hb h0 hd.add hd.cref hx hy

theorem RunsC.subF {x y : AFp} {a b : BitVec n} (hx : FVal w s ins c x cfg a) (hy : FVal w s ins c y cfg b) :
    RunsC w s (x.sub y n) c fun z c' => NewF w s K ins c z cfg (correct (BitVec.ofNat n p) (a - b)) false c' := by
  unfold AFp.sub
  rw [hx.config, BitVec.sub_eq_add_neg, ← fpAddV_correct hn]
  exact RunsC.fpCall hb h0 hd.sub hd.cref hx hy

omit hn in
theorem RunsC.mulF {x y : AFp} {a b : BitVec n} (hx : FVal w s ins c x cfg a) (hy : FVal w s ins c y cfg b) :
    RunsC w s (x.mul y n) c fun z c' => NewF w s K ins c z cfg (0 : BitVec n) false c' := by
  unfold AFp.mul
  rw [hx.config]
  exact RunsC.fpCall hb h0 hd.mul hd.cref hx hy

omit hn h0 in
theorem RunsC.zeroF : RunsC w s (AFp.zero cfg n) c fun z c' => NewF w s K ins c z cfg (0 : BitVec n) true c' := by
  unfold AFp.zero
  refine RunsC.seq (RunsC.zeroI (ins := ins) hb hd.icref) ?_
  rintro x c' h
  exact RunsC.pure ⟨h.grew, ⟨rfl, h.val⟩, h.tidy⟩

omit h0 in
theorem RunsC.oneF : RunsC w s (AFp.one cfg n) c fun z c' => NewF w s K ins c z cfg (1 : BitVec n) true c' := by
  unfold AFp.one
  refine RunsC.seq (RunsC.oneI (ins := ins) hb hn hd.icref) ?_
  rintro x c' h
  exact RunsC.pure ⟨h.grew, ⟨rfl, h.val⟩, h.tidy⟩

omit hn h0 in
theorem RunsC.constF {v : Nat} (hv : 8 * (AInt.bytesLe v).length ≤ n) :
    RunsC w s (AFp.fromBiguintUnchecked cfg n v) c fun z c' => NewF w s K ins c z cfg (BitVec.ofNat n v) true c' := by
  unfold AFp.fromBiguintUnchecked
  refine RunsC.seq (RunsC.expect (RunsC.biguint (ins := ins) hb hd.icref hv)) ?_
  rintro x c' h
  exact RunsC.pure ⟨h.grew, ⟨rfl, h.val⟩, h.tidy⟩

theorem RunsC.negF {x : AFp} {a : BitVec n} (hx : FVal w s ins c x cfg a) :
    RunsC w s (x.neg n) c fun z c' => NewF w s K ins c z cfg (correct (BitVec.ofNat n p) (-a)) false c' := by
  unfold AFp.neg
  rw [hx.config]
  refine RunsC.seq (RunsC.expect (RunsC.zeroF (ins := ins) hd hb)) ?_
  rintro z c1 h1
  have st := h1.grew.step
  refine (RunsC.subF hn hd st.bld (st.outputLen.trans h0) h1.val (hx.step hb st)).mono ?_
  rintro y c2 h2
  obtain ⟨L, h3, h4⟩ := h2.tidy
  refine ⟨h1.grew.trans h2.grew, ?_, L, Nat.le_trans st.ext.gateIndex h3, h4⟩
  have := h2.val
  rwa [show (0 : BitVec n) - a = -a by simp] at this

end

/-! ### values -/

/-- an entry of the host program holds a value -/
def Holds (w : World) (s : Ref) (ins : List Bool) (c : Circuit) (cfg : FpConfig) {n : Nat} : Handle → Value n → Prop
  | .elem x, .elem v => FVal w s ins c x cfg v
  | .bit g, .bit b => V w s ins c g b
  | _, _ => False

def gates : Handle → List GateId
  | .elem x => x.val.val
  | .bit g => [g]

def hkind : Handle → Kind
  | .elem _ => .elem
  | .bit _ => .bit

section
variable {w : World} {s : Ref} {K : Ctx} {c : Circuit} {ins : List Bool} {n p rExp : Nat} {cfg : FpConfig}

theorem Holds.step {c' : Circuit} {h : Handle} {v : Value n} (hh : Holds w s ins c cfg h v) (hb : Bld w s K c)
    (hs : Step w s K c c') : Holds w s ins c' cfg h v := by
  cases h <;> cases v <;> first
    | exact hh.elim
    | exact FVal.step hh hb hs
    | exact hs.v hb hh

theorem Holds.vals {h : Handle} {v : Value n} (hh : Holds w s ins c cfg h v) : All2 (V w s ins c) (gates h) v.out := by
  cases h <;> cases v <;> first
    | exact hh.elim
    | exact IVal.vals (FVal.val hh)
    | exact ⟨hh, trivial⟩

section
variable {env : List Handle} {vals : List (Value n)} (henv : All2 (Holds w s ins c cfg) env vals) {i : Nat}
include henv

theorem env_elem (h : (env.map hkind)[i]? = some .elem) :
    ∃ x v, env[i]? = some (.elem x) ∧ FieldProgram.getElem vals i = some v ∧ FVal w s ins c x cfg v := by
  rw [List.getElem?_map] at h
  cases he : env[i]? with
  | none => rw [he] at h; cases h
  | some z =>
    rw [he] at h
    obtain ⟨z', v, e1, e2, e3⟩ := henv.get (lt_of_getElem? he)
    rw [he] at e1; cases e1
    cases z <;> simp [hkind] at h
    cases v <;> first
      | exact e3.elim
      | exact ⟨_, _, rfl, by unfold FieldProgram.getElem; rw [e2], e3⟩

theorem env_bit (h : (env.map hkind)[i]? = some .bit) :
    ∃ x v, env[i]? = some (.bit x) ∧ FieldProgram.getBit vals i = some v ∧ V w s ins c x v := by
  rw [List.getElem?_map] at h
  cases he : env[i]? with
  | none => rw [he] at h; cases h
  | some z =>
    rw [he] at h
    obtain ⟨z', v, e1, e2, e3⟩ := henv.get (lt_of_getElem? he)
    rw [he] at e1; cases e1
    cases z <;> simp [hkind] at h
    cases v <;> first
      | exact e3.elim
      | exact ⟨_, _, rfl, by unfold FieldProgram.getBit; rw [e2], e3⟩

end

theorem RunsC.getE {env : List Handle} {i : Nat} {x : AFp} (h : env[i]? = some (.elem x)) {β} {f : AFp → M β}
    {Q : β → Circuit → Prop} (hq : RunsC w s (f x) c Q) : RunsC w s (FieldProgram.elem env i >>= f) c Q := by
  unfold FieldProgram.elem
  exact RunsC.bind (RunsC.bind (RunsC.idx h (RunsC.pure hq)))

theorem RunsC.getB {env : List Handle} {i : Nat} {x : GateId} (h : env[i]? = some (.bit x)) {β} {f : GateId → M β}
    {Q : β → Circuit → Prop} (hq : RunsC w s (f x) c Q) : RunsC w s (FieldProgram.bit env i >>= f) c Q := by
  unfold FieldProgram.bit
  exact RunsC.bind (RunsC.bind (RunsC.idx h (RunsC.pure hq)))

/-! ### one statement -/

/-- the state after a statement -/
structure Post (w : World) (s : Ref) (K : Ctx) (ins : List Bool) (cfg : FpConfig) {n : Nat} (P : BitVec n)
    (vals : List (Value n)) (st : Cmd) (k : Kind) (c : Circuit) (h : Handle) (c' : Circuit) : Prop where
  step : Step w s K c c'
  inputLen : c'.inputLen = c.inputLen + st.takes n
  kind : hkind h = k
  val : ∃ v, st.value P vals (ins.drop c.inputLen) = some v ∧ Holds w s ins c' cfg h v
  tag : ∃ lo hi, c.gateIndex ≤ lo ∧ Base c' lo hi st.source (gates h)

variable {env : List Handle} {vals : List (Value n)} {st : Cmd} {c' : Circuit} {P : BitVec n}

theorem Post.ofF {x : AFp} {v : BitVec n} {src : Bool} (ht : st.takes n = 0) (hs : st.source = src)
    (hv : st.value P vals (ins.drop c.inputLen) = some (.elem v)) (h : NewF w s K ins c x cfg v src c') :
    Post w s K ins cfg P vals st .elem c (.elem x) c' := by
  refine ⟨h.grew.step, by rw [ht, h.grew.inputLen]; rfl, rfl, ⟨_, hv, h.val⟩, ?_⟩
  obtain ⟨L, h1, h2⟩ := h.tidy
  rw [hs]
  exact ⟨L, L, h1, h2.base h.grew.step.bld⟩

theorem Post.ofB {g : GateId} {b : Bool} (ht : st.takes n = 0) (hs : st.source = false)
    (hv : st.value P vals (ins.drop c.inputLen) = some (.bit b)) (h : NewB w s K ins c g b c') :
    Post w s K ins cfg P vals st .bit c (.bit g) c' := by
  refine ⟨h.grew.step, by rw [ht, h.grew.inputLen]; rfl, rfl, ⟨_, hv, h.v⟩, ?_⟩
  obtain ⟨L, h1, h2, h3⟩ := h.tidy
  rw [hs]
  exact ⟨L, L, h1, h3.base h.grew.step.bld⟩

theorem Post.of1 {g : GateId} {b : Bool} (ht : st.takes n = 0) (hs : st.source = false)
    (hv : st.value P vals (ins.drop c.inputLen) = some (.bit b)) (h1 : Grew w s K c c') (h2 : c.gateIndex ≤ g) (h3 : V w s ins c' g b) :
    Post w s K ins cfg P vals st .bit c (.bit g) c' := by
  refine ⟨h1.step, by rw [ht, h1.inputLen]; rfl, rfl, ⟨_, hv, h3⟩, ?_⟩
  obtain ⟨gate, e⟩ := h3.gate h1.step.bld
  rw [hs]
  exact ⟨g, g, h2, base_one h1.step.bld e fun h => by cases h⟩

theorem cmd_ok (hf : FieldFits n p rExp) (hd : FieldD w s K n p cfg) (hb : Bld w s K c) (h0 : c.outputLen = 0)
    (henv : All2 (Holds w s ins c cfg) env vals) {k : Kind} (hk : st.kind (env.map hkind) = some k) (hfit : st.Fits p)
    (hin : c.inputLen + st.takes n ≤ ins.length) :
    RunsC w s (st.build s cfg n env) c fun h c' => Post w s K ins cfg (BitVec.ofNat n p) vals st k c h c' := by
  have hn : 1 ≤ n := by have := hf.width; omega
  have no := hb.notOut h0
  unfold Cmd.build
  cases st with
  | new =>
    cases hk
    have hin : c.inputLen + n ≤ ins.length := hin
    have hnew : RunsC w s (AFp.new cfg n) c fun y c' => Step w s K c c' ∧ c'.inputLen = c.inputLen + n ∧
        Tidy c' c.gateIndex true y.val.val ∧ FVal w s ins c' y cfg (word n ((ins.drop c.inputLen).take n)) := by
      unfold AFp.new
      refine RunsC.seq (RunsC.newI (ins := ins) hb h0 hd.icref hin) ?_
      rintro x c' h
      exact RunsC.pure ⟨h.1, h.2.1, h.2.2.1, rfl, h.2.2.2 _ (wordAt_bits hin)⟩
    refine RunsC.seq hnew ?_
    rintro x c' ⟨h1, h2, h3, h4⟩
    exact RunsC.pure ⟨h1, h2, rfl, ⟨_, rfl, h4⟩, _, _, Nat.le_refl _, h3.base h1.bld⟩
  | const v =>
    cases hk
    have hv : v ≤ p := hfit
    have hbl : (AInt.bytesLe v).length ≤ n / 8 := by
      have := hf.modulus
      have := hf.width
      exact (bytesLe_len v _ (by omega)).mpr (by omega)
    refine RunsC.seq (RunsC.constF (ins := ins) hd hb (by omega)) ?_
    intro x c' h
    exact RunsC.pure (.ofF rfl rfl rfl h)
  | zero =>
    cases hk
    exact RunsC.seq (RunsC.zeroF (ins := ins) hd hb) fun x c' h => RunsC.pure (.ofF rfl rfl rfl h)
  | one =>
    cases hk
    exact RunsC.seq (RunsC.oneF (ins := ins) hn hd hb) fun x c' h => RunsC.pure (.ofF rfl rfl rfl h)
  | add i j =>
    simp only [Cmd.kind, Option.ite_none_right_eq_some, Option.some.injEq] at hk
    obtain ⟨⟨k1, k2⟩, rfl⟩ := hk
    obtain ⟨x, a, e1, e2, e3⟩ := env_elem henv k1
    obtain ⟨y, b, f1, f2, f3⟩ := env_elem henv k2
    refine RunsC.getE e1 (RunsC.getE f1 (RunsC.seq (RunsC.addF hn hd hb h0 e3 f3) ?_))
    intro z c' h1
    exact RunsC.pure (.ofF rfl rfl (by simp only [Cmd.value, e2, f2]; rfl) h1)
  | sub i j =>
    simp only [Cmd.kind, Option.ite_none_right_eq_some, Option.some.injEq] at hk
    obtain ⟨⟨k1, k2⟩, rfl⟩ := hk
    obtain ⟨x, a, e1, e2, e3⟩ := env_elem henv k1
    obtain ⟨y, b, f1, f2, f3⟩ := env_elem henv k2
    refine RunsC.getE e1 (RunsC.getE f1 (RunsC.seq (RunsC.subF hn hd hb h0 e3 f3) ?_))
    intro z c' h1
    exact RunsC.pure (.ofF rfl rfl (by simp only [Cmd.value, e2, f2]; rfl) h1)
  | mul i j =>
    simp only [Cmd.kind, Option.ite_none_right_eq_some, Option.some.injEq] at hk
    obtain ⟨⟨k1, k2⟩, rfl⟩ := hk
    obtain ⟨x, a, e1, e2, e3⟩ := env_elem henv k1
    obtain ⟨y, b, f1, f2, f3⟩ := env_elem henv k2
    refine RunsC.getE e1 (RunsC.getE f1 (RunsC.seq (RunsC.mulF hd hb h0 e3 f3) ?_))
    intro z c' h1
    exact RunsC.pure (.ofF rfl rfl (by simp only [Cmd.value, e2, f2]; rfl) h1)
  | neg i =>
    simp only [Cmd.kind, Option.ite_none_right_eq_some, Option.some.injEq] at hk
    obtain ⟨k1, rfl⟩ := hk
    obtain ⟨x, a, e1, e2, e3⟩ := env_elem henv k1
    refine RunsC.getE e1 (RunsC.seq (RunsC.negF hn hd hb h0 e3) ?_)
    intro z c' h1
    exact RunsC.pure (.ofF rfl rfl (by simp only [Cmd.value, e2]; rfl) h1)
  | eq i j =>
    simp only [Cmd.kind, Option.ite_none_right_eq_some, Option.some.injEq] at hk
    obtain ⟨⟨k1, k2⟩, rfl⟩ := hk
    obtain ⟨x, a, e1, e2, e3⟩ := env_elem henv k1
    obtain ⟨y, b, f1, f2, f3⟩ := env_elem henv k2
    refine RunsC.getE e1 (RunsC.getE f1 (RunsC.seq (RunsC.eqI hb h0 hd.int hd.icref e3.val f3.val) ?_))
    intro z c' h1
    exact RunsC.pure (.ofB rfl rfl (by simp only [Cmd.value, e2, f2]; rfl) h1)
  | neq i j =>
    simp only [Cmd.kind, Option.ite_none_right_eq_some, Option.some.injEq] at hk
    obtain ⟨⟨k1, k2⟩, rfl⟩ := hk
    obtain ⟨x, a, e1, e2, e3⟩ := env_elem henv k1
    obtain ⟨y, b, f1, f2, f3⟩ := env_elem henv k2
    refine RunsC.getE e1 (RunsC.getE f1 (RunsC.seq (RunsC.neqI hb h0 hd.int hd.icref e3.val f3.val) ?_))
    intro z c' h1
    exact RunsC.pure (.ofB rfl rfl (by simp only [Cmd.value, e2, f2]; rfl) h1)
  | not i =>
    simp only [Cmd.kind, Option.ite_none_right_eq_some, Option.some.injEq] at hk
    obtain ⟨k1, rfl⟩ := hk
    obtain ⟨x, a, e1, e2, e3⟩ := env_bit henv k1
    refine RunsC.getB e1 (RunsC.seq (RunsC.not hb e3 (no _)) ?_)
    intro g c' h1
    exact RunsC.pure (.of1 rfl rfl (by simp only [Cmd.value, e2]; rfl) h1.grew (Nat.le_of_eq h1.id.symm) h1.v)
  | and i j =>
    simp only [Cmd.kind, Option.ite_none_right_eq_some, Option.some.injEq] at hk
    obtain ⟨⟨k1, k2⟩, rfl⟩ := hk
    obtain ⟨x, a, e1, e2, e3⟩ := env_bit henv k1
    obtain ⟨y, b, f1, f2, f3⟩ := env_bit henv k2
    refine RunsC.getB e1 (RunsC.getB f1 (RunsC.seq (RunsC.and hb e3 f3 (no _) (no _)) ?_))
    intro g c' h1
    exact RunsC.pure (.of1 rfl rfl (by simp only [Cmd.value, e2, f2]; rfl) h1.grew (Nat.le_of_eq h1.id.symm) h1.v)
  | or i j =>
    simp only [Cmd.kind, Option.ite_none_right_eq_some, Option.some.injEq] at hk
    obtain ⟨⟨k1, k2⟩, rfl⟩ := hk
    obtain ⟨x, a, e1, e2, e3⟩ := env_bit henv k1
    obtain ⟨y, b, f1, f2, f3⟩ := env_bit henv k2
    refine RunsC.getB e1 (RunsC.getB f1 (RunsC.seq (RunsC.or hb e3 f3 (no _) (no _)) ?_))
    intro g c' h1
    exact RunsC.pure (.of1 rfl rfl (by simp only [Cmd.value, e2, f2]; rfl) h1.grew (Nat.le_of_eq h1.id.symm) h1.v)
  | xor i j =>
    simp only [Cmd.kind, Option.ite_none_right_eq_some, Option.some.injEq] at hk
    obtain ⟨⟨k1, k2⟩, rfl⟩ := hk
    obtain ⟨x, a, e1, e2, e3⟩ := env_bit henv k1
    obtain ⟨y, b, f1, f2, f3⟩ := env_bit henv k2
    refine RunsC.getB e1 (RunsC.getB f1 (RunsC.seq (RunsC.xor hb e3 f3 (no _) (no _)) ?_))
    intro g c' h1
    refine RunsC.pure (.of1 rfl rfl (by simp only [Cmd.value, e2, f2]; rfl) h1.grew (Nat.le_of_eq h1.id.symm) ?_)
    rw [← Bool.bne_eq_xor]; exact h1.v

/-! ### where the gates of the values lie -/

/-- the ranges of all values after the statements `done` -/
structure Spans (c : Circuit) (done : List Cmd) (env : List Handle) (spans : List (Nat × Nat)) : Prop where
  len : done.length = env.length
  len' : spans.length = env.length
  base : ∀ (i : Nat) x, env[i]? = some x → ∃ lo hi src, spans[i]? = some (lo, hi) ∧ done[i]?.map (·.source) = some src ∧
    Base c lo hi src (gates x)
  mono : ∀ (i j : Nat) t t', spans[i]? = some t → spans[j]? = some t' → i < j → t.2 ≤ t'.1

theorem Spans.fresh {done : List Cmd} {spans : List (Nat × Nat)} (h : Spans c done env spans) (hb : Bld w s K c) (hx : ExtC c c')
    (x : Handle) {lo hi : Nat} (hL : c.gateIndex ≤ lo) (ht : Base c' lo hi st.source (gates x)) :
    Spans c' (done ++ [st]) (env ++ [x]) (spans ++ [(lo, hi)]) := by
  refine ⟨by simp [h.len], by simp [h.len'], ?_, ?_⟩
  · intro i y hy
    by_cases hi' : i < env.length
    · rw [List.getElem?_append_left hi'] at hy
      obtain ⟨lo', hi, src, e1, e2, e3⟩ := h.base i y hy
      exact ⟨lo', hi, src, by rw [List.getElem?_append_left (by rw [h.len']; exact hi')]; exact e1,
        by rw [List.getElem?_append_left (by rw [h.len]; exact hi')]; exact e2, e3.ext hb hx⟩
    · have : i = env.length := by
        have := lt_of_getElem? hy
        simp at this; omega
      subst this
      simp at hy; subst hy
      exact ⟨lo, hi, st.source, by simp [← h.len'], by simp [← h.len], ht⟩
  · intro i j t t' h1 h2 hij
    have hj : j ≤ spans.length := by
      have := lt_of_getElem? h2
      simp at this; omega
    rw [List.getElem?_append_left (by omega)] at h1
    rcases Nat.lt_or_eq_of_le hj with hj | rfl
    · rw [List.getElem?_append_left hj] at h2
      exact h.mono i j t t' h1 h2 hij
    · simp at h2; subst h2
      have hi' : i < env.length := by rw [← h.len']; exact hij
      obtain ⟨lo', hi, src, e1, e2, e3⟩ := h.base i _ (List.getElem?_eq_getElem hi')
      rw [h1] at e1; cases e1
      exact Nat.le_trans e3.hi_le hL

/-! ### whole programs -/

theorem build_ok (hf : FieldFits n p rExp) (hd : FieldD w s K n p cfg) :
    ∀ (prog : List Cmd) {c : Circuit} (done : List Cmd) (env : List Handle) (vals : List (Value n)) (spans : List (Nat × Nat))
      {ks : List Kind}, Bld w s K c → c.outputLen = 0 → All2 (Holds w s ins c cfg) env vals →
      Spans c done env spans → kinds prog (env.map hkind) = some ks → (∀ st ∈ prog, st.Fits p) →
      c.inputLen + FieldProgram.inputs n prog = ins.length →
      RunsC w s (build s cfg n prog env) c fun env' c' => Step w s K c c' ∧ env'.length = env.length + prog.length ∧
        c'.inputLen = ins.length ∧
        (∃ vals', FieldProgram.exec (BitVec.ofNat n p) prog (ins.drop c.inputLen) vals = some vals' ∧ All2 (Holds w s ins c' cfg) env' vals') ∧
        ∃ spans', Spans c' (done ++ prog) env' spans'
  | [], c, done, env, vals, spans, ks, hb, h0, henv, htag, hks, hfit, hin =>
    RunsC.pure ⟨hb.refl, by simp, by simpa [FieldProgram.inputs] using hin, ⟨vals, rfl, henv⟩, spans, by simpa using htag⟩
  | st :: prog, c, done, env, vals, spans, ks, hb, h0, henv, htag, hks, hfit, hin => by
    simp only [kinds, Option.bind_eq_bind, Option.bind_eq_some_iff] at hks
    obtain ⟨k, hk, hks⟩ := hks
    simp only [FieldProgram.inputs] at hin
    refine RunsC.seq (cmd_ok (ins := ins) hf hd hb h0 henv hk (hfit st (by simp)) (by omega)) ?_
    intro x c1 h1
    obtain ⟨v, hv, hh⟩ := h1.val
    have henv1 : All2 (Holds w s ins c1 cfg) (env ++ [x]) (vals ++ [v]) :=
      (henv.mono fun _ _ hx => Holds.step hx hb h1.step).append ⟨hh, trivial⟩
    obtain ⟨lo, hi, l1, l2⟩ := h1.tag
    have hil := h1.inputLen
    refine (build_ok hf hd prog (done ++ [st]) (env ++ [x]) (vals ++ [v]) _ (ks := ks) h1.step.bld
      (h1.step.outputLen.trans h0) henv1 (htag.fresh hb h1.step.ext x l1 l2) (by simpa [h1.kind] using hks)
      (fun q hq => hfit q (by simp [hq])) (by omega)).mono ?_
    rintro env' c' ⟨k1, k2, k3, ⟨vals', k4, k5⟩, spans', k6⟩
    refine ⟨h1.step.trans k1, by rw [k2]; simp; omega, k3, ⟨vals', ?_, k5⟩, spans', by simpa using k6⟩
    simp only [FieldProgram.exec, hv, List.drop_drop]
    rw [← hil]; exact k4

theorem output_ok (hb : Bld w s K c) (hd : FieldD w s K n p cfg) (gs : List GateId) {x : Handle} {v : Value n}
    (hx : Holds w s ins c cfg x v) :
    RunsC w s (x.output s n) (withOutputs c gs) fun _ c' => c' = withOutputs c (gs ++ gates x) := by
  cases x <;> cases v <;> try exact hx.elim
  · have hx : FVal w s ins c _ cfg _ := hx
    exact RunsC.outputI hb.lt hd.icref gs hx.val.config hx.val.len fun g hg => by
      obtain ⟨b, hb1⟩ := hx.val.vals.left hg
      exact hb1.gate hb
  · have hx : V w s ins c _ _ := hx
    obtain ⟨gate, hg⟩ := hx.gate hb
    exact RunsC.seq (RunsC.output1 hb.lt gs hg) fun _ _ h => RunsC.pure h

theorem outputs_ok (hb : Bld w s K c) (hd : FieldD w s K n p cfg) (env : List Handle) (vals : List (Value n))
    (henv : All2 (Holds w s ins c cfg) env vals) :
    ∀ (outs : List Nat) (gs : List GateId), (∀ i ∈ outs, i < env.length) →
    RunsC w s (M.mapList (fun i => do let z ← M.idx env i; z.output s n) outs) (withOutputs c gs) fun _ c' =>
      c' = withOutputs c (gs ++ outs.flatMap fun i => (env[i]?.map gates).getD [])
  | [], gs, _ => RunsC.pure (by simp)
  | i :: outs, gs, h => by
    obtain ⟨x, v, hget, _, hx⟩ := henv.get (h i (by simp))
    refine RunsC.seq (RunsC.bind (RunsC.idx hget (output_ok hb hd gs hx))) ?_
    rintro _ c1 rfl
    refine RunsC.seq (outputs_ok hb hd env vals henv outs (gs ++ gates x) (fun j hj => h j (by simp [hj]))) ?_
    rintro _ c2 rfl
    refine RunsC.pure ?_
    rw [List.flatMap_cons, hget]
    simp

theorem outs_vals {env : List Handle} {vals : List (Value n)} (henv : All2 (Holds w s ins c cfg) env vals) :
    ∀ (outs : List Nat), (∀ i ∈ outs, i < env.length) → ∃ vs, outs.mapM (fun i => vals[i]?) = some vs ∧
      All2 (V w s ins c) (outs.flatMap fun i => (env[i]?.map gates).getD []) (vs.flatMap Value.out)
  | [], _ => ⟨[], rfl, trivial⟩
  | i :: outs, h => by
    obtain ⟨x, v, e1, e2, e3⟩ := henv.get (h i (by simp))
    obtain ⟨vs, h1, h2⟩ := outs_vals henv outs fun j hj => h j (by simp [hj])
    refine ⟨v :: vs, by rw [List.mapM_cons, e2]; simp [h1], ?_⟩
    rw [List.flatMap_cons, List.flatMap_cons, e1]
    exact (Holds.vals e3).append h2

theorem pairwise_ok {c : Circuit} (hb : Bld w s K c) {prog : List Cmd} {env : List Handle} {spans : List (Nat × Nat)}
    (ht : Spans c prog env spans) {outs : List Nat} (hord : FieldProgram.Ordered prog outs) :
    (outs.flatMap fun i => (env[i]?.map gates).getD []).Pairwise (Apart c) := by
  have hmem : ∀ (i : Nat) (g : GateId), g ∈ (env[i]?.map gates).getD [] → ∃ x, env[i]? = some x ∧ g ∈ gates x := by
    intro i g hg
    cases h : env[i]? with
    | none => simp [h] at hg
    | some x => exact ⟨x, rfl, by simpa [h] using hg⟩
  rw [List.pairwise_flatMap]
  constructor
  · intro i hi
    cases h : env[i]? with
    | none => simp
    | some x =>
      obtain ⟨lo, hi, src, _, _, hbs⟩ := ht.base i x h
      refine List.pairwise_iff_forall_sublist.mpr fun {a b} hab => ?_
      exact hbs.cross a (hab.subset (List.mem_cons_self ..)) b (hab.subset (List.mem_cons_of_mem _ (List.mem_cons_self ..)))
  · refine hord.imp ?_
    intro i j hij a ha b hb'
    obtain ⟨x, hx, hax⟩ := hmem i a ha
    obtain ⟨y, hy, hby⟩ := hmem j b hb'
    obtain ⟨lo, hi, src, e1, e2, e3⟩ := ht.base i x hx
    obtain ⟨lo', hi', src', f1, f2, f3⟩ := ht.base j y hy
    rcases (e3.mem a hax).2 with hs | ⟨h0, gate, hg, hl⟩
    · exact Early.apart hb (.inl hs)
    · have hle : i ≤ j := hij.resolve_left fun h => by rw [e2, h0] at h; cases h
      rcases Nat.lt_or_eq_of_le hle with h | rfl
      · have h3 := ht.mono i j _ _ e1 f1 h
        have := (f3.mem b hby).1
        exact Early.apart hb (.inr ⟨gate, hg, by simp at h3; omega⟩)
      · rw [hx] at hy; cases hy
        exact e3.cross a hax b hby

end

/-! ### programs only make API calls -/

theorem plays_elem (env : List Handle) (i : Nat) : Plays (FieldProgram.elem env i) := by unfold FieldProgram.elem; plays
theorem plays_bit (env : List Handle) (i : Nat) : Plays (FieldProgram.bit env i) := by unfold FieldProgram.bit; plays

theorem plays_cmd (r : Ref) (cfg : FpConfig) (n : Nat) (env : List Handle) (st : Cmd) : Plays (st.build r cfg n env) := by
  have g1 := plays_elem env
  have g2 := plays_bit env
  cases st <;> unfold Cmd.build <;> (try unfold AFp.neg) <;> (try unfold AFp.new) <;> (try unfold AFp.fromBiguintUnchecked) <;> (try unfold AFp.zero) <;>
    (try unfold AFp.one) <;> (try unfold AFp.add) <;> (try unfold AFp.sub) <;> (try unfold AFp.mul) <;>
    (try unfold AFp.eq) <;> (try unfold AFp.neq) <;> (try unfold AFp.fromGateIdsUnchecked) <;>
    (try unfold AInt.eq) <;> (try unfold AInt.neq) <;>
    (repeat' with_reducible (first
      | exact g1 _ | exact g2 _
      | exact plays_AInt_new _ _ | exact plays_AInt_fromGateIds _ _ _ | exact plays_AInt_zero _ _ | exact plays_AInt_one _ _
      | exact plays_AInt_fromBiguint _ _ _ | exact plays_AInt_compareWith _ _ _ _
      | exact Plays.pure _ | exact Plays.throw _
      | exact plays_not _ _ | exact plays_xor _ _ _ | exact plays_and _ _ _ | exact plays_or _ _ _
      | exact plays_module _ _ _ | exact Plays.idx _ _
      | apply Plays.expect | apply Plays.bind
      | intro _))

theorem plays_build (r : Ref) (cfg : FpConfig) (n : Nat) : ∀ (prog : List Cmd) (env : List Handle), Plays (build r cfg n prog env)
  | [], _ => .pure _
  | st :: p, env => .bind (plays_cmd r cfg n env st) fun x => plays_build r cfg n p (env ++ [x])

theorem plays_output (r : Ref) (n : Nat) (x : Handle) : Plays (x.output r n) := by
  cases x with
  | elem x => exact plays_AInt_output _ _
  | bit g => exact .bind (CC.plays_output _ _) fun _ => .pure _

/-! ### well-typed programs have a result -/

def vkind {n : Nat} : Value n → Kind
  | .elem _ => .elem
  | .bit _ => .bit

theorem vals_kind {n : Nat} {vals : List (Value n)} {i : Nat} {k : Kind} (h : (vals.map vkind)[i]? = some k) :
    match k with
    | .elem => ∃ v, FieldProgram.getElem vals i = some v
    | .bit => ∃ v, FieldProgram.getBit vals i = some v := by
  simp only [List.getElem?_map, Option.map_eq_some_iff] at h
  obtain ⟨v, h1, rfl⟩ := h
  cases v with
  | elem v => exact ⟨v, by simp [FieldProgram.getElem, h1]⟩
  | bit v => exact ⟨v, by simp [FieldProgram.getBit, h1]⟩

theorem value_total {n : Nat} (P : BitVec n) {vals : List (Value n)} {st : Cmd} {k : Kind} (h : st.kind (vals.map vkind) = some k)
    (ins : List Bool) : ∃ v, st.value P vals ins = some v ∧ vkind v = k := by
  cases st <;> simp only [Cmd.kind, Option.ite_none_right_eq_some, Option.some.injEq] at h
  all_goals first
    | (subst h; exact ⟨_, rfl, rfl⟩)
    | (obtain ⟨⟨h1, h2⟩, rfl⟩ := h
       obtain ⟨x, hx⟩ := vals_kind h1
       obtain ⟨y, hy⟩ := vals_kind h2
       refine ⟨_, by simp only [Cmd.value, hx, hy, Option.bind_eq_bind, Option.bind_some]; rfl, rfl⟩)
    | (obtain ⟨h1, rfl⟩ := h
       obtain ⟨x, hx⟩ := vals_kind h1
       refine ⟨_, by simp only [Cmd.value, hx, Option.bind_eq_bind, Option.bind_some]; rfl, rfl⟩)

theorem exec_total {n : Nat} (P : BitVec n) : ∀ (prog : List Cmd) (vals : List (Value n)) (ins : List Bool) {ks : List Kind},
    kinds prog (vals.map vkind) = some ks → ∃ vals', FieldProgram.exec P prog ins vals = some vals' ∧ vals'.length = vals.length + prog.length
  | [], vals, _, _, _ => ⟨vals, rfl, by simp⟩
  | st :: p, vals, ins, ks, h => by
    simp only [kinds, Option.bind_eq_bind, Option.bind_eq_some_iff] at h
    obtain ⟨k, hk, hks⟩ := h
    obtain ⟨v, hv, rfl⟩ := value_total P hk ins
    obtain ⟨vals', h1, h2⟩ := exec_total P p (vals ++ [v]) (ins.drop (st.takes n)) (ks := ks) (by simpa using hks)
    refine ⟨vals', by simp only [FieldProgram.exec, hv, Option.bind_eq_bind, Option.bind_some]; exact h1, ?_⟩
    simp at h2 ⊢; omega

theorem mapM_get {α} {vals : List α} : ∀ outs : List Nat, (∀ i ∈ outs, i < vals.length) →
    ∃ vs, outs.mapM (fun i => vals[i]?) = some vs
  | [], _ => ⟨[], rfl⟩
  | i :: outs, h => by
    obtain ⟨vs, hvs⟩ := mapM_get outs fun j hj => h j (by simp [hj])
    have hi := h i (by simp)
    exact ⟨vals[i] :: vs, by rw [List.mapM_cons, List.getElem?_eq_getElem hi]; simp [hvs]⟩

/-- the bits returned for the chosen values -/
def outBits {n : Nat} (P : BitVec n) (prog : List Cmd) (outs : List Nat) (ins : List Bool) : Option (List Bool) := do
  let env ← FieldProgram.exec P prog ins []
  let vs ← outs.mapM fun i => env[i]?
  return vs.flatMap Value.out

theorem field_ok {w : World} (hw : Reachable w) {st : StoreRef} (hst : st < w.stores.length) {n p rExp : Nat}
    (hf : FieldFits n p rExp) (hp : 1 ≤ p) (hroom : p ≤ 2 ^ (n - 1))
    {prog : List Cmd} {outs : List Nat} (hty : (kinds prog []).isSome) (hfit : ∀ c ∈ prog, c.Fits p)
    (houts : ∀ i ∈ outs, i < prog.length) :
    ∃ r w', FieldProgram.compile st n p rExp prog outs w = (.ok r, w') ∧ (ValidRun w → ValidRun w') ∧
      (∃ c, w'.circs[r]? = some c ∧ c.inputLen = FieldProgram.inputs n prog) ∧
      (∀ ins : List Bool, ins.length = FieldProgram.inputs n prog → ∃ env vs, FieldProgram.exec (BitVec.ofNat n p) prog ins [] = some env ∧
        outs.mapM (fun i => env[i]?) = some vs ∧ Outputs w' r ins (vs.flatMap Value.out)) ∧
      (FieldProgram.Ordered prog outs → ∃ F, ∀ fuel ≥ F, ∀ ins : List Bool,
        ins.length = FieldProgram.inputs n prog → ∃ env vs, FieldProgram.exec (BitVec.ofNat n p) prog ins [] = some env ∧
          outs.mapM (fun i => env[i]?) = some vs ∧ evalOutput w' fuel r ins = .ok (vs.flatMap Value.out)) := by
  obtain ⟨ks, hks⟩ := Option.isSome_iff_exists.mp hty
  have hw8 := hf.width
  have mz := fun a b : BitVec n => fpMulV_zero (pi := 2 ^ rExp - Fp.modInv p (2 ^ rExp)) (k := rExp) (by omega) hp hroom a b
  have hbody : ∀ {w s K c cfg}, Bld w s K c → c.outputLen = 0 → c.inputLen = 0 → FpReady n p rExp w (s + 1) K.st s cfg → Callable w s K →
      ∀ ins : List Bool, ins.length = FieldProgram.inputs n prog → RunsC w s (do
        let env ← build s cfg n prog []
        let _ ← M.mapList (fun i => do let z ← M.idx env i; z.output s n) outs
        pure s) c fun a c2 => a = s ∧ ∃ out, outBits (BitVec.ofNat n p) prog outs ins = some out ∧
          LeavesIf (FieldProgram.Ordered prog outs) w s K c (FieldProgram.inputs n prog) ins out c2 := by
    rintro w s K c cfg hb h0 hi0 ⟨hcr, hicr, hok, hfp⟩ hcall ins hins
    have hd : FieldD w s K n p cfg := by
      refine ⟨hcr, hicr, hok.toD hcall, hcall _ _ _ _ hfp.add, hcall _ _ _ _ hfp.sub, ?_⟩
      have := hcall _ _ _ _ hfp.mul
      rwa [show (fpMulV (BitVec.ofNat n p) (BitVec.ofNat n (2 ^ rExp - Fp.modInv p (2 ^ rExp))) rExp 0) = fun _ _ => 0 from
        funext fun a => funext fun b => mz a b] at this
    refine RunsC.seq (build_ok (ins := ins) hf hd prog [] [] [] [] (ks := ks) hb h0 trivial
      ⟨rfl, rfl, by simp, by simp⟩ hks hfit (by omega)) ?_
    rintro env c1 ⟨h1, h2, h3, ⟨vals, h4, h5⟩, spans, h6⟩
    have hlt : ∀ i ∈ outs, i < env.length := fun i hi => by rw [h2]; simpa using houts i hi
    have ho := outputs_ok h1.bld hd env vals h5 outs [] hlt
    rw [withOutputs_nil h1.bld.wfc (h1.outputLen.trans h0)] at ho
    refine RunsC.seq ho ?_
    rintro _ c2 rfl
    obtain ⟨vs, q1, q2⟩ := outs_vals h5 outs hlt
    refine RunsC.pure ⟨rfl, vs.flatMap Value.out, ?_, c1, _, rfl, h1, h3.trans hins, ?_, q2⟩
    · unfold outBits
      rw [hi0, List.drop_zero] at h4
      simp [h4, q1]
    · exact fun hord => pairwise_ok h1.bld (by simpa using h6) hord
  obtain ⟨r, w', e, hv, hc, ho, h⟩ := test_any (O := FieldProgram.Ordered prog outs) (configures_fp hf) (fun r => plays_fieldOver r n p rExp)
    (body := fun s cfg => do
        let env ← build s cfg n prog []
        let _ ← M.mapList (fun i => do let z ← M.idx env i; z.output s n) outs
        pure s)
    (fun r cfg => .bind (plays_build _ _ _ _ _) fun env => .bind (.mapList (fun i => .bind (.idx _ _) fun z => plays_output _ _ _) _) fun _ => .pure _)
    (m := FieldProgram.inputs n prog) (f := fun ins => (outBits (BitVec.ofNat n p) prog outs ins).getD []) (fun hb h0 hi0 hr hc ins hins =>
      (hbody hb h0 hi0 hr hc ins hins).mono fun a c2 ⟨h1, out, h2, h3⟩ => ⟨h1, by rw [h2]; exact h3⟩) hw hst
  have tot : ∀ ins : List Bool, ∃ env vs, FieldProgram.exec (BitVec.ofNat n p) prog ins [] = some env ∧
      outs.mapM (fun i => env[i]?) = some vs := by
    intro ins
    obtain ⟨env, h1, h2⟩ := exec_total (BitVec.ofNat n p) prog [] ins hks
    obtain ⟨vs, h3⟩ := mapM_get (vals := env) outs fun i hi => by rw [h2]; simpa using houts i hi
    exact ⟨env, vs, h1, h3⟩
  refine ⟨r, w', e, hv, hc, fun ins hins => ?_, fun hord => ?_⟩
  · obtain ⟨env, vs, h1, h3⟩ := tot ins
    have := ho ins hins
    simp only [outBits, h1, Option.bind_eq_bind, Option.bind_some, h3, Option.getD_some, Option.pure_def] at this
    exact ⟨env, vs, h1, h3, this⟩
  obtain ⟨F, h⟩ := h hord
  refine ⟨F, fun fuel hf ins hins => ?_⟩
  obtain ⟨env, vs, h1, h3⟩ := tot ins
  refine ⟨env, vs, h1, h3, ?_⟩
  rw [h fuel hf ins hins, outBits, h1]
  simp [h3]

end CC.FProg

/-! ### numbers modulo `p` -/

namespace CC.FProg
open CC Spec Spec.FieldProgram

theorem correct_add {n p : Nat} {a b : BitVec n} (hn : 1 ≤ n) (hp : 2 * p < 2 ^ (n - 1)) (ha : a.toNat ≤ p) (hb : b.toNat ≤ p) :
    (correct (BitVec.ofNat n p) (a + b)).toNat = if p < a.toNat + b.toNat then a.toNat + b.toNat - p else a.toNat + b.toNat := by
  have hh := pow_half hn
  have hP : (BitVec.ofNat n p).toNat = p := by rw [BitVec.toNat_ofNat, Nat.mod_eq_of_lt (by omega)]
  have hs : (a + b).toNat = a.toNat + b.toNat := by rw [BitVec.toNat_add, Nat.mod_eq_of_lt (by omega)]
  generalize a + b = s at hs ⊢
  have hsm : s.msb = false := by rw [BitVec.msb_eq_decide, decide_eq_false (by omega)]
  have hd : (s - BitVec.ofNat n p).toNat = if p ≤ s.toNat then s.toNat - p else 2 ^ n + s.toNat - p := by
    rw [BitVec.toNat_sub, hP]
    split
    · rw [show 2 ^ n - p + s.toNat = s.toNat - p + 2 ^ n by omega, Nat.add_mod_right, Nat.mod_eq_of_lt (by omega)]
    · rw [Nat.mod_eq_of_lt (by omega)]; omega
  have hdm : (s - BitVec.ofNat n p).msb = decide (s.toNat < p) := by
    rw [BitVec.msb_eq_decide, hd]
    split <;> (congr 1; rw [eq_iff_iff]; omega)
  have heq : (s == BitVec.ofNat n p) = decide (s.toNat = p) := by
    rw [Bool.eq_iff_iff]
    simp only [beq_iff_eq, decide_eq_true_eq]
    exact ⟨fun e => by rw [e, hP], fun e => BitVec.eq_of_toNat_eq (by rw [e, hP])⟩
  unfold correct
  rw [hsm, hdm, heq, ← hs]
  by_cases h1 : p < s.toNat
  · rw [if_pos h1, decide_eq_false (show ¬ s.toNat < p by omega), decide_eq_false (show ¬ s.toNat = p by omega)]
    simp only [Bool.or_self, Bool.not_false]
    rw [hd, if_pos (by omega)]
  · rw [if_neg h1]
    have : (decide (s.toNat < p) || decide (s.toNat = p)) = true := by
      rw [Bool.or_eq_true]; simp only [decide_eq_true_eq]; omega
    rw [this]
    simp

theorem correct_sub {n p : Nat} {a b : BitVec n} (hn : 1 ≤ n) (hp : 2 * p < 2 ^ (n - 1)) (ha : a.toNat ≤ p) (hb : b.toNat ≤ p) :
    (correct (BitVec.ofNat n p) (a - b)).toNat = if b.toNat ≤ a.toNat then a.toNat - b.toNat else a.toNat + p - b.toNat := by
  have hh := pow_half hn
  have hP : (BitVec.ofNat n p).toNat = p := by rw [BitVec.toNat_ofNat, Nat.mod_eq_of_lt (by omega)]
  split
  · rename_i h
    have hs : (a - b).toNat = a.toNat - b.toNat := by
      rw [BitVec.toNat_sub, show 2 ^ n - b.toNat + a.toNat = (a.toNat - b.toNat) + 2 ^ n by omega, Nat.add_mod_right,
        Nat.mod_eq_of_lt (by omega)]
    have := correct_add (a := a - b) (b := 0) hn hp (by omega) (by simp)
    rw [show a - b + 0 = a - b by simp] at this
    rw [this, hs, if_neg (by simp; omega)]
    simp
  · rename_i h
    have hs : (a - b).toNat = 2 ^ n - (b.toNat - a.toNat) := by
      rw [BitVec.toNat_sub, Nat.mod_eq_of_lt (by omega)]; omega
    generalize a - b = s at hs ⊢
    have hsm : s.msb = true := by rw [BitVec.msb_eq_decide, decide_eq_true (by omega)]
    have hd : (s - BitVec.ofNat n p).toNat = s.toNat - p := by
      rw [BitVec.toNat_sub, hP, show 2 ^ n - p + s.toNat = (s.toNat - p) + 2 ^ n by omega, Nat.add_mod_right,
        Nat.mod_eq_of_lt (by omega)]
    have hdm : (s - BitVec.ofNat n p).msb = true := by
      rw [BitVec.msb_eq_decide, hd, decide_eq_true (by omega)]
    unfold correct
    rw [hsm, hdm]
    simp only [Bool.true_or, Bool.not_true]
    rw [BitVec.toNat_add, hP, hs, show 2 ^ n - (b.toNat - a.toNat) + p = (a.toNat + p - b.toNat) + 2 ^ n by omega, Nat.add_mod_right,
      Nat.mod_eq_of_lt (by omega)]

/-- a word stands for a number modulo `p`: it is at most `p` and congruent -/
def Rep (p : Nat) {n : Nat} : Value n → FValue → Prop
  | .elem v, .elem x => v.toNat ≤ p ∧ x = (v.toNat : Int) % p
  | .bit _, .bit _ => True
  | _, _ => False

section
variable {n p : Nat} {vals : List (Value n)} {fvals : List FValue} (henv : All2 (Rep p) vals fvals) {i : Nat}
include henv

theorem rep_elem (h : (vals.map vkind)[i]? = some .elem) : ∃ v, FieldProgram.getElem vals i = some v ∧ v.toNat ≤ p ∧
    fElem fvals i = some ((v.toNat : Int) % p) := by
  rw [List.getElem?_map] at h
  cases he : vals[i]? with
  | none => rw [he] at h; cases h
  | some z =>
    rw [he] at h
    obtain ⟨z', v, e1, e2, e3⟩ := henv.get (lt_of_getElem? he)
    rw [he] at e1; cases e1
    cases z <;> simp [vkind] at h
    cases v <;> first
      | exact e3.elim
      | exact ⟨_, by unfold FieldProgram.getElem; rw [he], e3.1, by unfold fElem; rw [e2, e3.2]⟩

theorem rep_bit (h : (vals.map vkind)[i]? = some .bit) : ∃ b b', FieldProgram.getBit vals i = some b ∧ fBit fvals i = some b' := by
  rw [List.getElem?_map] at h
  cases he : vals[i]? with
  | none => rw [he] at h; cases h
  | some z =>
    rw [he] at h
    obtain ⟨z', v, e1, e2, e3⟩ := henv.get (lt_of_getElem? he)
    rw [he] at e1; cases e1
    cases z <;> simp [vkind] at h
    cases v <;> first
      | exact e3.elim
      | exact ⟨_, _, by unfold FieldProgram.getBit; rw [he], by unfold fBit; rw [e2]⟩

end

theorem rep_correct_add {n p : Nat} {a b : BitVec n} (hn : 1 ≤ n) (hp : 2 * p < 2 ^ (n - 1)) (ha : a.toNat ≤ p) (hb : b.toNat ≤ p) :
    Rep p (.elem (correct (BitVec.ofNat n p) (a + b))) (.elem (((a.toNat : Int) % p + (b.toNat : Int) % p) % p)) := by
  have h := correct_add hn hp ha hb
  refine ⟨by rw [h]; split <;> omega, ?_⟩
  rw [h, ← Int.add_emod]
  split
  · rename_i h1
    rw [Int.natCast_sub (by omega), Int.sub_emod_right]
    simp
  · simp

theorem rep_correct_sub {n p : Nat} {a b : BitVec n} (hn : 1 ≤ n) (hp : 2 * p < 2 ^ (n - 1)) (ha : a.toNat ≤ p) (hb : b.toNat ≤ p) :
    Rep p (.elem (correct (BitVec.ofNat n p) (a - b))) (.elem (((a.toNat : Int) % p - (b.toNat : Int) % p) % p)) := by
  have h := correct_sub hn hp ha hb
  refine ⟨by rw [h]; split <;> omega, ?_⟩
  rw [h, ← Int.sub_emod]
  split
  · rename_i h1
    rw [Int.natCast_sub h1]
  · rw [Int.natCast_sub (by omega), Int.natCast_add, show (a.toNat : Int) + p - b.toNat = (a.toNat - b.toNat) + p by omega, Int.add_emod_right]

theorem rep_nat {n p v : Nat} (hn : 1 ≤ n) (hp : 2 * p < 2 ^ (n - 1)) (hv : v ≤ p) :
    Rep p (.elem (BitVec.ofNat n v)) (.elem ((v : Int) % p)) := by
  have hh := pow_half hn
  have : (BitVec.ofNat n v).toNat = v := by rw [BitVec.toNat_ofNat, Nat.mod_eq_of_lt (by omega)]
  exact ⟨by rw [this]; exact hv, by rw [this]⟩

theorem sim_cmd {n p : Nat} (hn : 1 ≤ n) (hp1 : 1 ≤ p) (hp : 2 * p < 2 ^ (n - 1)) {st : Cmd} {vals : List (Value n)} {fvals : List FValue}
    {k : Kind} (hk : st.kind (vals.map vkind) = some k) (hfit : st.Fits p) (hmul : st.isMul = false) (henv : All2 (Rep p) vals fvals)
    {xs : List Nat} (hx : ∀ x ∈ xs, x ≤ p) (hl : st.args ≤ xs.length) :
    ∃ v x, st.value (BitVec.ofNat n p) vals (encode n xs) = some v ∧ st.meaning p fvals xs = some x ∧ Rep p v x ∧ vkind v = k := by
  have hh := pow_half hn
  cases st with
  | new =>
    cases hk
    cases xs with
    | nil => simp [Cmd.args] at hl
    | cons x xs =>
      refine ⟨_, _, rfl, rfl, ?_, rfl⟩
      have e : word n ((encode n (x :: xs)).take n) = BitVec.ofNat n x := by
        have hx' := hx x (by simp)
        unfold encode word
        rw [List.flatMap_cons, List.take_left' (by simp), bitsVal_bitsOf, Nat.mod_eq_of_lt (by omega)]
      rw [e]
      exact rep_nat hn hp (hx x (by simp))
  | const v => cases hk; exact ⟨_, _, rfl, rfl, rep_nat hn hp hfit, rfl⟩
  | zero => cases hk; exact ⟨_, _, rfl, rfl, rep_nat (v := 0) hn hp (by omega), rfl⟩
  | one => cases hk; exact ⟨_, _, rfl, rfl, rep_nat (v := 1) hn hp hp1, rfl⟩
  | mul i j => cases hmul
  | add i j =>
    simp only [Cmd.kind, Option.ite_none_right_eq_some, Option.some.injEq] at hk
    obtain ⟨⟨k1, k2⟩, rfl⟩ := hk
    obtain ⟨a, e1, e2, e3⟩ := rep_elem henv k1
    obtain ⟨b, f1, f2, f3⟩ := rep_elem henv k2
    exact ⟨_, _, by simp only [Cmd.value, e1, f1]; rfl, by simp only [Cmd.meaning, e3, f3]; rfl, rep_correct_add hn hp e2 f2, rfl⟩
  | sub i j =>
    simp only [Cmd.kind, Option.ite_none_right_eq_some, Option.some.injEq] at hk
    obtain ⟨⟨k1, k2⟩, rfl⟩ := hk
    obtain ⟨a, e1, e2, e3⟩ := rep_elem henv k1
    obtain ⟨b, f1, f2, f3⟩ := rep_elem henv k2
    exact ⟨_, _, by simp only [Cmd.value, e1, f1]; rfl, by simp only [Cmd.meaning, e3, f3]; rfl, rep_correct_sub hn hp e2 f2, rfl⟩
  | neg i =>
    simp only [Cmd.kind, Option.ite_none_right_eq_some, Option.some.injEq] at hk
    obtain ⟨k1, rfl⟩ := hk
    obtain ⟨a, e1, e2, e3⟩ := rep_elem henv k1
    refine ⟨_, _, by simp only [Cmd.value, e1]; rfl, by simp only [Cmd.meaning, e3]; rfl, ?_, rfl⟩
    have := rep_correct_sub (a := 0) hn hp (by simp) e2
    simpa using this
  | eq i j =>
    simp only [Cmd.kind, Option.ite_none_right_eq_some, Option.some.injEq] at hk
    obtain ⟨⟨k1, k2⟩, rfl⟩ := hk
    obtain ⟨a, e1, e2, e3⟩ := rep_elem henv k1
    obtain ⟨b, f1, f2, f3⟩ := rep_elem henv k2
    refine ⟨_, _, by simp only [Cmd.value, e1, f1]; rfl, by simp only [Cmd.meaning, e3, f3]; rfl, ?_, rfl⟩; exact True.intro
  | neq i j =>
    simp only [Cmd.kind, Option.ite_none_right_eq_some, Option.some.injEq] at hk
    obtain ⟨⟨k1, k2⟩, rfl⟩ := hk
    obtain ⟨a, e1, e2, e3⟩ := rep_elem henv k1
    obtain ⟨b, f1, f2, f3⟩ := rep_elem henv k2
    refine ⟨_, _, by simp only [Cmd.value, e1, f1]; rfl, by simp only [Cmd.meaning, e3, f3]; rfl, ?_, rfl⟩; exact True.intro
  | not i =>
    simp only [Cmd.kind, Option.ite_none_right_eq_some, Option.some.injEq] at hk
    obtain ⟨k1, rfl⟩ := hk
    obtain ⟨a, a', e1, e2⟩ := rep_bit henv k1
    refine ⟨_, _, by simp only [Cmd.value, e1]; rfl, by simp only [Cmd.meaning, e2]; rfl, ?_, rfl⟩; exact True.intro
  | and i j =>
    simp only [Cmd.kind, Option.ite_none_right_eq_some, Option.some.injEq] at hk
    obtain ⟨⟨k1, k2⟩, rfl⟩ := hk
    obtain ⟨a, a', e1, e2⟩ := rep_bit henv k1
    obtain ⟨b, b', f1, f2⟩ := rep_bit henv k2
    refine ⟨_, _, by simp only [Cmd.value, e1, f1]; rfl, by simp only [Cmd.meaning, e2, f2]; rfl, ?_, rfl⟩; exact True.intro
  | or i j =>
    simp only [Cmd.kind, Option.ite_none_right_eq_some, Option.some.injEq] at hk
    obtain ⟨⟨k1, k2⟩, rfl⟩ := hk
    obtain ⟨a, a', e1, e2⟩ := rep_bit henv k1
    obtain ⟨b, b', f1, f2⟩ := rep_bit henv k2
    refine ⟨_, _, by simp only [Cmd.value, e1, f1]; rfl, by simp only [Cmd.meaning, e2, f2]; rfl, ?_, rfl⟩; exact True.intro
  | xor i j =>
    simp only [Cmd.kind, Option.ite_none_right_eq_some, Option.some.injEq] at hk
    obtain ⟨⟨k1, k2⟩, rfl⟩ := hk
    obtain ⟨a, a', e1, e2⟩ := rep_bit henv k1
    obtain ⟨b, b', f1, f2⟩ := rep_bit henv k2
    refine ⟨_, _, by simp only [Cmd.value, e1, f1]; rfl, by simp only [Cmd.meaning, e2, f2]; rfl, ?_, rfl⟩; exact True.intro

theorem encode_drop (n : Nat) : ∀ (xs : List Nat) (k : Nat), k ≤ 1 → k ≤ xs.length →
    (encode n xs).drop (if k = 1 then n else 0) = encode n (xs.drop k)
  | [], k, _, hl => by simp at hl; subst hl; simp [encode]
  | x :: xs, k, hk, _ => by
    rcases Nat.lt_or_eq_of_le hk with h | rfl
    · obtain rfl : k = 0 := by omega
      simp
    · simp [encode, List.drop_left']

theorem sim {n p : Nat} (hn : 1 ≤ n) (hp1 : 1 ≤ p) (hp : 2 * p < 2 ^ (n - 1)) :
    ∀ (prog : List Cmd) (vals : List (Value n)) (fvals : List FValue) (xs : List Nat) {ks : List Kind},
      kinds prog (vals.map vkind) = some ks → (∀ st ∈ prog, st.Fits p) → (∀ st ∈ prog, st.isMul = false) →
      All2 (Rep p) vals fvals → (∀ x ∈ xs, x ≤ p) → xs.length = arity prog →
      ∃ vals' fvals', FieldProgram.exec (BitVec.ofNat n p) prog (encode n xs) vals = some vals' ∧ meaning p prog xs fvals = some fvals' ∧
        All2 (Rep p) vals' fvals' ∧ vals'.map vkind = ks
  | [], vals, fvals, xs, ks, hk, _, _, henv, _, _ => ⟨vals, fvals, rfl, rfl, henv, by simpa [kinds] using hk⟩
  | st :: prog, vals, fvals, xs, ks, hk, hfit, hmul, henv, hx, hl => by
    simp only [kinds, Option.bind_eq_bind, Option.bind_eq_some_iff] at hk
    obtain ⟨k, hk, hks⟩ := hk
    simp only [arity] at hl
    obtain ⟨v, x, h1, h2, h3, h4⟩ := sim_cmd hn hp1 hp hk (hfit st (by simp)) (hmul st (by simp)) henv hx (by omega)
    obtain ⟨vals', fvals', k1, k2, k3, k4⟩ := sim hn hp1 hp prog (vals ++ [v]) (fvals ++ [x]) (xs.drop st.args) (ks := ks)
      (by simpa [h4] using hks) (fun q hq => hfit q (by simp [hq])) (fun q hq => hmul q (by simp [hq]))
      (henv.append ⟨h3, trivial⟩) (fun y hy => hx y (List.mem_of_mem_drop hy)) (by simp; omega)
    refine ⟨vals', fvals', ?_, ?_, k3, k4⟩
    · simp only [FieldProgram.exec, h1, Option.bind_eq_bind, Option.bind_some]
      have : (encode n xs).drop (st.takes n) = encode n (xs.drop st.args) := by
        rw [← encode_drop n xs st.args (by cases st <;> simp [Cmd.args]) (by omega)]
        cases st <;> simp [Cmd.args, Cmd.takes]
      rw [this]; exact k1
    · simp only [meaning, h2, Option.bind_eq_bind, Option.bind_some]
      exact k2

theorem exec_append {n : Nat} (P : BitVec n) : ∀ (a b : List Cmd) (ins : List Bool) (vals : List (Value n)),
    FieldProgram.exec P (a ++ b) ins vals =
      (FieldProgram.exec P a ins vals).bind fun v => FieldProgram.exec P b (ins.drop (FieldProgram.inputs n a)) v
  | [], b, ins, vals => by simp [FieldProgram.exec, FieldProgram.inputs]
  | st :: a, b, ins, vals => by
    simp only [List.cons_append, FieldProgram.exec, FieldProgram.inputs]
    cases st.value P vals ins with
    | none => rfl
    | some v =>
      simp only [Option.bind_eq_bind, Option.bind_some]
      rw [exec_append P a b, List.drop_drop]

theorem encode_length (n : Nat) (xs : List Nat) : (encode n xs).length = xs.length * n := by
  induction xs with
  | nil => simp [encode]
  | cons x xs ih =>
    rw [show encode n (x :: xs) = bitsOf n x ++ encode n xs from by simp [encode], List.length_append, ih]
    simp [Nat.add_mul, Nat.add_comm]

theorem inputs_arity (n : Nat) : ∀ prog : List Cmd, FieldProgram.inputs n prog = arity prog * n
  | [] => by simp [FieldProgram.inputs, arity]
  | st :: p => by
    rw [FieldProgram.inputs, arity, inputs_arity n p, Nat.add_mul]
    cases st <;> simp [Cmd.takes, Cmd.args]

end CC.FProg
