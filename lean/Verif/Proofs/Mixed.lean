import Verif.Proofs.TestLogic
import Verif.Spec.Mixed

/-!
# Programs over integers, bit strings and bits
-/

namespace CC
open Spec Logic Arith
open Spec.Mixed (Cmd Kind Handle Value)

/-! ### words -/

theorem bvBits_ext {n : Nat} {l : List Bool} {v : BitVec n} (hl : l.length = n) (h : ∀ i, i < n → l[i]? = some (v.getLsbD i)) :
    l = bvBits v := by
  apply List.ext_getElem?
  intro i
  by_cases hi : i < n
  · rw [h i hi, bvBits_get _ hi]
  · rw [List.getElem?_eq_none (by omega), List.getElem?_eq_none (by simp; omega)]

theorem not_bv {n : Nat} (x : BitVec n) : (bvBits x).map (!·) = bvBits (~~~x) := by
  refine bvBits_ext (by simp) fun i hi => ?_
  rw [List.getElem?_map, bvBits_get _ hi, BitVec.getLsbD_not]
  simp [hi]

theorem zip_bv {n : Nat} (f : Bool → Bool → Bool) {x y z : BitVec n} (h : ∀ i, z.getLsbD i = f (x.getLsbD i) (y.getLsbD i)) :
    List.zipWith f (bvBits x) (bvBits y) = bvBits z := by
  refine bvBits_ext (by simp) fun i hi => ?_
  rw [List.getElem?_zipWith, bvBits_get _ hi, bvBits_get _ hi, h]

theorem and_bv {n : Nat} (x y : BitVec n) : List.zipWith (· && ·) (bvBits x) (bvBits y) = bvBits (x &&& y) :=
  zip_bv _ fun i => by simp

theorem or_bv {n : Nat} (x y : BitVec n) : List.zipWith (· || ·) (bvBits x) (bvBits y) = bvBits (x ||| y) :=
  zip_bv _ fun i => by simp

theorem xor_bv {n : Nat} (x y : BitVec n) : List.zipWith (· != ·) (bvBits x) (bvBits y) = bvBits (x ^^^ y) :=
  zip_bv _ fun i => by simp

/-! ### where the gates of a value are -/

/-- what a gate needs does not change when gates are added -/
theorem Apart.ext {w : World} {s : Ref} {K : Ctx} {c c' : Circuit} (hb : Bld w s K c) (hx : ExtC c c') {p o : GateId}
    (hp : p < c.gateIndex) (h : Apart c p o) : Apart c' p o := by
  have hback : ∀ y gate, y < c.gateIndex → c'.gateMap y = some gate → c.gateMap y = some gate := by
    intro y gate hy hg
    obtain ⟨gate', hg'⟩ := hb.wfc.some_of_lt hy
    have := hx.gates _ _ hg'
    rw [hg] at this; cases this; exact hg'
  have hreach : ∀ g, Reach c' p g → Reach c p g ∧ g < c.gateIndex := by
    intro g hg
    induction hg with
    | refl => exact ⟨.refl, hp⟩
    | @operand y gate x _ h1 h2 ih =>
      have h3 := hback _ _ ih.2 h1
      have h4 := hb.topo _ _ h3 _ h2
      have := lead_le y gate
      exact ⟨.operand ih.1 h3 h2, by omega⟩
    | @sibling y nIn nOut ids oi mid k _ h1 h2 ih =>
      have h3 := hback _ _ ih.2 h1
      exact ⟨.sibling ih.1 h3 h2, hb.wfc.lt_of_some ((hb.wfc.group _ _ _ _ _ _ h3).2.2 k h2)⟩
  intro g gate hr hg
  obtain ⟨h1, h2⟩ := hreach g hr
  exact h g gate h1 (hback _ _ h2 hg)

/-- gates that do not need one another; they are not before `lo`, and the groups they belong to start not after `hi` -/
structure Base (c : Circuit) (lo hi : Nat) (src : Bool) (B : List GateId) : Prop where
  lo_le : lo ≤ hi
  hi_le : hi ≤ c.gateIndex
  mem : ∀ p ∈ B, lo ≤ p ∧ (Source c p ∨ (src = false ∧ ∃ gate, c.gateMap p = some gate ∧ lead p gate ≤ hi))
  cross : ∀ p ∈ B, ∀ o ∈ B, Apart c p o

theorem source_lt {c : Circuit} (hwf : WFc c) {p : GateId} (h : Source c p) : p < c.gateIndex := by
  rcases h with ⟨k, hk⟩ | ⟨v, hv⟩
  · exact hwf.lt_of_some hk
  · exact hwf.lt_of_some hv

theorem Base.ext {w : World} {s : Ref} {K : Ctx} {c c' : Circuit} (hb : Bld w s K c) (h : ExtC c c') {lo hi src} {B : List GateId}
    (ht : Base c lo hi src B) : Base c' lo hi src B := by
  refine ⟨ht.lo_le, Nat.le_trans ht.hi_le h.gateIndex, fun p hp => ?_, fun p hp o ho => (ht.cross p hp o ho).ext hb h ?_⟩
  · obtain ⟨h1, h2⟩ := ht.mem p hp
    refine ⟨h1, ?_⟩
    rcases h2 with h2 | ⟨h2, gate, h3, h4⟩
    · exact .inl (h2.ext h)
    · exact .inr ⟨h2, gate, h.gates _ _ h3, h4⟩
  · rcases (ht.mem p hp).2 with h2 | ⟨h2, gate, h3, h4⟩
    · exact source_lt hb.wfc h2
    · exact hb.wfc.lt_of_some h3

/-- the gates of a value: gates of `B`, and later inputs and constants -/
def Within (c : Circuit) (hi : Nat) (B gs : List GateId) : Prop := ∀ p ∈ gs, p ∈ B ∨ (Source c p ∧ hi ≤ p)

theorem Within.ext {c c' : Circuit} (h : ExtC c c') {hi : Nat} {B gs : List GateId} (hw : Within c hi B gs) : Within c' hi B gs :=
  fun p hp => (hw p hp).imp id fun ⟨h1, h2⟩ => ⟨h1.ext h, h2⟩

theorem Tidy.base {w : World} {s : Ref} {K : Ctx} {c : Circuit} (hb : Bld w s K c) {L src} {gs : List GateId} (ht : Tidy c L src gs) :
    Base c L L src gs := by
  refine ⟨Nat.le_refl _, ht.1, fun p hp => ?_, fun p hp o ho => ?_⟩
  · obtain ⟨h1, h2⟩ := ht.2 p hp
    refine ⟨h1, ?_⟩
    rcases h2 with h2 | ⟨h2, gate, h3, h4⟩
    · exact .inl h2
    · exact .inr ⟨h2, gate, h3, by omega⟩
  · exact Early.apart hb (Before.early ⟨_, _, _, _, _, _, ht, ht, .inr (Nat.le_refl _), hp, ho⟩)

theorem base_one {w : World} {s : Ref} {K : Ctx} {c : Circuit} (hb : Bld w s K c) {g : GateId} {gate : Gate} (hg : c.gateMap g = some gate)
    {src : Bool} (h : src = true → Source c g) : Base c g g src [g] := by
  refine ⟨Nat.le_refl _, Nat.le_of_lt (hb.wfc.lt_of_some hg), fun p hp => ?_, fun p hp o ho => ?_⟩
  · simp at hp; subst hp
    refine ⟨Nat.le_refl _, ?_⟩
    cases src with
    | true => exact .inl (h rfl)
    | false => exact .inr ⟨rfl, gate, hg, lead_le _ _⟩
  · simp at hp ho; subst hp; subst ho
    exact Early.apart hb (.inr ⟨gate, hg, lead_le _ _⟩)

section
variable {w : World} {s : Ref} {K : Ctx} {c : Circuit} {ins : List Bool} {n : Nat} {bc : BitsConfig}

/-! ### operations -/

/-- an `AllocBits` holding the word `v` -/
structure BVal (w : World) (s : Ref) (ins : List Bool) (c : Circuit) {n : Nat} (x : Bits) (cfg : BitsConfig) (v : BitVec n) :
    Prop where
  config : x.config = cfg
  vals : All2 (V w s ins c) x.bits (bvBits v)

theorem BVal.step {c' : Circuit} {x : Bits} {cfg : BitsConfig} {v : BitVec n} (h : BVal w s ins c x cfg v)
    (hb : Bld w s K c) (hs : Step w s K c c') : BVal w s ins c' x cfg v := ⟨h.config, hs.vs hb h.vals⟩

theorem BVal.len {x : Bits} {cfg : BitsConfig} {v : BitVec n} (h : BVal w s ins c x cfg v) : x.bits.length = n := by
  rw [h.vals.length]; simp

/-- the module table of a configuration, for a circuit under construction -/
structure BitsD (w : World) (D : Ref → Prop) (st : StoreRef) (n : Nat) (cfg : BitsConfig) : Prop where
  not : ModD w D st cfg.notMid n n (fun ins => ins.map (!·))
  and : ModD w D st cfg.andMid (2 * n) n (bin n (List.zipWith (· && ·)))
  or : ModD w D st cfg.orMid (2 * n) n (bin n (List.zipWith (· || ·)))
  xor : ModD w D st cfg.xorMid (2 * n) n (bin n (List.zipWith (· != ·)))
  eq : ModD w D st cfg.eqMid (2 * n) 1 (bin n fun a b => [a == b])
  neq : ModD w D st cfg.neqMid (2 * n) 1 (bin n fun a b => [!(a == b)])

structure NewBits (w : World) (s : Ref) (K : Ctx) (ins : List Bool) (c : Circuit) {n : Nat} (x : Bits) (cfg : BitsConfig)
    (v : BitVec n) (c' : Circuit) : Prop where
  grew : Grew w s K c c'
  val : BVal w s ins c' x cfg v
  base : Base c' c.gateIndex c.gateIndex false x.bits

theorem RunsC.callBits (hb : Bld w s K c) (h0 : c.outputLen = 0) (hcr : bc.cref = s) {mid : ModuleId} {m : Nat}
    {f : List Bool → List Bool} (hm : ModD w (fun d => d < K.out ∨ d = s) K.st mid m n f) {gs : List GateId}
    {bs : List Bool} (hv : All2 (V w s ins c) gs bs) (hl : bs.length = m) {v : BitVec n} (hf : f bs = bvBits v) :
    RunsC w s (do
        let outs ← M.expect (CC.module bc.cref mid gs)
        Pure.pure { bits := outs, config := bc : Bits }) c fun z c' => NewBits w s K ins c z bc v c' := by
  rw [hcr]
  refine RunsC.seq (RunsC.expect (RunsC.both hb.lt (RunsC.module (ins := ins) hb hm hv hl
    (fun x _ => hb.notOut h0 x)) (RunsC.module_tidy hb hm _))) ?_
  rintro outs c' ⟨⟨h1, h2⟩, h3⟩
  refine RunsC.pure ⟨h1.grew, ⟨rfl, ?_⟩, h3.base h1.step.bld⟩
  rw [← hf]; exact h1.v

theorem RunsC.bits1 (hb : Bld w s K c) (h0 : c.outputLen = 0) (hcr : bc.cref = s)
    (hB : BitsD w (fun d => d < K.out ∨ d = s) K.st n bc) {x : Bits} {a : BitVec n} (hx : BVal w s ins c x bc a) :
    RunsC w s x.not c fun z c' => NewBits w s K ins c z bc (~~~a) c' := by
  unfold Bits.not
  rw [hx.config]
  exact RunsC.callBits hb h0 hcr hB.not hx.vals (by simp) (not_bv a)

theorem RunsC.bits2 (hb : Bld w s K c) (h0 : c.outputLen = 0) (hcr : bc.cref = s) {mid : ModuleId}
    {f : List Bool → List Bool → List Bool} {φ : BitVec n → BitVec n → BitVec n} (hf : ∀ x y, f (bvBits x) (bvBits y) = bvBits (φ x y))
    (hm : ModD w (fun d => d < K.out ∨ d = s) K.st mid (2 * n) n (bin n f)) {x y : Bits} {a b : BitVec n}
    (hx : BVal w s ins c x bc a) (hy : BVal w s ins c y bc b) :
    RunsC w s (do
        let outs ← M.expect (CC.module x.config.cref mid (x.bits ++ y.bits))
        Pure.pure { bits := outs, config := x.config : Bits }) c fun z c' => NewBits w s K ins c z bc (φ a b) c' := by
  rw [hx.config]
  refine RunsC.callBits hb h0 hcr hm (hx.vals.append hy.vals) (by simp; omega) ?_
  rw [(All2.app_bin hx.vals hy.vals (bvBits_length _) f).2, hf]

theorem RunsC.compareBits (hb : Bld w s K c) (h0 : c.outputLen = 0) (hcr : bc.cref = s) {mid : ModuleId} {f : List Bool → List Bool → Bool}
    {φ : BitVec n → BitVec n → Bool} (hf : ∀ x y, f (bvBits x) (bvBits y) = φ x y)
    (hm : ModD w (fun d => d < K.out ∨ d = s) K.st mid (2 * n) 1 (bin n fun a b => [f a b])) {x y : Bits} {a b : BitVec n}
    (hx : BVal w s ins c x bc a) (hy : BVal w s ins c y bc b) :
    RunsC w s (do
      let outs ← CC.module x.config.cref mid (x.bits ++ y.bits)
      M.idx outs 0) c fun g c' => NewB w s K ins c g (φ a b) c' := by
  rw [hx.config, hcr]
  have hl : (bvBits a ++ bvBits b).length = 2 * n := by simp; omega
  refine RunsC.seq (RunsC.both hb.lt (RunsC.module (ins := ins) hb hm (hx.vals.append hy.vals) hl
    (fun x _ => hb.notOut h0 x)) (RunsC.module_tidy hb hm _)) ?_
  rintro gs c' ⟨⟨h1, h2⟩, h3⟩
  have := h1.v
  rw [(All2.app_bin hx.vals hy.vals (bvBits_length _) _).2, hf] at this
  match gs, this with
  | [g], hv =>
    refine RunsC.idx rfl ⟨h1.grew, hv.1, _, Nat.le_refl _, ?_, h3⟩
    have h4 := (h3.2 g (by simp)).1
    have h5 := hv.1.lt h1.step.bld
    omega

theorem RunsC.and_gate (hb : Bld w s K c) (x y : GateId) :
    RunsC w s (CC.and s x y) c fun g c' => c'.gateMap g = some (.and x y) := by
  have he : CC.and s x y (w.setC s c) = (.ok c.gateIndex, w.setC s (c.and x y).2) := by
    rw [and_eq hb.get, setC_setC]
  have := (Circuit.and_appends hb.wfc x y).new 0
  exact ⟨_, _, he, by simpa using this⟩

theorem RunsC.xor_gate (hb : Bld w s K c) (x y : GateId) :
    RunsC w s (CC.xor s x y) c fun g c' => c'.gateMap g = some (.xor x y) := by
  have he : CC.xor s x y (w.setC s c) = (.ok c.gateIndex, w.setC s (c.xor x y).2) := by
    rw [xor_eq hb.get, setC_setC]
  have := (Circuit.xor_appends hb.wfc x y).new 0
  exact ⟨_, _, he, by simpa using this⟩

/-- a conjunction of gates of `c1` -/
def AndLow (c1 c' : Circuit) (u : GateId) : Prop :=
  ∃ x y, c'.gateMap u = some (.and x y) ∧ x < c1.gateIndex ∧ y < c1.gateIndex

theorem AndLow.ext {c1 c2 c3 : Circuit} {u : GateId} (h : AndLow c1 c2 u) (hx : ExtC c2 c3) : AndLow c1 c3 u := by
  obtain ⟨x, y, h1, h2, h3⟩ := h
  exact ⟨x, y, hx.gates _ _ h1, h2, h3⟩

theorem RunsC.mux (hb : Bld w s K c) (h0 : c.outputLen = 0) (hcr : bc.cref = s) {x y : Bits} {a b : BitVec n} {g : GateId}
    {t : Bool} (hx : BVal w s ins c x bc a) (hy : BVal w s ins c y bc b) (hg : V w s ins c g t) :
    RunsC w s (x.mux y n g) c fun z c' => Grew w s K c c' ∧ BVal w s ins c' z bc (if t then b else a) ∧
      Base c' c.gateIndex c'.gateIndex false z.bits := by
  unfold Bits.mux
  simp only []
  rw [hx.config, hcr]
  refine RunsC.seq (RunsC.not (ins := ins) hb hg (hb.notOut h0 _)) ?_
  intro ns c1 h1
  have b1 := h1.step.bld
  refine RunsC.seq (RunsC.mapRange (I := fun acc c' => Grew w s K c1 c' ∧ (∀ p ∈ acc, c1.gateIndex ≤ p ∧ p < c'.gateIndex) ∧
    (∀ p ∈ acc, ∃ u v, c'.gateMap p = some (.xor u v) ∧ AndLow c1 c' u ∧ AndLow c1 c' v) ∧
    All2 (V w s ins c') acc ((List.range acc.length).map fun i => (if t then b else a).getLsbD i)) n
    ⟨b1.grew, by simp, by simp, by simp [All2]⟩ ?_) ?_
  · rintro i acc c2 hi hacc ⟨k1, k2, k3, k4⟩
    have st2 := h1.step.trans k1.step
    have b2 := st2.bld
    have o2 := st2.outputLen.trans h0
    obtain ⟨xi, a', e1, e2, e3⟩ := hx.vals.get (i := i) (by rw [hx.len]; exact hi)
    obtain ⟨yi, b', f1, f2, f3⟩ := hy.vals.get (i := i) (by rw [hy.len]; exact hi)
    rw [bvBits_get _ hi] at e2 f2
    cases e2; cases f2
    refine RunsC.bind (RunsC.idx e1 ?_)
    refine RunsC.seq (RunsC.both hb.lt (RunsC.and (ins := ins) b2 (st2.v hb e3) (k1.step.v b1 h1.v) (b2.notOut o2 _) (b2.notOut o2 _))
      (RunsC.and_gate b2 _ _)) ?_
    rintro u c3 ⟨h3, m3⟩
    have st3 := st2.trans h3.step
    have o3 := st3.outputLen.trans h0
    refine RunsC.bind (RunsC.idx f1 ?_)
    refine RunsC.seq (RunsC.both hb.lt (RunsC.and (ins := ins) st3.bld (st3.v hb f3) (st3.v hb hg) (st3.bld.notOut o3 _) (st3.bld.notOut o3 _))
      (RunsC.and_gate st3.bld _ _)) ?_
    rintro v c4 ⟨h4, m4⟩
    have st4 := st3.trans h4.step
    have o4 := st4.outputLen.trans h0
    refine (RunsC.both hb.lt (RunsC.xor (ins := ins) st4.bld (h4.step.v h3.step.bld h3.v) h4.v (st4.bld.notOut o4 _) (st4.bld.notOut o4 _))
      (RunsC.xor_gate st4.bld _ _)).mono ?_
    rintro z c5 ⟨h5, m5⟩
    have i3 := h3.gateIndex
    have i4 := h4.gateIndex
    have i5 := h5.gateIndex
    have id5 := h5.id
    have gr := k1.step.ext.gateIndex
    have gt : Grew w s K c2 c5 := (h3.grew.trans h4.grew).trans h5.grew
    refine ⟨k1.trans gt, ?_, ?_, ?_⟩
    · intro p hp
      rcases List.mem_append.mp hp with hp | hp
      · have := k2 p hp; omega
      · simp at hp; subst hp; omega
    · intro p hp
      rcases List.mem_append.mp hp with hp | hp
      · obtain ⟨u', v', q1, q2, q3⟩ := k3 p hp
        exact ⟨u', v', gt.step.ext.gates _ _ q1, q2.ext gt.step.ext, q3.ext gt.step.ext⟩
      · simp at hp; subst hp
        have x1 := Nat.lt_of_lt_of_le (e3.lt hb) h1.step.ext.gateIndex
        have x2 := Nat.lt_of_lt_of_le (f3.lt hb) h1.step.ext.gateIndex
        have x3 := Nat.lt_of_lt_of_le (hg.lt hb) h1.step.ext.gateIndex
        exact ⟨u, v, m5, ⟨_, _, (h4.step.trans h5.step).ext.gates _ _ m3, x1, h1.v.lt b1⟩,
          ⟨_, _, h5.step.ext.gates _ _ m4, x2, x3⟩⟩
    · rw [List.length_append, List.length_singleton, List.range_succ, List.map_append, hacc]
      rw [hacc] at k4
      refine (gt.step.vs b2 k4).append ⟨?_, trivial⟩
      have := h5.v
      cases t <;> simpa using this
  · rintro gs c2 ⟨⟨k1, k2, k3, k4⟩, k5⟩
    have hgr := h1.grew.trans k1
    have b2 := hgr.step.bld
    have hlt := h1.step.ext.gateIndex
    have hgate : ∀ p ∈ gs, ∃ gate, c2.gateMap p = some gate := fun p hp => b2.wfc.some_of_lt (k2 p hp).2
    refine RunsC.pure ⟨hgr, ⟨by simp [← hcr], ?_⟩, ⟨hgr.step.ext.gateIndex, Nat.le_refl _, ?_, ?_⟩⟩
    · rw [k5] at k4
      rw [← bvBits_ext (l := (List.range n).map fun i => (if t then b else a).getLsbD i) (by simp) (by
        intro i hi; rw [List.getElem?_map, List.getElem?_range hi]; rfl)]
      exact k4
    · intro p hp
      have := k2 p hp
      obtain ⟨gate, hgt⟩ := hgate p hp
      have := lead_le p gate
      exact ⟨by omega, .inr ⟨rfl, gate, hgt, by omega⟩⟩
    · intro p hp o ho g gate hr hgt hm
      have hclosed : ∀ g, Reach c2 p g → g < c1.gateIndex ∨ AndLow c1 c2 g ∨ g ∈ gs := by
        intro g hr
        induction hr with
        | refl => exact .inr (.inr hp)
        | @operand y gate x _ h1 h2 ih =>
          rcases ih with ih | ⟨a1, b1, q1, q2, q3⟩ | ih
          · have := b2.topo _ _ h1 _ h2
            have := lead_le y gate
            exact .inl (by omega)
          · rw [q1] at h1; cases h1
            simp [Gate.operands] at h2
            rcases h2 with rfl | rfl
            · exact .inl q2
            · exact .inl q3
          · obtain ⟨u, v, q1, q2, q3⟩ := k3 _ ih
            rw [q1] at h1; cases h1
            simp [Gate.operands] at h2
            rcases h2 with rfl | rfl
            · exact .inr (.inl q2)
            · exact .inr (.inl q3)
        | @sibling y nIn nOut ids oi mid k _ h1 h2 ih =>
          rcases ih with ih | ⟨a1, b1, q1, q2, q3⟩ | ih
          · obtain ⟨gate', hg'⟩ := b1.wfc.some_of_lt ih
            have h3 := k1.step.ext.gates _ _ hg'
            rw [h1] at h3; cases h3
            exact .inl (b1.wfc.lt_of_some ((b1.wfc.group _ _ _ _ _ _ hg').2.2 k h2))
          · rw [q1] at h1; cases h1
          · obtain ⟨u, v, q1, q2, q3⟩ := k3 _ ih
            rw [q1] at h1; cases h1
      have ho1 := k2 o ho
      obtain ⟨u, v, o1, _, _⟩ := k3 o ho
      rcases hclosed g hr with ih | ⟨a1, b1, q1, q2, q3⟩ | ih
      · have := b2.topo _ _ hgt _ hm
        have := lead_le g gate
        omega
      · rw [q1] at hgt; cases hgt
        simp [Gate.operands] at hm
        omega
      · obtain ⟨u', v', q1, ⟨_, _, q2, _, _⟩, ⟨_, _, q3, _, _⟩⟩ := k3 _ ih
        rw [q1] at hgt; cases hgt
        simp [Gate.operands] at hm
        rcases hm with rfl | rfl
        · rw [o1] at q2; cases q2
        · rw [o1] at q3; cases q3

theorem RunsC.inputBits (hb : Bld w s K c) (h0 : c.outputLen = 0) (hcr : bc.cref = s) (hl : c.inputLen + n ≤ ins.length) :
    RunsC w s (Bits.new bc n) c fun x c' => Step w s K c c' ∧ c'.inputLen = c.inputLen + n ∧
      Base c' c.gateIndex c.gateIndex true x.bits ∧ BVal w s ins c' x bc (Mixed.word n ((ins.drop c.inputLen).take n)) := by
  let ic : IntConfig := ⟨s, 0, 0, 0, 0, 0, 0, 0, 0, 0⟩
  have h := RunsC.newI (ins := ins) (n := n) (cfg := ic) hb h0 rfl hl
  obtain ⟨x, c', e, h1, h2, h3, h4⟩ := h
  refine ⟨⟨x.val, bc⟩, c', ?_, h1, h2, h3.base h1.bld, rfl, (h4 _ (wordAt_bits hl)).vals⟩
  unfold AInt.new at e
  unfold Bits.new
  rw [hcr]
  rw [M.bind_apply] at e ⊢
  rcases hr : M.replicate (CC.input ic.cref) n (w.setC s c) with ⟨r | r, w'⟩
  · rw [hr] at e; cases e
  · rw [show ic.cref = s from rfl] at hr
    rw [hr] at e
    cases e; rfl

theorem RunsC.lessOrEq (hb : Bld w s K c) (h0 : c.outputLen = 0) {cfg cfg' : IntConfig} (hn : 1 ≤ n)
    (hi : IntD w (fun d => d < K.out ∨ d = s) K.st n cfg) (hcr : cfg.cref = s) {x y : AInt} {a b : BitVec n}
    (hx : IVal w s ins c x cfg a) (hy : IVal w s ins c y cfg' b) :
    RunsC w s (x.lessOrEq y n) c fun g c' => NewB w s K ins c g ((a - b).msb || a == b) c' := by
  have := RunsC.compareI (φ := fun a b => (a - b).msb || a == b) hb h0 (fun x y => by rw [lessF_bv hn, eq_bv]) hi.lessOrEq hcr hx hy
  rw [← hx.config] at this; exact this

theorem RunsC.shlSpan (hb : Bld w s K c) {cfg : IntConfig} (hcr : cfg.cref = s) {x : AInt} {a : BitVec n}
    (hx : IVal w s ins c x cfg a) {k : Nat} (hk : k ≤ n) :
    RunsC w s (x.shiftLeft n k) c fun z c' => Grew w s K c c' ∧ IVal w s ins c' z cfg (a <<< k) ∧
      ∀ hi B, hi ≤ c.gateIndex → Within c hi B x.val → Within c' hi B z.val := by
  have hl := hx.len
  unfold AInt.shiftLeft
  rw [hx.config, hcr]
  refine RunsC.seq (RunsC.both hb.lt (RunsC.consts (ins := ins) hb false k) (RunsC.consts_src hb false k)) ?_
  rintro zs c1 ⟨⟨h1, h2⟩, h3⟩
  obtain ⟨gs, e1, e2, e3⟩ := mapIdx_ok x.val (fun i => i - k) (w.setC s c1) (rangeFromTo k n) (by
    intro i hi
    simp [rangeFromTo] at hi
    obtain ⟨a, ha, rfl⟩ := hi
    omega)
  have egs : gs = x.val.take (n - k) := by
    apply List.ext_getElem?
    intro i
    by_cases hi : i < n - k
    · rw [e3 i (k + i) (by simp [rangeFromTo, hi]), List.getElem?_take, if_pos hi]
      congr 1; omega
    · rw [List.getElem?_eq_none (by rw [e2]; simp [rangeFromTo]; omega), List.getElem?_take, if_neg hi]
  refine RunsC.bind (RunsC.reads e1 (RunsC.pure ⟨h1, ⟨by simp, ?_⟩, ?_⟩))
  · rw [egs, ← shl_bv hk]
    exact h2.append ((h1.step.vs hb hx.vals).take _)
  · intro hi B hle ht p hp
    rcases List.mem_append.mp hp with hp | hp
    · obtain ⟨q1, q2⟩ := h3 p hp
      exact .inr ⟨q2, by omega⟩
    · rw [egs] at hp
      exact ht.ext h1.step.ext p (List.mem_of_mem_take hp)

theorem RunsC.shrSpan (hn : 1 ≤ n) {cfg : IntConfig} {x : AInt} {a : BitVec n}
    (hx : IVal w s ins c x cfg a) {k : Nat} (hk : k ≤ n) :
    RunsC w s (x.shiftRight n k) c fun z c' => c' = c ∧ IVal w s ins c z cfg (a.sshiftRight k) ∧
      ∀ hi B, Within c hi B x.val → Within c hi B z.val := by
  obtain ⟨sg, h1, h2⟩ := shr_ok (w.setC s c) hn hk hx.len
  obtain ⟨z, c', e, rfl, hz, _⟩ := RunsC.shr hn hx hk
  rw [h2] at e; cases e
  refine ⟨_, c', h2, rfl, hz, fun hi B ht p hp => ?_⟩
  rcases List.mem_append.mp hp with hp | hp
  · exact ht p (List.mem_of_mem_drop hp)
  · obtain rfl := (List.mem_replicate.mp hp).2
    exact ht _ (List.mem_of_getElem? h1)

/-! ### values -/

/-- an entry of the host program holds a value -/
def Holds (w : World) (s : Ref) (ins : List Bool) (c : Circuit) (ic : IntConfig) (bc : BitsConfig) {n : Nat} :
    Handle → Value n → Prop
  | .int x, .int v => IVal w s ins c x ic v
  | .bits x, .bits v => BVal w s ins c x bc v
  | .bit g, .bit b => V w s ins c g b
  | _, _ => False

def Spec.Mixed.Handle.gates : Handle → List GateId
  | .int x => x.val
  | .bits x => x.bits
  | .bit g => [g]

def Spec.Mixed.Handle.kind : Handle → Kind
  | .int _ => .int
  | .bits _ => .bits
  | .bit _ => .bit

variable {ic : IntConfig}

theorem Holds.step {c' : Circuit} {h : Handle} {v : Value n} (hh : Holds w s ins c ic bc h v) (hb : Bld w s K c)
    (hs : Step w s K c c') : Holds w s ins c' ic bc h v := by
  cases h <;> cases v <;> first
    | exact hh.elim
    | exact IVal.step hh hb hs
    | exact BVal.step hh hb hs
    | exact hs.v hb hh

theorem Holds.vals {h : Handle} {v : Value n} (hh : Holds w s ins c ic bc h v) : All2 (V w s ins c) h.gates v.out := by
  cases h <;> cases v <;> first
    | exact hh.elim
    | exact IVal.vals hh
    | exact BVal.vals hh
    | exact ⟨hh, trivial⟩

section
variable {env : List Handle} {vals : List (Value n)} (henv : All2 (Holds w s ins c ic bc) env vals) {i : Nat}
include henv

theorem env_int (h : (env.map Handle.kind)[i]? = some .int) :
    ∃ x v, env[i]? = some (.int x) ∧ Mixed.getInt vals i = some v ∧ IVal w s ins c x ic v := by
  rw [List.getElem?_map] at h
  cases he : env[i]? with
  | none => rw [he] at h; cases h
  | some z =>
    rw [he] at h
    obtain ⟨z', v, e1, e2, e3⟩ := henv.get (lt_of_getElem? he)
    rw [he] at e1; cases e1
    cases z <;> simp [Handle.kind] at h
    cases v <;> first
      | exact e3.elim
      | exact ⟨_, _, rfl, by unfold Mixed.getInt; rw [e2], e3⟩

theorem env_bits (h : (env.map Handle.kind)[i]? = some .bits) :
    ∃ x v, env[i]? = some (.bits x) ∧ Mixed.getBits vals i = some v ∧ BVal w s ins c x bc v := by
  rw [List.getElem?_map] at h
  cases he : env[i]? with
  | none => rw [he] at h; cases h
  | some z =>
    rw [he] at h
    obtain ⟨z', v, e1, e2, e3⟩ := henv.get (lt_of_getElem? he)
    rw [he] at e1; cases e1
    cases z <;> simp [Handle.kind] at h
    cases v <;> first
      | exact e3.elim
      | exact ⟨_, _, rfl, by unfold Mixed.getBits; rw [e2], e3⟩

theorem env_bit (h : (env.map Handle.kind)[i]? = some .bit) :
    ∃ x v, env[i]? = some (.bit x) ∧ Mixed.getBit vals i = some v ∧ V w s ins c x v := by
  rw [List.getElem?_map] at h
  cases he : env[i]? with
  | none => rw [he] at h; cases h
  | some z =>
    rw [he] at h
    obtain ⟨z', v, e1, e2, e3⟩ := henv.get (lt_of_getElem? he)
    rw [he] at e1; cases e1
    cases z <;> simp [Handle.kind] at h
    cases v <;> first
      | exact e3.elim
      | exact ⟨_, _, rfl, by unfold Mixed.getBit; rw [e2], e3⟩

end

theorem RunsC.getI {env : List Handle} {i : Nat} {x : AInt} (h : env[i]? = some (.int x)) {β} {f : AInt → M β}
    {Q : β → Circuit → Prop} (hq : RunsC w s (f x) c Q) : RunsC w s (Mixed.int env i >>= f) c Q := by
  unfold Mixed.int
  exact RunsC.bind (RunsC.bind (RunsC.idx h (RunsC.pure hq)))

theorem RunsC.getBs {env : List Handle} {i : Nat} {x : Bits} (h : env[i]? = some (.bits x)) {β} {f : Bits → M β}
    {Q : β → Circuit → Prop} (hq : RunsC w s (f x) c Q) : RunsC w s (Mixed.bits env i >>= f) c Q := by
  unfold Mixed.bits
  exact RunsC.bind (RunsC.bind (RunsC.idx h (RunsC.pure hq)))

theorem RunsC.getB {env : List Handle} {i : Nat} {x : GateId} (h : env[i]? = some (.bit x)) {β} {f : GateId → M β}
    {Q : β → Circuit → Prop} (hq : RunsC w s (f x) c Q) : RunsC w s (Mixed.bit env i >>= f) c Q := by
  unfold Mixed.bit
  exact RunsC.bind (RunsC.bind (RunsC.idx h (RunsC.pure hq)))

/-! ### one statement -/

/-- how the gates of a new value relate to older gates -/
def MixTag (c c' : Circuit) (env : List Handle) (st : Cmd) (gs : List GateId) : Prop :=
  match st.reuses with
  | some i => ∀ h hi B, env[i]? = some h → hi ≤ c.gateIndex → Within c hi B h.gates → Within c' hi B gs
  | none => ∃ lo hi, c.gateIndex ≤ lo ∧ Base c' lo hi st.source gs

/-- the state after a statement -/
structure Post (w : World) (s : Ref) (K : Ctx) (ins : List Bool) (ic : IntConfig) (bc : BitsConfig) {n : Nat} (env : List Handle)
    (vals : List (Value n)) (st : Cmd) (k : Kind) (c : Circuit) (h : Handle) (c' : Circuit) : Prop where
  step : Step w s K c c'
  inputLen : c'.inputLen = c.inputLen + st.takes n
  kind : h.kind = k
  val : ∃ v, st.value vals (ins.drop c.inputLen) = some v ∧ Holds w s ins c' ic bc h v
  tag : MixTag c c' env st h.gates

variable {env : List Handle} {vals : List (Value n)} {st : Cmd} {c' : Circuit}

theorem Post.ofI {x : AInt} {v : BitVec n} {src : Bool} (hr : st.reuses = none) (ht : st.takes n = 0) (hs : st.source = src)
    (hv : st.value vals (ins.drop c.inputLen) = some (.int v)) (h : NewI w s K ins c x ic v src c') :
    Post w s K ins ic bc env vals st .int c (.int x) c' := by
  refine ⟨h.grew.step, by rw [ht, h.grew.inputLen]; rfl, rfl, ⟨_, hv, h.val⟩, ?_⟩
  obtain ⟨L, h1, h2⟩ := h.tidy
  unfold MixTag
  rw [hr, hs]
  exact ⟨L, L, h1, h2.base h.grew.step.bld⟩

theorem Post.ofB {g : GateId} {b : Bool} (hr : st.reuses = none) (ht : st.takes n = 0) (hs : st.source = false)
    (hv : st.value vals (ins.drop c.inputLen) = some (.bit b)) (h : NewB w s K ins c g b c') :
    Post w s K ins ic bc env vals st .bit c (.bit g) c' := by
  refine ⟨h.grew.step, by rw [ht, h.grew.inputLen]; rfl, rfl, ⟨_, hv, h.v⟩, ?_⟩
  obtain ⟨L, h1, h2, h3⟩ := h.tidy
  unfold MixTag
  rw [hr, hs]
  exact ⟨L, L, h1, h3.base h.grew.step.bld⟩

theorem Post.ofBits {x : Bits} {v : BitVec n} (hr : st.reuses = none) (ht : st.takes n = 0) (hs : st.source = false)
    (hv : st.value vals (ins.drop c.inputLen) = some (.bits v)) (h : NewBits w s K ins c x bc v c') :
    Post w s K ins ic bc env vals st .bits c (.bits x) c' := by
  refine ⟨h.grew.step, by rw [ht, h.grew.inputLen]; rfl, rfl, ⟨_, hv, h.val⟩, ?_⟩
  unfold MixTag
  rw [hr, hs]
  exact ⟨_, _, Nat.le_refl _, h.base⟩

theorem Post.of1 {g : GateId} {b : Bool} (hr : st.reuses = none) (ht : st.takes n = 0) (hs : st.source = true → Source c' g)
    (hv : st.value vals (ins.drop c.inputLen) = some (.bit b)) (hg : Grew w s K c c') (hge : c.gateIndex ≤ g)
    (h : V w s ins c' g b) : Post w s K ins ic bc env vals st .bit c (.bit g) c' := by
  refine ⟨hg.step, by rw [ht, hg.inputLen]; rfl, rfl, ⟨_, hv, h⟩, ?_⟩
  obtain ⟨gate, e⟩ := h.gate hg.step.bld
  unfold MixTag
  rw [hr]
  exact ⟨_, _, hge, base_one hg.step.bld e hs⟩

theorem cmd_ok (hb : Bld w s K c) (h0 : c.outputLen = 0) (hn : 1 ≤ n)
    (hi : IntD w (fun d => d < K.out ∨ d = s) K.st n ic) (hB : BitsD w (fun d => d < K.out ∨ d = s) K.st n bc)
    (hic : ic.cref = s) (hbc : bc.cref = s) (henv : All2 (Holds w s ins c ic bc) env vals) {k : Kind}
    (hk : st.kind (env.map Handle.kind) = some k) (hfit : st.Fits n) (hin : c.inputLen + st.takes n ≤ ins.length) :
    RunsC w s (st.build s ic bc n env) c fun h c' => Post w s K ins ic bc env vals st k c h c' := by
  have no : ∀ g, NotOut c g := fun g => hb.notOut h0 g
  cases st with
  | newInt =>
    cases hk
    refine RunsC.seq (RunsC.newI (ins := ins) hb h0 hic hin) ?_
    rintro x c' ⟨h1, h2, h3, h4⟩
    exact RunsC.pure ⟨h1, h2, rfl, ⟨_, rfl, h4 _ (wordAt_bits hin)⟩, _, _, Nat.le_refl _, h3.base h1.bld⟩
  | const v =>
    cases hk
    obtain ⟨k, hk, hv, hkn⟩ := hfit
    have := (bytesLe_len v k hk).mpr hv
    exact RunsC.seq (RunsC.biguint (ins := ins) (n := n) hb hic (by omega)) fun x c' h1 => RunsC.pure (.ofI rfl rfl rfl rfl h1)
  | zero =>
    cases hk
    exact RunsC.seq (RunsC.zeroI (ins := ins) (n := n) hb hic) fun x c' h1 => RunsC.pure (.ofI rfl rfl rfl rfl h1)
  | one =>
    cases hk
    exact RunsC.seq (RunsC.oneI (ins := ins) (n := n) hb hn hic) fun x c' h1 => RunsC.pure (.ofI rfl rfl rfl rfl h1)
  | add i j =>
    simp only [Cmd.kind, Option.ite_none_right_eq_some, Option.some.injEq] at hk
    obtain ⟨⟨k1, k2⟩, rfl⟩ := hk
    obtain ⟨x, a, e1, e2, e3⟩ := env_int henv k1
    obtain ⟨y, b, f1, f2, f3⟩ := env_int henv k2
    refine RunsC.getI e1 (RunsC.getI f1 (RunsC.seq (RunsC.add hb h0 hi hic e3 f3) ?_))
    rintro z c' ⟨h1, _⟩
    exact RunsC.pure (.ofI rfl rfl rfl (by simp only [Cmd.value, e2, f2]; rfl) h1)
  | sub i j =>
    simp only [Cmd.kind, Option.ite_none_right_eq_some, Option.some.injEq] at hk
    obtain ⟨⟨k1, k2⟩, rfl⟩ := hk
    obtain ⟨x, a, e1, e2, e3⟩ := env_int henv k1
    obtain ⟨y, b, f1, f2, f3⟩ := env_int henv k2
    refine RunsC.getI e1 (RunsC.getI f1 (RunsC.seq (RunsC.sub hb h0 hi hic e3 f3) ?_))
    rintro z c' ⟨h1, _⟩
    exact RunsC.pure (.ofI rfl rfl rfl (by simp only [Cmd.value, e2, f2]; rfl) h1)
  | mul i j =>
    simp only [Cmd.kind, Option.ite_none_right_eq_some, Option.some.injEq] at hk
    obtain ⟨⟨k1, k2⟩, rfl⟩ := hk
    obtain ⟨x, a, e1, e2, e3⟩ := env_int henv k1
    obtain ⟨y, b, f1, f2, f3⟩ := env_int henv k2
    refine RunsC.getI e1 (RunsC.getI f1 (RunsC.seq (RunsC.mul hb h0 hi hic e3 f3) ?_))
    rintro z c' ⟨h1, _⟩
    exact RunsC.pure (.ofI rfl rfl rfl (by simp only [Cmd.value, e2, f2]; rfl) h1)
  | neg i =>
    simp only [Cmd.kind, Option.ite_none_right_eq_some, Option.some.injEq] at hk
    obtain ⟨k1, rfl⟩ := hk
    obtain ⟨x, a, e1, e2, e3⟩ := env_int henv k1
    refine RunsC.getI e1 (RunsC.seq (RunsC.neg hb h0 hi hic e3) ?_)
    rintro z c' ⟨h1, _⟩
    exact RunsC.pure (.ofI rfl rfl rfl (by simp only [Cmd.value, e2]; rfl) h1)
  | shl i m =>
    simp only [Cmd.kind, Option.ite_none_right_eq_some, Option.some.injEq] at hk
    obtain ⟨k1, rfl⟩ := hk
    obtain ⟨x, a, e1, e2, e3⟩ := env_int henv k1
    refine RunsC.getI e1 (RunsC.seq (RunsC.shlSpan hb hic e3 hfit) ?_)
    rintro z c' ⟨h1, h2, h3⟩
    refine RunsC.pure ⟨h1.step, h1.inputLen, rfl, ⟨.int (a <<< m), by simp only [Cmd.value, e2]; rfl, h2⟩, ?_⟩
    intro h hi' B he hle hsp
    rw [e1] at he; cases he
    exact h3 _ _ hle hsp
  | shr i m =>
    simp only [Cmd.kind, Option.ite_none_right_eq_some, Option.some.injEq] at hk
    obtain ⟨k1, rfl⟩ := hk
    obtain ⟨x, a, e1, e2, e3⟩ := env_int henv k1
    refine RunsC.getI e1 (RunsC.seq (RunsC.shrSpan hn e3 hfit) ?_)
    rintro z c' ⟨rfl, h2, h3⟩
    refine RunsC.pure ⟨hb.refl, rfl, rfl, ⟨.int (a.sshiftRight m), by simp only [Cmd.value, e2]; rfl, h2⟩, ?_⟩
    intro h hi' B he hle hsp
    rw [e1] at he; cases he
    exact h3 _ _ hsp
  | eq i j =>
    simp only [Cmd.kind, Option.ite_none_right_eq_some, Option.some.injEq] at hk
    obtain ⟨⟨k1, k2⟩, rfl⟩ := hk
    obtain ⟨x, a, e1, e2, e3⟩ := env_int henv k1
    obtain ⟨y, b, f1, f2, f3⟩ := env_int henv k2
    refine RunsC.getI e1 (RunsC.getI f1 (RunsC.seq (RunsC.eqI hb h0 hi hic e3 f3) ?_))
    intro z c' h1
    exact RunsC.pure (.ofB rfl rfl rfl (by simp only [Cmd.value, e2, f2]; rfl) h1)
  | neq i j =>
    simp only [Cmd.kind, Option.ite_none_right_eq_some, Option.some.injEq] at hk
    obtain ⟨⟨k1, k2⟩, rfl⟩ := hk
    obtain ⟨x, a, e1, e2, e3⟩ := env_int henv k1
    obtain ⟨y, b, f1, f2, f3⟩ := env_int henv k2
    refine RunsC.getI e1 (RunsC.getI f1 (RunsC.seq (RunsC.neqI hb h0 hi hic e3 f3) ?_))
    intro z c' h1
    exact RunsC.pure (.ofB rfl rfl rfl (by simp only [Cmd.value, e2, f2]; rfl) h1)
  | less i j =>
    simp only [Cmd.kind, Option.ite_none_right_eq_some, Option.some.injEq] at hk
    obtain ⟨⟨k1, k2⟩, rfl⟩ := hk
    obtain ⟨x, a, e1, e2, e3⟩ := env_int henv k1
    obtain ⟨y, b, f1, f2, f3⟩ := env_int henv k2
    refine RunsC.getI e1 (RunsC.getI f1 (RunsC.seq (RunsC.less hb h0 hn hi hic e3 f3) ?_))
    intro z c' h1
    exact RunsC.pure (.ofB rfl rfl rfl (by simp only [Cmd.value, e2, f2]; rfl) h1)
  | lessOrEq i j =>
    simp only [Cmd.kind, Option.ite_none_right_eq_some, Option.some.injEq] at hk
    obtain ⟨⟨k1, k2⟩, rfl⟩ := hk
    obtain ⟨x, a, e1, e2, e3⟩ := env_int henv k1
    obtain ⟨y, b, f1, f2, f3⟩ := env_int henv k2
    refine RunsC.getI e1 (RunsC.getI f1 (RunsC.seq (RunsC.lessOrEq hb h0 hn hi hic e3 f3) ?_))
    intro z c' h1
    exact RunsC.pure (.ofB rfl rfl rfl (by simp only [Cmd.value, e2, f2]; rfl) h1)
  | larger i j =>
    simp only [Cmd.kind, Option.ite_none_right_eq_some, Option.some.injEq] at hk
    obtain ⟨⟨k1, k2⟩, rfl⟩ := hk
    obtain ⟨x, a, e1, e2, e3⟩ := env_int henv k1
    obtain ⟨y, b, f1, f2, f3⟩ := env_int henv k2
    refine RunsC.getI e1 (RunsC.getI f1 (RunsC.seq (RunsC.larger hb h0 hn hi hic e3 f3) ?_))
    intro z c' h1
    exact RunsC.pure (.ofB rfl rfl rfl (by simp only [Cmd.value, e2, f2]; rfl) h1)
  | largerOrEq i j =>
    simp only [Cmd.kind, Option.ite_none_right_eq_some, Option.some.injEq] at hk
    obtain ⟨⟨k1, k2⟩, rfl⟩ := hk
    obtain ⟨x, a, e1, e2, e3⟩ := env_int henv k1
    obtain ⟨y, b, f1, f2, f3⟩ := env_int henv k2
    refine RunsC.getI e1 (RunsC.getI f1 (RunsC.seq (RunsC.largerOrEq hb h0 hn hi hic e3 f3) ?_))
    intro z c' h1
    exact RunsC.pure (.ofB rfl rfl rfl (by simp only [Cmd.value, e2, f2]; rfl) h1)
  | ofBit i =>
    simp only [Cmd.kind, Option.ite_none_right_eq_some, Option.some.injEq] at hk
    obtain ⟨k1, rfl⟩ := hk
    obtain ⟨x, a, e1, e2, e3⟩ := env_bit henv k1
    refine RunsC.getB e1 (RunsC.seq (RunsC.fromGateIds (ins := ins) (bs := [a]) hb hic (show All2 _ [_] [_] from ⟨e3, trivial⟩)
      (by simpa using hn)) ?_)
    rintro z c' ⟨h1, h2, h3, pad, h4, h5, h6⟩
    refine RunsC.pure ⟨h1.step, h1.inputLen, rfl, ⟨.int (if a then 1 else 0), by simp only [Cmd.value, e2]; rfl, ⟨h2, ?_⟩⟩, ?_⟩
    · cases a <;> simpa [bitsVal] using h3
    · intro h hi' B he hle hsp p hp
      rw [e1] at he; cases he
      rw [show (Handle.int z).gates = _ from h4] at hp
      rcases List.mem_append.mp hp with hp | hp
      · exact hsp.ext h1.step.ext p hp
      · exact .inr ⟨(h6 p hp).2, Nat.le_trans hle (h6 p hp).1⟩
  | toInt i =>
    simp only [Cmd.kind, Option.ite_none_right_eq_some, Option.some.injEq] at hk
    obtain ⟨k1, rfl⟩ := hk
    obtain ⟨x, a, e1, e2, e3⟩ := env_bits henv k1
    have hl := e3.len
    refine RunsC.getBs e1 (RunsC.seq (RunsC.fromGateIds (ins := ins) (n := n) hb hic e3.vals (by omega)) ?_)
    rintro z c' ⟨h1, h2, h3, pad, h4, h5, h6⟩
    refine RunsC.pure ⟨h1.step, h1.inputLen, rfl, ⟨.int a, by simp only [Cmd.value, e2]; rfl, ⟨h2, ?_⟩⟩, ?_⟩
    · rw [← bvBits_of (bvBits_length a)] at h3; exact h3
    · intro h hi' B he hle hsp p hp
      rw [e1] at he; cases he
      rw [show (Handle.int z).gates = _ from h4] at hp
      rcases List.mem_append.mp hp with hp | hp
      · exact hsp.ext h1.step.ext p hp
      · exact .inr ⟨(h6 p hp).2, Nat.le_trans hle (h6 p hp).1⟩
  | newBits =>
    cases hk
    refine RunsC.seq (RunsC.inputBits (ins := ins) hb h0 hbc hin) ?_
    rintro x c' ⟨h1, h2, h3, h4⟩
    exact RunsC.pure ⟨h1, h2, rfl, ⟨_, rfl, h4⟩, _, _, Nat.le_refl _, h3⟩
  | toBits i =>
    simp only [Cmd.kind, Option.ite_none_right_eq_some, Option.some.injEq] at hk
    obtain ⟨k1, rfl⟩ := hk
    obtain ⟨x, a, e1, e2, e3⟩ := env_int henv k1
    have hl := e3.len
    refine RunsC.getI e1 ?_
    unfold Bits.fromGateIds
    rw [if_pos (by omega), hl, Nat.sub_self]
    refine RunsC.bind (RunsC.bind (RunsC.pure (RunsC.pure (RunsC.pure ?_))))
    rw [List.append_nil]
    refine ⟨hb.refl, rfl, rfl, ⟨.bits a, by simp only [Cmd.value, e2]; rfl, ⟨rfl, e3.vals⟩⟩, ?_⟩
    intro h hi' B he hle hsp
    rw [e1] at he; cases he
    exact hsp
  | notBits i =>
    simp only [Cmd.kind, Option.ite_none_right_eq_some, Option.some.injEq] at hk
    obtain ⟨k1, rfl⟩ := hk
    obtain ⟨x, a, e1, e2, e3⟩ := env_bits henv k1
    refine RunsC.getBs e1 (RunsC.seq (RunsC.bits1 hb h0 hbc hB e3) ?_)
    intro z c' h1
    exact RunsC.pure (.ofBits rfl rfl rfl (by simp only [Cmd.value, e2]; rfl) h1)
  | andBits i j =>
    simp only [Cmd.kind, Option.ite_none_right_eq_some, Option.some.injEq] at hk
    obtain ⟨⟨k1, k2⟩, rfl⟩ := hk
    obtain ⟨x, a, e1, e2, e3⟩ := env_bits henv k1
    obtain ⟨y, b, f1, f2, f3⟩ := env_bits henv k2
    have hm := RunsC.bits2 hb h0 hbc and_bv hB.and e3 f3
    rw [← e3.config] at hm
    refine RunsC.getBs e1 (RunsC.getBs f1 (RunsC.seq hm ?_))
    intro z c' h1
    rw [e3.config] at h1
    exact RunsC.pure (.ofBits rfl rfl rfl (by simp only [Cmd.value, e2, f2]; rfl) h1)
  | orBits i j =>
    simp only [Cmd.kind, Option.ite_none_right_eq_some, Option.some.injEq] at hk
    obtain ⟨⟨k1, k2⟩, rfl⟩ := hk
    obtain ⟨x, a, e1, e2, e3⟩ := env_bits henv k1
    obtain ⟨y, b, f1, f2, f3⟩ := env_bits henv k2
    have hm := RunsC.bits2 hb h0 hbc or_bv hB.or e3 f3
    rw [← e3.config] at hm
    refine RunsC.getBs e1 (RunsC.getBs f1 (RunsC.seq hm ?_))
    intro z c' h1
    rw [e3.config] at h1
    exact RunsC.pure (.ofBits rfl rfl rfl (by simp only [Cmd.value, e2, f2]; rfl) h1)
  | xorBits i j =>
    simp only [Cmd.kind, Option.ite_none_right_eq_some, Option.some.injEq] at hk
    obtain ⟨⟨k1, k2⟩, rfl⟩ := hk
    obtain ⟨x, a, e1, e2, e3⟩ := env_bits henv k1
    obtain ⟨y, b, f1, f2, f3⟩ := env_bits henv k2
    have hm := RunsC.bits2 hb h0 hbc xor_bv hB.xor e3 f3
    rw [← e3.config] at hm
    refine RunsC.getBs e1 (RunsC.getBs f1 (RunsC.seq hm ?_))
    intro z c' h1
    rw [e3.config] at h1
    exact RunsC.pure (.ofBits rfl rfl rfl (by simp only [Cmd.value, e2, f2]; rfl) h1)
  | eqBits i j =>
    simp only [Cmd.kind, Option.ite_none_right_eq_some, Option.some.injEq] at hk
    obtain ⟨⟨k1, k2⟩, rfl⟩ := hk
    obtain ⟨x, a, e1, e2, e3⟩ := env_bits henv k1
    obtain ⟨y, b, f1, f2, f3⟩ := env_bits henv k2
    have hm := RunsC.compareBits hb h0 hbc eq_bv hB.eq e3 f3
    rw [← e3.config] at hm
    refine RunsC.getBs e1 (RunsC.getBs f1 (RunsC.seq hm ?_))
    intro z c' h1
    exact RunsC.pure (.ofB rfl rfl rfl (by simp only [Cmd.value, e2, f2]; rfl) h1)
  | neqBits i j =>
    simp only [Cmd.kind, Option.ite_none_right_eq_some, Option.some.injEq] at hk
    obtain ⟨⟨k1, k2⟩, rfl⟩ := hk
    obtain ⟨x, a, e1, e2, e3⟩ := env_bits henv k1
    obtain ⟨y, b, f1, f2, f3⟩ := env_bits henv k2
    have hm := RunsC.compareBits (φ := fun a b => !(a == b)) hb h0 hbc (fun x y => by rw [eq_bv]) hB.neq e3 f3
    rw [← e3.config] at hm
    refine RunsC.getBs e1 (RunsC.getBs f1 (RunsC.seq hm ?_))
    intro z c' h1
    exact RunsC.pure (.ofB rfl rfl rfl (by simp only [Cmd.value, e2, f2]; rfl) h1)
  | mux t i j =>
    simp only [Cmd.kind, Option.ite_none_right_eq_some, Option.some.injEq] at hk
    obtain ⟨⟨k0, k1, k2⟩, rfl⟩ := hk
    obtain ⟨g, b0, g1, g2, g3⟩ := env_bit henv k0
    obtain ⟨x, a, e1, e2, e3⟩ := env_bits henv k1
    obtain ⟨y, b, f1, f2, f3⟩ := env_bits henv k2
    refine RunsC.getB g1 (RunsC.getBs e1 (RunsC.getBs f1 (RunsC.seq (RunsC.mux hb h0 hbc e3 f3 g3) ?_)))
    rintro z c' ⟨h1, h2, h3⟩
    refine RunsC.pure ⟨h1.step, h1.inputLen, rfl, ⟨.bits (if b0 then b else a), by simp only [Cmd.value, e2, f2, g2]; rfl, h2⟩, ?_⟩
    exact ⟨_, _, Nat.le_refl _, h3⟩
  | input =>
    cases hk
    have hlt : c.inputLen < ins.length := hin
    refine RunsC.seq (RunsC.both hb.lt (RunsC.input (ins := ins) hb h0) (RunsC.input_src hb)) ?_
    rintro g c' ⟨⟨h1, h2, h3, h4, h5⟩, h6, h7⟩
    have hv : V w s ins c' g (ins[c.inputLen]) := h5 _ (List.getElem?_eq_getElem hlt)
    obtain ⟨gate, e⟩ := hv.gate h1.bld
    refine RunsC.pure ⟨h1, h2, rfl, ⟨_, rfl, ?_⟩, _, _, h6, base_one h1.bld e fun _ => h7⟩
    rw [List.head?_drop, List.getElem?_eq_getElem hlt]
    exact hv
  | constant v =>
    cases hk
    refine RunsC.seq (RunsC.both hb.lt (RunsC.constant (ins := ins) hb v) (RunsC.constant_src hb v)) ?_
    rintro g c' ⟨h1, h2, h3⟩
    exact RunsC.pure (.of1 rfl rfl (fun _ => h3) rfl h1.grew h2 h1.v)
  | not i =>
    simp only [Cmd.kind, Option.ite_none_right_eq_some, Option.some.injEq] at hk
    obtain ⟨k1, rfl⟩ := hk
    obtain ⟨x, a, e1, e2, e3⟩ := env_bit henv k1
    refine RunsC.getB e1 (RunsC.seq (RunsC.not hb e3 (no _)) ?_)
    intro g c' h1
    exact RunsC.pure (.of1 rfl rfl (fun h => by cases h) (by simp only [Cmd.value, e2]; rfl) h1.grew (Nat.le_of_eq h1.id.symm) h1.v)
  | and i j =>
    simp only [Cmd.kind, Option.ite_none_right_eq_some, Option.some.injEq] at hk
    obtain ⟨⟨k1, k2⟩, rfl⟩ := hk
    obtain ⟨x, a, e1, e2, e3⟩ := env_bit henv k1
    obtain ⟨y, b, f1, f2, f3⟩ := env_bit henv k2
    refine RunsC.getB e1 (RunsC.getB f1 (RunsC.seq (RunsC.and hb e3 f3 (no _) (no _)) ?_))
    intro g c' h1
    exact RunsC.pure (.of1 rfl rfl (fun h => by cases h) (by simp only [Cmd.value, e2, f2]; rfl) h1.grew (Nat.le_of_eq h1.id.symm) h1.v)
  | or i j =>
    simp only [Cmd.kind, Option.ite_none_right_eq_some, Option.some.injEq] at hk
    obtain ⟨⟨k1, k2⟩, rfl⟩ := hk
    obtain ⟨x, a, e1, e2, e3⟩ := env_bit henv k1
    obtain ⟨y, b, f1, f2, f3⟩ := env_bit henv k2
    refine RunsC.getB e1 (RunsC.getB f1 (RunsC.seq (RunsC.or hb e3 f3 (no _) (no _)) ?_))
    intro g c' h1
    exact RunsC.pure (.of1 rfl rfl (fun h => by cases h) (by simp only [Cmd.value, e2, f2]; rfl) h1.grew (Nat.le_of_eq h1.id.symm) h1.v)
  | xor i j =>
    simp only [Cmd.kind, Option.ite_none_right_eq_some, Option.some.injEq] at hk
    obtain ⟨⟨k1, k2⟩, rfl⟩ := hk
    obtain ⟨x, a, e1, e2, e3⟩ := env_bit henv k1
    obtain ⟨y, b, f1, f2, f3⟩ := env_bit henv k2
    refine RunsC.getB e1 (RunsC.getB f1 (RunsC.seq (RunsC.xor hb e3 f3 (no _) (no _)) ?_))
    intro g c' h1
    refine RunsC.pure (.of1 rfl rfl (fun h => by cases h) (by simp only [Cmd.value, e2, f2]; rfl) h1.grew (Nat.le_of_eq h1.id.symm) ?_)
    rw [← Bool.bne_eq_xor]; exact h1.v
  | equivalent i j =>
    simp only [Cmd.kind, Option.ite_none_right_eq_some, Option.some.injEq] at hk
    obtain ⟨⟨k1, k2⟩, rfl⟩ := hk
    obtain ⟨x, a, e1, e2, e3⟩ := env_bit henv k1
    obtain ⟨y, b, f1, f2, f3⟩ := env_bit henv k2
    refine RunsC.getB e1 (RunsC.getB f1 (RunsC.seq (RunsC.equivalent hb e3 f3 (no _) (no _)) ?_))
    rintro g c' ⟨h1, h2, h3, h4, h5, _⟩
    exact RunsC.pure (.of1 rfl rfl (fun h => by cases h) (by simp only [Cmd.value, e2, f2]; rfl) ⟨h1, h2⟩ (by omega) h5)
  | identity i =>
    simp only [Cmd.kind, Option.ite_none_right_eq_some, Option.some.injEq] at hk
    obtain ⟨k1, rfl⟩ := hk
    obtain ⟨x, a, e1, e2, e3⟩ := env_bit henv k1
    refine RunsC.getB e1 ?_
    unfold CC.identity
    refine RunsC.bind (RunsC.seq (RunsC.not hb e3 (no _)) ?_)
    intro g c1 h1
    refine (RunsC.not h1.step.bld h1.v (h1.notOut hb)).mono ?_
    intro g' c' h2
    have i1 := h1.gateIndex
    have i2 := h2.id
    refine RunsC.pure (.of1 rfl rfl (fun h => by cases h) (by simp only [Cmd.value, e2]; rfl) (h1.grew.trans h2.grew) (by omega) ?_)
    have := h2.v
    rwa [Bool.not_not] at this

/-! ### tags -/

/-- where the gates of a value come from -/
structure MTag where
  origin : Nat
  lo : Nat
  hi : Nat
  src : Bool
  base : List GateId

/-- tags of all values after the statements `done` -/
structure MTags (c : Circuit) (done : List Cmd) (env : List Handle) (tags : List MTag) (os : List Nat) : Prop where
  os : tags.map (·.origin) = os
  len : done.length = env.length
  lt : ∀ t ∈ tags, t.origin < env.length
  src : ∀ t ∈ tags, done[t.origin]?.map (·.source) = some t.src
  base : ∀ t ∈ tags, Base c t.lo t.hi t.src t.base
  within : All2 (fun t (x : Handle) => Within c t.hi t.base x.gates) tags env
  mono : ∀ t ∈ tags, ∀ t' ∈ tags, t.origin < t'.origin → t.hi ≤ t'.lo
  same : ∀ t ∈ tags, ∀ t' ∈ tags, t.origin = t'.origin → t = t'

theorem MTags.ext {c' : Circuit} {done env tags os} (h : MTags c done env tags os) (hb : Bld w s K c) (hx : ExtC c c') :
    MTags c' done env tags os :=
  { h with within := h.within.mono fun _ _ ht => ht.ext hx, base := fun t ht => (h.base t ht).ext hb hx }

theorem MTags.fresh {c' : Circuit} {done env tags os} (h : MTags c done env tags os) (hb : Bld w s K c) (hx : ExtC c c') {st : Cmd}
    (x : Handle) {lo hi : Nat} (hL : c.gateIndex ≤ lo) (ht : Base c' lo hi st.source x.gates) :
    MTags c' (done ++ [st]) (env ++ [x]) (tags ++ [⟨env.length, lo, hi, st.source, x.gates⟩]) (os ++ [os.length]) := by
  have hlen := h.within.length
  have hol : os.length = env.length := by rw [← h.os]; simpa using hlen
  refine ⟨by simp [h.os, hol], by simp [h.len], ?_, ?_, ?_, ?_, ?_, ?_⟩
  · intro t htm
    simp at htm ⊢
    rcases htm with htm | rfl
    · have := h.lt t htm; omega
    · simp
  · intro t htm
    rcases List.mem_append.mp htm with htm | htm
    · rw [List.getElem?_append_left (by rw [h.len]; exact h.lt t htm)]
      exact h.src t htm
    · simp at htm; subst htm
      simp [← h.len]
  · intro t htm
    rcases List.mem_append.mp htm with htm | htm
    · exact (h.base t htm).ext hb hx
    · simp at htm; subst htm
      exact ht
  · exact (h.ext hb hx).within.append ⟨fun p hp => .inl hp, trivial⟩
  · intro t htm t' htm' hle
    rcases List.mem_append.mp htm with htm | htm <;> rcases List.mem_append.mp htm' with htm' | htm'
    · exact h.mono t htm t' htm' hle
    · simp at htm'; subst htm'
      exact Nat.le_trans (h.base t htm).hi_le hL
    · simp at htm; subst htm
      have := h.lt t' htm'
      simp at hle; omega
    · simp at htm htm'; subst htm; subst htm'; simp at hle
  · intro t htm t' htm' hle
    rcases List.mem_append.mp htm with htm | htm <;> rcases List.mem_append.mp htm' with htm' | htm'
    · exact h.same t htm t' htm' hle
    · simp at htm'; subst htm'
      have := h.lt t htm
      simp at hle; omega
    · simp at htm; subst htm
      have := h.lt t' htm'
      simp at hle; omega
    · simp at htm htm'; subst htm; subst htm'; rfl

theorem MTags.again {c' : Circuit} {done env tags os} (h : MTags c done env tags os) (hb : Bld w s K c) (hx : ExtC c c') {st : Cmd}
    (x : Handle) {i : Nat} (hi : i < env.length)
    (ht : ∀ x' hi B, env[i]? = some x' → hi ≤ c.gateIndex → Within c hi B x'.gates → Within c' hi B x.gates) :
    ∃ t, MTags c' (done ++ [st]) (env ++ [x]) (tags ++ [t]) (os ++ [os[i]?.getD 0]) := by
  have hlen := h.within.length
  obtain ⟨t, x', e1, e2, e3⟩ := h.within.get (i := i) (by omega)
  have htm0 : t ∈ tags := List.mem_of_getElem? e1
  have hos : os[i]? = some t.origin := by rw [← h.os]; simp [e1]
  have hcase : ∀ t', t' ∈ tags ++ [t] → t' ∈ tags := by
    intro t' h'
    rcases List.mem_append.mp h' with h' | h'
    · exact h'
    · simp at h'; subst h'; exact htm0
  refine ⟨t, by simp [h.os, hos], by simp [h.len], ?_, ?_, ?_, ?_, ?_, ?_⟩
  · intro t' htm
    have := h.lt t' (hcase t' htm)
    simp; omega
  · intro t' htm
    rw [List.getElem?_append_left (by rw [h.len]; exact h.lt t' (hcase t' htm))]
    exact h.src t' (hcase t' htm)
  · intro t' htm
    exact (h.base t' (hcase t' htm)).ext hb hx
  · exact (h.ext hb hx).within.append ⟨ht x' _ _ e2 (h.base t htm0).hi_le e3, trivial⟩
  · intro t1 h1 t2 h2 hle
    exact h.mono t1 (hcase _ h1) t2 (hcase _ h2) hle
  · intro t1 h1 t2 h2 hle
    exact h.same t1 (hcase _ h1) t2 (hcase _ h2) hle

/-- the reused operand exists -/
theorem reuses_lt {ks : List Kind} {k : Kind} {i : Nat} (hk : st.kind ks = some k) (hr : st.reuses = some i) : i < ks.length := by
  cases st <;> simp only [Cmd.reuses, Option.some.injEq, reduceCtorEq] at hr <;> subst hr <;>
    (simp only [Cmd.kind, Option.ite_none_right_eq_some] at hk; exact lt_of_getElem? hk.1)

/-! ### whole programs -/

theorem mixed_build (hn : 1 ≤ n) (hi : IntD w (fun d => d < K.out ∨ d = s) K.st n ic)
    (hB : BitsD w (fun d => d < K.out ∨ d = s) K.st n bc) (hic : ic.cref = s) (hbc : bc.cref = s) :
    ∀ (p : List Cmd) {c : Circuit} (done : List Cmd) (env : List Handle) (vals : List (Value n)) (tags : List MTag)
      (os : List Nat) {ks : List Kind}, Bld w s K c → c.outputLen = 0 → All2 (Holds w s ins c ic bc) env vals →
      MTags c done env tags os → Mixed.kinds p (env.map Handle.kind) = some ks → (∀ st ∈ p, st.Fits n) →
      c.inputLen + Mixed.inputs n p = ins.length →
      RunsC w s (Mixed.build s ic bc n p env) c fun env' c' => Step w s K c c' ∧ env'.length = env.length + p.length ∧
        c'.inputLen = ins.length ∧
        (∃ vals', Mixed.exec p (ins.drop c.inputLen) vals = some vals' ∧ All2 (Holds w s ins c' ic bc) env' vals') ∧
        ∃ tags', MTags c' (done ++ p) env' tags' (Mixed.origins p os)
  | [], c, done, env, vals, tags, os, ks, hb, h0, henv, htag, hks, hfit, hin =>
    RunsC.pure ⟨hb.refl, by simp, by simpa [Mixed.inputs] using hin, ⟨vals, rfl, henv⟩, tags, by simpa [Mixed.origins] using htag⟩
  | st :: p, c, done, env, vals, tags, os, ks, hb, h0, henv, htag, hks, hfit, hin => by
    simp only [Mixed.kinds, Option.bind_eq_bind, Option.bind_eq_some_iff] at hks
    obtain ⟨k, hk, hks⟩ := hks
    simp only [Mixed.inputs] at hin
    refine RunsC.seq (cmd_ok (ins := ins) hb h0 hn hi hB hic hbc henv hk (hfit st (by simp)) (by omega)) ?_
    intro x c1 h1
    obtain ⟨v, hv, hh⟩ := h1.val
    have henv1 : All2 (Holds w s ins c1 ic bc) (env ++ [x]) (vals ++ [v]) :=
      (henv.mono fun _ _ hx => hx.step hb h1.step).append ⟨hh, trivial⟩
    obtain ⟨tags1, os1, ht1, ho1⟩ : ∃ tags1 os1, MTags c1 (done ++ [st]) (env ++ [x]) tags1 os1 ∧
        Mixed.origins (st :: p) os = Mixed.origins p os1 := by
      have h6 := h1.tag
      unfold MixTag at h6
      cases hr : st.reuses with
      | none =>
        rw [hr] at h6
        obtain ⟨lo, hi', l1, l2⟩ := h6
        exact ⟨_, _, htag.fresh hb h1.step.ext x l1 l2, by simp only [Mixed.origins, hr]⟩
      | some i =>
        rw [hr] at h6
        obtain ⟨t, ht⟩ := htag.again (st := st) hb h1.step.ext x (by simpa using reuses_lt hk hr) h6
        exact ⟨_, _, ht, by simp only [Mixed.origins, hr]⟩
    have hil := h1.inputLen
    refine (mixed_build hn hi hB hic hbc p (done ++ [st]) (env ++ [x]) (vals ++ [v]) tags1 os1 (ks := ks) h1.step.bld
      (h1.step.outputLen.trans h0) henv1 ht1 (by simpa [h1.kind] using hks) (fun q hq => hfit q (by simp [hq])) (by omega)).mono ?_
    rintro env' c' ⟨k1, k2, k3, ⟨vals', k4, k5⟩, tags', k6⟩
    refine ⟨h1.step.trans k1, by rw [k2]; simp; omega, k3, ⟨vals', ?_, k5⟩, tags', ?_⟩
    · simp only [Mixed.exec, hv, List.drop_drop]
      rw [← hil]; exact k4
    · rw [ho1]
      simpa using k6

theorem RunsC.outputH (hb : Bld w s K c) (hic : ic.cref = s) (hbc : bc.cref = s) (gs : List GateId) {x : Handle} {v : Value n}
    (hx : Holds w s ins c ic bc x v) :
    RunsC w s (x.output s n) (withOutputs c gs) fun _ c' => c' = withOutputs c (gs ++ x.gates) := by
  cases x <;> cases v <;> try exact hx.elim
  · have hx : IVal w s ins c _ ic _ := hx
    exact RunsC.outputI hb.lt hic gs hx.config hx.len fun g hg => by
      obtain ⟨b, hb1⟩ := hx.vals.left hg
      exact hb1.gate hb
  · have hx : BVal w s ins c _ bc _ := hx
    exact RunsC.outputBits hb.lt hbc gs hx.config hx.len fun g hg => by
      obtain ⟨b, hb1⟩ := hx.vals.left hg
      exact hb1.gate hb
  · have hx : V w s ins c _ _ := hx
    obtain ⟨gate, hg⟩ := hx.gate hb
    exact RunsC.seq (RunsC.output1 hb.lt gs hg) fun _ _ h => RunsC.pure h

theorem RunsC.outputHs (hb : Bld w s K c) (hic : ic.cref = s) (hbc : bc.cref = s) (env : List Handle) (vals : List (Value n))
    (henv : All2 (Holds w s ins c ic bc) env vals) :
    ∀ (outs : List Nat) (gs : List GateId), (∀ i ∈ outs, i < env.length) →
    RunsC w s (M.mapList (fun i => do let z ← M.idx env i; z.output s n) outs) (withOutputs c gs) fun _ c' =>
      c' = withOutputs c (gs ++ outs.flatMap fun i => (env[i]?.map (·.gates)).getD [])
  | [], gs, _ => RunsC.pure (by simp)
  | i :: outs, gs, h => by
    obtain ⟨x, v, hget, _, hx⟩ := henv.get (h i (by simp))
    refine RunsC.seq (RunsC.bind (RunsC.idx hget (RunsC.outputH hb hic hbc gs hx))) ?_
    rintro _ c1 rfl
    refine RunsC.seq (RunsC.outputHs hb hic hbc env vals henv outs (gs ++ x.gates) (fun j hj => h j (by simp [hj]))) ?_
    rintro _ c2 rfl
    refine RunsC.pure ?_
    rw [List.flatMap_cons, hget]
    simp

theorem outs_vals {env : List Handle} {vals : List (Value n)} (henv : All2 (Holds w s ins c ic bc) env vals) :
    ∀ (outs : List Nat), (∀ i ∈ outs, i < env.length) → ∃ vs, outs.mapM (fun i => vals[i]?) = some vs ∧
      All2 (V w s ins c) (outs.flatMap fun i => (env[i]?.map (·.gates)).getD []) (vs.flatMap Value.out)
  | [], _ => ⟨[], rfl, trivial⟩
  | i :: outs, h => by
    obtain ⟨x, v, e1, e2, e3⟩ := henv.get (h i (by simp))
    obtain ⟨vs, h1, h2⟩ := outs_vals henv outs fun j hj => h j (by simp [hj])
    refine ⟨v :: vs, by rw [List.mapM_cons, e2]; simp [h1], ?_⟩
    rw [List.flatMap_cons, List.flatMap_cons, e1]
    exact e3.vals.append h2

theorem mixed_pairwise {c : Circuit} (hb : Bld w s K c) {p : List Cmd} {env : List Handle} {tags : List MTag}
    (ht : MTags c p env tags (Mixed.origins p [])) {outs : List Nat} (hord : Mixed.Ordered p outs) :
    (outs.flatMap fun i => (env[i]?.map (·.gates)).getD []).Pairwise (Apart c) := by
  have hget : ∀ (i : Nat) (x : Handle), env[i]? = some x → ∃ t, tags[i]? = some t ∧ t ∈ tags ∧ Within c t.hi t.base x.gates := by
    intro i x hx
    obtain ⟨t, x', e1, e2, e3⟩ := ht.within.get (i := i) (by rw [ht.within.length]; exact lt_of_getElem? hx)
    rw [hx] at e2; cases e2
    exact ⟨t, e1, List.mem_of_getElem? e1, e3⟩
  have hmem : ∀ (i : Nat) (g : GateId), g ∈ (env[i]?.map (·.gates)).getD [] → ∃ x, env[i]? = some x ∧ g ∈ x.gates := by
    intro i g hg
    cases h : env[i]? with
    | none => simp [h] at hg
    | some x => exact ⟨x, rfl, by simpa [h] using hg⟩
  have key : ∀ t ∈ tags, ∀ t' ∈ tags, (t.src = true ∨ t.origin ≤ t'.origin) → ∀ gs gs', Within c t.hi t.base gs →
      Within c t'.hi t'.base gs' → ∀ a ∈ gs, ∀ b ∈ gs', Apart c a b := by
    intro t m1 t' m2 ho gs gs' h1 h2 a ha b hb'
    rcases h1 a ha with h1 | ⟨h1, _⟩
    · have bt := ht.base t m1
      have bt' := ht.base t' m2
      rcases (bt.mem a h1).2 with hs | ⟨h0, gate, hg, hl⟩
      · exact Early.apart hb (.inl hs)
      · have ho := ho.resolve_left (by simp [h0])
        rcases Nat.lt_or_eq_of_le ho with ho | ho
        · have h3 := ht.mono t m1 t' m2 ho
          have hlo : t'.lo ≤ b := by
            rcases h2 b hb' with h2 | ⟨_, h2⟩
            · exact (bt'.mem b h2).1
            · have := bt'.lo_le; omega
          exact Early.apart hb (.inr ⟨gate, hg, by omega⟩)
        · obtain rfl := ht.same t m1 t' m2 ho
          rcases h2 b hb' with h2 | ⟨_, h2⟩
          · exact bt.cross a h1 b h2
          · exact Early.apart hb (.inr ⟨gate, hg, by omega⟩)
    · exact Early.apart hb (.inl h1)
  rw [List.pairwise_flatMap]
  constructor
  · intro i hi
    cases h : env[i]? with
    | none => simp
    | some x =>
      obtain ⟨t, _, m, htd⟩ := hget i x h
      refine List.pairwise_iff_forall_sublist.mpr fun {a b} hab => ?_
      exact key t m t m (.inr (Nat.le_refl _)) _ _ htd htd a (hab.subset (List.mem_cons_self ..)) b
        (hab.subset (List.mem_cons_of_mem _ (List.mem_cons_self ..)))
  · refine hord.imp ?_
    intro i j hij a ha b hb'
    obtain ⟨x, hx, hax⟩ := hmem i a ha
    obtain ⟨y, hy, hby⟩ := hmem j b hb'
    obtain ⟨t, e1, m1, h1⟩ := hget i x hx
    obtain ⟨t', e2, m2, h2⟩ := hget j y hy
    have := hij t.origin t'.origin (by rw [← ht.os]; simp [e1]) (by rw [← ht.os]; simp [e2])
    refine key t m1 t' m2 (this.imp (fun h => ?_) id) _ _ h1 h2 a hax b hby
    rw [ht.src t m1] at h
    exact Option.some.inj h

/-- what both configurations guarantee -/
def MixReady (n : Nat) (w : World) (N : Nat) (st : StoreRef) (r : Ref) (cfg : IntConfig × BitsConfig) : Prop :=
  cfg.1.cref = r ∧ cfg.2.cref = r ∧ IntOk w N st n cfg.1 ∧ BitsOk w N st n cfg.2

theorem configures_mixed (hn : 1 ≤ n) : Configures (Mixed.configs n) (MixReady n) := by
  intro w r c0 N hw hr hN
  obtain ⟨ic, w1, e1, a1, h1, h2⟩ := intConfig_ok hw hr hN hn
  obtain ⟨bc, w2, e2, a2, h3, h4⟩ := bitsConfig_ok a1.wf (a1.keeps.circ r c0 trivial hr) (Nat.le_trans hN a1.length) n
  refine ⟨(ic, bc), w2, ?_, a1.trans a2, h1, h3, a2.intOk h2, h4⟩
  unfold Mixed.configs
  rw [bind_ok e1, bind_ok e2]; rfl

end

/-! ### programs only make API calls -/

theorem plays_getI (env : List Handle) (i : Nat) : Plays (Mixed.int env i) := by unfold Mixed.int; plays
theorem plays_getBs (env : List Handle) (i : Nat) : Plays (Mixed.bits env i) := by unfold Mixed.bits; plays
theorem plays_getB (env : List Handle) (i : Nat) : Plays (Mixed.bit env i) := by unfold Mixed.bit; plays

theorem plays_cmd (r : Ref) (ic : IntConfig) (bc : BitsConfig) (n : Nat) (env : List Handle) (st : Cmd) :
    Plays (st.build r ic bc n env) := by
  have g1 := plays_getI env
  have g2 := plays_getBs env
  have g3 := plays_getB env
  cases st <;> unfold Cmd.build <;>
    (try unfold AInt.eq) <;> (try unfold AInt.neq) <;> (try unfold AInt.less) <;> (try unfold AInt.lessOrEq) <;>
    (try unfold AInt.larger) <;> (try unfold AInt.largerOrEq) <;> (try unfold AInt.shiftLeft) <;>
    (try unfold Bits.new) <;> (try unfold Bits.fromGateIds) <;> (try unfold Bits.not) <;> (try unfold Bits.and) <;>
    (try unfold Bits.or) <;> (try unfold Bits.xor) <;> (try unfold Bits.eq) <;> (try unfold Bits.neq) <;> (try unfold Bits.mux) <;>
    (repeat' with_reducible (first
      | exact g1 _ | exact g2 _ | exact g3 _
      | exact plays_AInt_new _ _ | exact plays_AInt_fromGateIds _ _ _ | exact plays_AInt_zero _ _ | exact plays_AInt_one _ _
      | exact plays_AInt_fromBiguint _ _ _ | exact plays_AInt_add _ _ | exact plays_AInt_sub _ _
      | exact plays_AInt_mul _ _ | exact plays_AInt_neg _ _ | exact plays_AInt_compareWith _ _ _ _
      | exact plays_AInt_shiftRight _ _ _
      | exact Plays.pure _ | exact Plays.throw _ | exact plays_input _ | exact plays_constant _ _
      | exact plays_not _ _ | exact plays_xor _ _ _ | exact plays_and _ _ _ | exact plays_or _ _ _
      | exact plays_equivalent _ _ _ | exact plays_identity _ _ | exact plays_module _ _ _
      | exact Plays.idx _ _
      | apply Plays.expect | apply Plays.replicate | apply Plays.mapList | apply Plays.bind
      | intro _ | split))

theorem plays_mixed (r : Ref) (ic : IntConfig) (bc : BitsConfig) (n : Nat) : ∀ (p : List Cmd) (env : List Handle),
    Plays (Mixed.build r ic bc n p env)
  | [], _ => .pure _
  | st :: p, env => .bind (plays_cmd r ic bc n env st) fun x => plays_mixed r ic bc n p (env ++ [x])

theorem plays_outputH (r : Ref) (n : Nat) (x : Handle) : Plays (x.output r n) := by
  cases x with
  | int x => exact plays_AInt_output _ _
  | bits x => show Plays (x.output n); unfold Bits.output; plays
  | bit g => exact .bind (plays_output _ _) fun _ => .pure _

/-! ### well-typed programs have a result -/

def Spec.Mixed.Value.kind {n : Nat} : Value n → Kind
  | .int _ => .int
  | .bits _ => .bits
  | .bit _ => .bit

theorem vals_kind {n : Nat} {vals : List (Value n)} {i : Nat} {k : Kind} (h : (vals.map Value.kind)[i]? = some k) :
    match k with
    | .int => ∃ v, Mixed.getInt vals i = some v
    | .bits => ∃ v, Mixed.getBits vals i = some v
    | .bit => ∃ v, Mixed.getBit vals i = some v := by
  simp only [List.getElem?_map, Option.map_eq_some_iff] at h
  obtain ⟨v, h1, rfl⟩ := h
  cases v with
  | int v => exact ⟨v, by simp [Mixed.getInt, h1]⟩
  | bits v => exact ⟨v, by simp [Mixed.getBits, h1]⟩
  | bit v => exact ⟨v, by simp [Mixed.getBit, h1]⟩

theorem value_total {n : Nat} {vals : List (Value n)} {st : Cmd} {k : Kind} (h : st.kind (vals.map Value.kind) = some k)
    (ins : List Bool) : ∃ v, st.value vals ins = some v ∧ v.kind = k := by
  cases st <;> simp only [Cmd.kind, Option.ite_none_right_eq_some, Option.some.injEq] at h
  all_goals first
    | (subst h; exact ⟨_, rfl, rfl⟩)
    | (obtain ⟨⟨h1, h2, h3⟩, rfl⟩ := h
       obtain ⟨x, hx⟩ := vals_kind h1
       obtain ⟨y, hy⟩ := vals_kind h2
       obtain ⟨z, hz⟩ := vals_kind h3
       refine ⟨_, by simp only [Cmd.value, hx, hy, hz, Option.bind_eq_bind, Option.bind_some]; rfl, rfl⟩)
    | (obtain ⟨⟨h1, h2⟩, rfl⟩ := h
       obtain ⟨x, hx⟩ := vals_kind h1
       obtain ⟨y, hy⟩ := vals_kind h2
       refine ⟨_, by simp only [Cmd.value, hx, hy, Option.bind_eq_bind, Option.bind_some]; rfl, rfl⟩)
    | (obtain ⟨h1, rfl⟩ := h
       obtain ⟨x, hx⟩ := vals_kind h1
       refine ⟨_, by simp only [Cmd.value, hx, Option.bind_eq_bind, Option.bind_some]; rfl, rfl⟩)

theorem exec_total {n : Nat} : ∀ (p : List Cmd) (vals : List (Value n)) (ins : List Bool) {ks : List Kind},
    Mixed.kinds p (vals.map Value.kind) = some ks → ∃ vals', Mixed.exec p ins vals = some vals' ∧ vals'.length = vals.length + p.length
  | [], vals, _, _, _ => ⟨vals, rfl, by simp⟩
  | st :: p, vals, ins, ks, h => by
    simp only [Mixed.kinds, Option.bind_eq_bind, Option.bind_eq_some_iff] at h
    obtain ⟨k, hk, hks⟩ := h
    obtain ⟨v, hv, rfl⟩ := value_total hk ins
    obtain ⟨vals', h1, h2⟩ := exec_total p (vals ++ [v]) (ins.drop (st.takes n)) (ks := ks) (by simpa using hks)
    refine ⟨vals', by simp only [Mixed.exec, hv, Option.bind_eq_bind, Option.bind_some]; exact h1, ?_⟩
    simp at h2 ⊢; omega

theorem mixed_total {n : Nat} {p : List Cmd} {outs : List Nat} {ks : List Kind} (hks : Mixed.kinds p [] = some ks)
    (houts : ∀ i ∈ outs, i < p.length) (ins : List Bool) : ∃ out, Mixed.runProgram n p outs ins = some out := by
  obtain ⟨vals, h1, h2⟩ := exec_total (n := n) p [] ins hks
  have : ∀ outs : List Nat, (∀ i ∈ outs, i < p.length) → ∃ vs, outs.mapM (fun i => vals[i]?) = some vs := by
    intro outs
    induction outs with
    | nil => intro _; exact ⟨[], rfl⟩
    | cons i outs ih =>
      intro h
      obtain ⟨vs, hvs⟩ := ih fun j hj => h j (by simp [hj])
      have hi := h i (by simp)
      exact ⟨vals[i]'(by simp at h2; omega) :: vs, by rw [List.mapM_cons, List.getElem?_eq_getElem (by simp at h2; omega)]; simp [hvs]⟩
  obtain ⟨vs, hvs⟩ := this outs houts
  exact ⟨vs.flatMap Value.out, by simp [Mixed.runProgram, h1, hvs]⟩

theorem mixed_ok {w : World} (hw : Reachable w) {st : StoreRef} (hst : st < w.stores.length) {n : Nat} (hn : 1 ≤ n)
    {p : List Cmd} {outs : List Nat} (hty : (Mixed.kinds p []).isSome) (hfit : ∀ c ∈ p, c.Fits n)
    (houts : ∀ i ∈ outs, i < p.length) :
    ∃ r w', Mixed.compile st n p outs w = (.ok r, w') ∧ (ValidRun w → ValidRun w') ∧
      (∃ c, w'.circs[r]? = some c ∧ c.inputLen = Mixed.inputs n p) ∧
      (∀ ins : List Bool, ins.length = Mixed.inputs n p → ∃ out, Mixed.runProgram n p outs ins = some out ∧ Outputs w' r ins out) ∧
      (Mixed.Ordered p outs → ∃ F, ∀ fuel ≥ F, ∀ ins : List Bool, ins.length = Mixed.inputs n p →
        ∃ out, Mixed.runProgram n p outs ins = some out ∧ evalOutput w' fuel r ins = .ok out) := by
  obtain ⟨ks, hks⟩ := Option.isSome_iff_exists.mp hty
  have hbody : ∀ {w s K c cfg}, Bld w s K c → c.outputLen = 0 → c.inputLen = 0 → MixReady n w (s + 1) K.st s cfg → Callable w s K →
      ∀ ins : List Bool, ins.length = Mixed.inputs n p → RunsC w s (do
        let env ← Mixed.build s cfg.1 cfg.2 n p []
        let _ ← M.mapList (fun i => do let z ← M.idx env i; z.output s n) outs
        pure s) c fun a c2 => a = s ∧ ∃ out, Mixed.runProgram n p outs ins = some out ∧
          LeavesIf (Mixed.Ordered p outs) w s K c (Mixed.inputs n p) ins out c2 := by
    rintro w s K c ⟨ic, bc⟩ hb h0 hi0 ⟨hic, hbc, hI, hBo⟩ hcall ins hins
    have hi : IntD w (fun d => d < K.out ∨ d = s) K.st n ic := hI.toD hcall
    have hB : BitsD w (fun d => d < K.out ∨ d = s) K.st n bc := ⟨hcall _ _ _ _ hBo.not, hcall _ _ _ _ hBo.and, hcall _ _ _ _ hBo.or,
      hcall _ _ _ _ hBo.xor, hcall _ _ _ _ hBo.eq, hcall _ _ _ _ hBo.neq⟩
    refine RunsC.seq (mixed_build (ins := ins) hn hi hB hic hbc p [] [] [] [] [] (ks := ks) hb h0 trivial
      ⟨rfl, rfl, by simp, by simp, by simp, trivial, by simp, by simp⟩ hks hfit (by omega)) ?_
    rintro env c1 ⟨h1, h2, h3, ⟨vals, h4, h5⟩, tags, h6⟩
    have hlt : ∀ i ∈ outs, i < env.length := fun i hi => by rw [h2]; simpa using houts i hi
    have ho := RunsC.outputHs h1.bld hic hbc env vals h5 outs [] hlt
    rw [withOutputs_nil h1.bld.wfc (h1.outputLen.trans h0)] at ho
    refine RunsC.seq ho ?_
    rintro _ c2 rfl
    obtain ⟨vs, q1, q2⟩ := outs_vals h5 outs hlt
    refine RunsC.pure ⟨rfl, vs.flatMap Value.out, ?_, c1, _, rfl, h1, h3.trans hins, ?_, q2⟩
    · unfold Mixed.runProgram
      rw [hi0, List.drop_zero] at h4
      simp [h4, q1]
    · exact fun hord => mixed_pairwise h1.bld (by simpa using h6) hord
  obtain ⟨r, w', e, hv, hc, ho, h⟩ := test_any (O := Mixed.Ordered p outs) (configures_mixed hn) (fun r => .bind (plays_intConfig r n) fun _ => .bind (plays_bitsConfig r n) fun _ => .pure _)
    (body := fun s cfg => do
        let env ← Mixed.build s cfg.1 cfg.2 n p []
        let _ ← M.mapList (fun i => do let z ← M.idx env i; z.output s n) outs
        pure s)
    (fun r cfg => .bind (plays_mixed _ _ _ _ _ _) fun env => .bind (.mapList (fun i => .bind (.idx _ _) fun z => plays_outputH _ _ _) _) fun _ => .pure _)
    (m := Mixed.inputs n p) (f := fun ins => (Mixed.runProgram n p outs ins).getD []) (fun hb h0 hi0 hr hc ins hins =>
      (hbody hb h0 hi0 hr hc ins hins).mono fun a c2 ⟨h1, out, h2, h3⟩ => ⟨h1, by rw [h2]; exact h3⟩) hw hst
  refine ⟨r, w', e, hv, hc, fun ins hins => ?_, fun hord => ?_⟩
  · obtain ⟨out, h1⟩ := mixed_total (n := n) hks houts ins
    have := ho ins hins
    rw [h1] at this
    exact ⟨out, h1, this⟩
  obtain ⟨F, h⟩ := h hord
  refine ⟨F, fun fuel hf ins hins => ?_⟩
  obtain ⟨out, ho⟩ := mixed_total (n := n) hks houts ins
  exact ⟨out, ho, by rw [h fuel hf ins hins, ho]; rfl⟩

end CC
