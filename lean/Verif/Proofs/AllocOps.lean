import Verif.Proofs.Session
import Verif.Proofs.NumS
import Verif.Proofs.Plays
import Verif.Props.Utils

/-!
# Operations of `AllocInt` and `AllocBits` on an arbitrary circuit
-/

namespace CC
open Spec Logic Arith

theorem RunsW.gives {r : Ref} {α} {w : World} {x : M α} {Q Q' : α → World → Prop} (h : RunsW r w x Q)
    (hq : ∀ a w', Q a w' → Q' a w') : Gives r w x Q' := by
  obtain ⟨a, w', h1, h2, h3⟩ := h
  exact ⟨a, w', h1, h2.extends, hq _ _ h3⟩

section
variable {w : World} {r : Ref} {c : Circuit} {N n : Nat}

/-- a two-operand module call -/
theorem RunsW.call2 (hw : WFw w) (hc : w.circs[r]? = some c) (hr : r < N) {mid : ModuleId} {nOut : Nat}
    {f : List Bool → List Bool → List Bool} (hm : ModOk w N c.storage mid (2 * n) nOut (bin n f)) {xs ys : List GateId}
    (hx : xs.length = n) (hy : ys.length = n) :
    RunsW r w (CC.module r mid (xs ++ ys)) fun gs w' => gs.length = nOut ∧
      ∀ ins a b, All2 (Val w r ins) xs a → All2 (Val w r ins) ys b → All2 (Val w' r ins) gs (f a b) := by
  refine (RunsW.module hw hc hr hm _).mono ?_
  rintro gs w' _ ⟨h1, h2⟩
  refine ⟨h1, fun ins a b ha hb => ?_⟩
  have la := ha.length
  have lb := hb.length
  have := h2 ins (a ++ b) (ha.append hb) (by simp; omega)
  rw [(All2.app_bin ha hb (by omega) f).2] at this
  exact this

theorem RunsW.call2_bit (hw : WFw w) (hc : w.circs[r]? = some c) (hr : r < N) {mid : ModuleId}
    {f : List Bool → List Bool → Bool} (hm : ModOk w N c.storage mid (2 * n) 1 (bin n fun a b => [f a b]))
    {xs ys : List GateId} (hx : xs.length = n) (hy : ys.length = n) :
    RunsW r w (do let outs ← CC.module r mid (xs ++ ys); M.idx outs 0) fun g w' =>
      ∀ ins a b, All2 (Val w r ins) xs a → All2 (Val w r ins) ys b → Val w' r ins g (f a b) := by
  refine RunsW.seq (RunsW.call2 hw hc hr hm hx hy) ?_
  rintro gs w' g1 ⟨h1, h2⟩
  match gs, h1 with
  | [g], _ =>
    refine RunsW.idx g1.wf rfl ?_
    intro ins a b ha hb
    exact (h2 ins a b ha hb).1

theorem RunsW.compare (hw : WFw w) (hc : w.circs[r]? = some c) (hr : r < N) {mid : ModuleId}
    {f : List Bool → List Bool → Bool} (hm : ModOk w N c.storage mid (2 * n) 1 (bin n fun a b => [f a b]))
    {x y : AInt} (hcr : x.config.cref = r) (hx : x.val.length = n) (hy : y.val.length = n) :
    RunsW r w (AInt.compareWith mid x y n) fun g w' =>
      ∀ ins a b, All2 (Val w r ins) x.val a → All2 (Val w r ins) y.val b → Val w' r ins g (f a b) := by
  unfold AInt.compareWith AInt.slices
  rw [if_neg (by omega), if_neg (by omega), List.take_of_length_le (by omega), List.take_of_length_le (by omega), hcr]
  refine RunsW.seq (P := fun ids w' => ids = x.val ++ y.val ∧ w' = w) (RunsW.pure hw ⟨rfl, rfl⟩) ?_
  rintro _ _ _ ⟨rfl, rfl⟩
  exact RunsW.call2_bit hw hc hr hm hx hy

theorem RunsW.fromGateIds (hw : WFw w) {cfg : IntConfig} (hc : w.circs[cfg.cref]? = some c) {ids : List GateId}
    (hl : ids.length ≤ n) : RunsW cfg.cref w (AInt.fromGateIds cfg n ids) fun x w' => x.config = cfg ∧ x.val.length = n ∧
      ∀ ins bs, All2 (Val w cfg.cref ins) ids bs →
        All2 (Val w' cfg.cref ins) x.val (bs ++ List.replicate (n - bs.length) false) := by
  unfold AInt.fromGateIds
  rw [if_pos hl]
  refine RunsW.seq (RunsW.consts hw hc false _) ?_
  rintro pad w' g1 ⟨h1, h2⟩
  refine RunsW.pure g1.wf ⟨rfl, by simp [h1]; omega, ?_⟩
  intro ins bs hb
  have := hb.length
  rw [← this]
  exact (g1.vals hb).append (h2 ins)

theorem RunsW.neg (hw : WFw w) {cfg : IntConfig} (hc : w.circs[cfg.cref]? = some c) (hr : cfg.cref < N)
    (hi : IntOk w N c.storage n cfg) {x : AInt} (hx : x.config = cfg) (hl : x.val.length = n) :
    RunsW cfg.cref w (x.neg n) fun z w' => z.config = cfg ∧ z.val.length = n ∧
      ∀ ins bs, All2 (Val w cfg.cref ins) x.val bs → All2 (Val w' cfg.cref ins) z.val (subF n (List.replicate n false) bs) := by
  subst hx
  unfold AInt.neg AInt.zero
  refine RunsW.seq (RunsW.expect (RunsW.fromGateIds hw hc (ids := []) (Nat.zero_le _))) ?_
  rintro z w1 g1 ⟨h1, h2, h3⟩
  obtain ⟨c1, hc1, hst⟩ := g1.at hc
  have hk : Keeps (N ≤ ·) w w1 := g1.keeps.weaken fun y hy e => by subst e; omega
  have hm := hi.sub.session hk
  rw [← hst] at hm
  unfold AInt.sub
  rw [h1]
  refine RunsW.seq (RunsW.expect (RunsW.call2 g1.wf hc1 hr hm h2 hl)) ?_
  rintro gs w2 g2 ⟨k1, k2⟩
  refine RunsW.pure g2.wf ⟨rfl, k1, ?_⟩
  intro ins bs hb
  have := h3 ins [] trivial
  exact k2 ins _ bs (by simpa using this) (g1.vals hb)

theorem mapIdx_ok (l : List GateId) (f : Nat → Nat) (w : World) : ∀ (is : List Nat), (∀ i ∈ is, f i < l.length) →
    ∃ gs, M.mapList (fun i => M.idx l (f i)) is w = (.ok gs, w) ∧ gs.length = is.length ∧
      ∀ (k i : Nat), is[k]? = some i → gs[k]? = l[f i]?
  | [], _ => ⟨[], rfl, rfl, by simp⟩
  | i :: is, h => by
    obtain ⟨gs, h1, h2, h3⟩ := mapIdx_ok l f w is (fun j hj => h j (by simp [hj]))
    have hlt := h i (by simp)
    have hi : M.idx l (f i) w = (.ok l[f i], w) := by
      unfold M.idx
      rw [List.getElem?_eq_getElem (h i (by simp))]; rfl
    refine ⟨l[f i] :: gs, ?_, by simp [h2], ?_⟩
    · unfold M.mapList
      rw [bind_ok hi, bind_ok h1]; rfl
    · intro k j hk
      cases k with
      | zero => simp at hk; subst hk; simp [List.getElem?_eq_getElem (h i (by simp))]
      | succ k => simp at hk ⊢; exact h3 k j hk

theorem RunsW.shl (hw : WFw w) {x : AInt} (hc : w.circs[x.config.cref]? = some c) {k : Nat} (hk : k ≤ n)
    (hl : x.val.length = n) : RunsW x.config.cref w (x.shiftLeft n k) fun z w' => z.config = x.config ∧ z.val.length = n ∧
      ∀ ins bs, All2 (Val w x.config.cref ins) x.val bs →
        All2 (Val w' x.config.cref ins) z.val (List.replicate k false ++ bs.take (n - k)) := by
  unfold AInt.shiftLeft
  refine RunsW.seq (RunsW.consts hw hc false k) ?_
  rintro zs w1 g1 ⟨h1, h2⟩
  obtain ⟨gs, e1, e2, e3⟩ := mapIdx_ok x.val (fun i => i - k) w1 (rangeFromTo k n) (by
    intro i hi
    simp [rangeFromTo] at hi
    obtain ⟨a, ha, rfl⟩ := hi
    omega)
  have egs : gs = x.val.take (n - k) := by
    apply List.ext_getElem?
    intro i
    by_cases hi : i < n - k
    · rw [e3 i (k + i) (by simp [rangeFromTo, hi]), List.getElem?_take, if_pos hi]
      congr 1; omega
    · rw [List.getElem?_eq_none (by rw [e2]; simp [rangeFromTo]; omega), List.getElem?_eq_none (by simp; omega)]
  refine RunsW.seq (P := fun a w' => a = gs ∧ w' = w1) ⟨gs, w1, e1, .refl g1.wf, rfl, rfl⟩ ?_
  rintro _ _ _ ⟨rfl, rfl⟩
  refine RunsW.pure g1.wf ⟨rfl, by simp [h1, egs]; omega, ?_⟩
  intro ins bs hb
  simp only [egs]
  exact (h2 ins).append ((g1.vals hb).take _)

theorem shr_ok {x : AInt} (w : World) {k : Nat} (hn : 1 ≤ n) (hk : k ≤ n) (hl : x.val.length = n) :
    ∃ sg, x.val[n - 1]? = some sg ∧ x.shiftRight n k w = (.ok ⟨x.val.drop k ++ List.replicate k sg, x.config⟩, w) := by
  unfold AInt.shiftRight
  have hlt : n - 1 < x.val.length := by omega
  refine ⟨_, List.getElem?_eq_getElem hlt, ?_⟩
  rw [if_neg (by omega)]
  have hi : M.idx x.val (n - 1) w = (.ok x.val[n - 1], w) := by
    unfold M.idx
    rw [List.getElem?_eq_getElem hlt]; rfl
  rw [bind_ok hi]
  simp only []
  rw [if_neg (by omega)]
  obtain ⟨gs, e1, e2, e3⟩ := mapIdx_ok x.val (fun i => i + k) w (List.range (n - k)) (by
    intro i hi
    simp at hi
    omega)
  have egs : gs = x.val.drop k := by
    apply List.ext_getElem?
    intro i
    by_cases hi : i < n - k
    · rw [e3 i i (by simp [hi]), List.getElem?_drop]
      congr 1; omega
    · rw [List.getElem?_eq_none (by rw [e2]; simp; omega), List.getElem?_eq_none (by simp; omega)]
  rw [bind_ok e1, egs]; rfl

theorem bytesLeAux_val : ∀ fuel v, v ≤ fuel → bytesVal (AInt.bytesLeAux fuel v) = v
  | 0, v, h => by simp [AInt.bytesLeAux, bytesVal]; omega
  | fuel + 1, v, h => by
    unfold AInt.bytesLeAux
    split
    · next e => subst e; rfl
    · rw [bytesVal, bytesLeAux_val fuel (v / 256) (by omega)]; omega

theorem bytesLe_val (v : Nat) : bytesVal (AInt.bytesLe v) = v := by
  unfold AInt.bytesLe
  split
  · next e => subst e; rfl
  · exact bytesLeAux_val v v (Nat.le_refl v)

theorem bytesLeAux_len : ∀ fuel v k, v ≤ fuel → ((AInt.bytesLeAux fuel v).length ≤ k ↔ v < 256 ^ k)
  | 0, v, k, h => by
    have : v = 0 := by omega
    subst this
    simp [AInt.bytesLeAux]
  | fuel + 1, v, k, h => by
    unfold AInt.bytesLeAux
    split
    · next e => subst e; simp
    · next e =>
      cases k with
      | zero => simp; omega
      | succ k =>
        rw [List.length_cons, Nat.succ_le_succ_iff, bytesLeAux_len fuel (v / 256) k (by omega), Nat.pow_succ,
          Nat.div_lt_iff_lt_mul (by omega)]

theorem bytesLe_len (v k : Nat) (hk : 1 ≤ k) : (AInt.bytesLe v).length ≤ k ↔ v < 256 ^ k := by
  unfold AInt.bytesLe
  split
  · next e => subst e; simpa using hk
  · exact bytesLeAux_len v v k (Nat.le_refl v)

theorem bytesLeAux_lt : ∀ fuel v b, b ∈ AInt.bytesLeAux fuel v → b < 256
  | 0, v, b => by simp [AInt.bytesLeAux]
  | fuel + 1, v, b => by
    unfold AInt.bytesLeAux
    split
    · simp
    · intro h
      simp at h
      rcases h with rfl | h
      · omega
      · exact bytesLeAux_lt fuel _ b h

theorem bytesLe_lt (v b : Nat) (h : b ∈ AInt.bytesLe v) : b < 256 := by
  unfold AInt.bytesLe at h
  split at h
  · simp at h; omega
  · exact bytesLeAux_lt v v b h

end

/-- `n` new inputs -/
theorem inputs_run (r : Ref) : ∀ (n : Nat) {w : World} {c : Circuit}, WFw w → w.circs[r]? = some c →
    ∃ gs w' c', M.replicate (input r) n w = (.ok gs, w') ∧ On r w w' ∧ WFw w' ∧ Ext w w' ∧ w'.circs[r]? = some c' ∧
      c'.inputLen = c.inputLen + n ∧ c'.outputLen = c.outputLen ∧ gs.length = n ∧
      ∀ (i : Nat) g, gs[i]? = some g → c'.gateMap g = some (.input (c.inputLen + i))
  | 0, w, c, hw, hc => ⟨[], w, c, rfl, .refl, hw, Ext.refl w, hc, rfl, rfl, rfl, by simp⟩
  | n + 1, w, c, hw, hc => by
    have he := input_eq hc
    have hg := good_input r w hw
    rw [he] at hg
    have hwc := hw.circ r c hc
    have ap := Circuit.input_appends hwc
    have hc1 := setC_get hc c.input.2
    obtain ⟨gs, w', c', e, ho, hw', hx, hc', h1, h2, h3, h4⟩ := inputs_run r n hg.1 hc1
    have hin : c.input.2.inputLen = c.inputLen + 1 := rfl
    refine ⟨c.gateIndex :: gs, w', c', ?_, ?_, hw', hg.2.trans hx, hc', by omega, h2, by simp [h3], ?_⟩
    · unfold M.replicate
      rw [bind_ok he, bind_ok e]; rfl
    · have := On.step (r := r) (.input r) (On.refl (w := w)) rfl
      have e2 : ((Op.input r).call w).2 = (input r w).2 := map_world _ _ w
      rw [e2, he] at this
      exact this.trans ho
    · intro i g hi
      cases i with
      | zero =>
        simp at hi; subst hi
        obtain ⟨d, hd, hxd⟩ := hx.circs r _ hc1
        rw [hc'] at hd; cases hd
        have := ap.new 0
        exact hxd.gates _ _ (by simpa using this)
      | succ i =>
        simp at hi
        rw [h4 i g hi, hin]
        congr 2; omega

end CC
