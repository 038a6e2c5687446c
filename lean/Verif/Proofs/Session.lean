import Verif.Spec.Alloc
import Verif.Proofs.ArithB
import Verif.Proofs.Hist

/-!
# Using configurations on an arbitrary circuit

`RunsW r w x Q`: program `x`, started in heap `w`, succeeds, makes calls on circuit `r` only, keeps inputs, outputs and
the values of existing gates, and `Q` holds of result and new heap. Unlike `RunsC` nothing is assumed of `r`.
-/

namespace CC
open Spec Logic Arith

/-! ### calls -/

theorem Spec.On.trans {r : Ref} {w w' w'' : World} (h : On r w w') (k : On r w' w'') : On r w w'' := by
  induction k with
  | refl => exact h
  | step op _ ht ih => exact .step op ih ht

theorem Spec.On.later {r : Ref} {w w' : World} (h : On r w w') : Later w w' := by
  induction h with
  | refl => exact .refl _
  | step op _ _ ih => exact .step op ih

theorem Spec.Since.later {w0 w1 w : World} (h : Since w0 w1 w) : Later w1 w := by
  induction h with
  | refl => exact .refl _
  | step op _ _ ih => exact .step op ih

theorem Spec.Since.on {w0 w1 w w' : World} {r : Ref} (h : Since w0 w1 w) (hr : r < w0.circs.length) (ho : On r w w') :
    Since w0 w1 w' := by
  induction ho with
  | refl => exact h
  | step op _ ht ih => exact .step op ih (fun q hq => by rw [ht] at hq; cases hq; exact .inl hr)

theorem Ext.length {w w' : World} (h : Ext w w') : w.circs.length ≤ w'.circs.length := by
  apply Nat.le_of_not_lt
  intro hlt
  obtain ⟨c', hc', _⟩ := h.circs _ _ (List.getElem?_eq_getElem hlt)
  have := lt_of_getElem? hc'
  omega

theorem Ext.keeps {P : Ref → Prop} {w w' : World} (h : Ext w w')
    (hs : ∀ (x : Ref) c, P x → w.circs[x]? = some c → w'.circs[x]? = some c) : Keeps P w w' :=
  ⟨hs, fun s st hst => h.stores s st hst⟩

theorem Spec.Since.keeps {w0 w1 w : World} (hw : WFw w1) (h : Since w0 w1 w) : Keeps (w0.circs.length ≤ ·) w1 w := by
  refine (ext_of_later hw h.later).2.keeps ?_
  intro x c hx hc
  induction h with
  | refl => exact hc
  | step op hs ht ih =>
    have hlt := lt_of_getElem? ih
    rw [frame_op op _ x ?_ hlt]
    · exact ih
    · intro he
      have := ht x he
      have := lt_of_getElem? hc
      omega

theorem Spec.On.other {r : Ref} {w w' : World} (h : On r w w') {x : Ref} {c : Circuit} (hx : x ≠ r)
    (hc : w.circs[x]? = some c) : w'.circs[x]? = some c := by
  induction h with
  | refl => exact hc
  | step op _ ht ih =>
    rw [frame_op op _ x (by rw [ht]; intro e; cases e; exact hx rfl) (lt_of_getElem? ih)]; exact ih

theorem denotes_iff {w : World} {r : Ref} {ins gs bs} : Denotes w r ins gs bs ↔ All2 (Val w r ins) gs bs := by
  rw [all2_iff]; rfl

/-! ### growing one circuit -/

structure Grows (r : Ref) (w w' : World) : Prop where
  on : On r w w'
  wf : WFw w'
  circ : ∀ c, w.circs[r]? = some c → ∃ c', w'.circs[r]? = some c' ∧ ExtC c c' ∧ c'.inputLen = c.inputLen ∧
    c'.outputLen = c.outputLen ∧ c'.outputMap = c.outputMap
  ext : Ext w w'

theorem Grows.refl {r w} (hw : WFw w) : Grows r w w :=
  ⟨.refl, hw, fun c hc => ⟨c, hc, ExtC.refl c, rfl, rfl, rfl⟩, Ext.refl w⟩

theorem Grows.trans {r w w' w''} (h : Grows r w w') (k : Grows r w' w'') : Grows r w w'' := by
  refine ⟨h.on.trans k.on, k.wf, ?_, h.ext.trans k.ext⟩
  intro c hc
  obtain ⟨c1, h1, h2, h3, h4, h5⟩ := h.circ c hc
  obtain ⟨c2, k1, k2, k3, k4, k5⟩ := k.circ c1 h1
  exact ⟨c2, k1, h2.trans k2, k3.trans h3, k4.trans h4, k5.trans h5⟩

theorem Grows.val {r w w'} (h : Grows r w w') {ins g b} (hv : Val w r ins g b) : Val w' r ins g b := by
  refine hv.ext h.ext ?_
  intro mr mc mc' _ h1 h2
  by_cases he : mr = r
  · subst he
    obtain ⟨c', k1, _, k3, _⟩ := h.circ mc h1
    rw [k1] at h2; cases h2; exact k3
  · rw [h.on.other he h1] at h2; cases h2; rfl

theorem Grows.vals {r w w'} (h : Grows r w w') {ins gs bs} (hv : All2 (Val w r ins) gs bs) :
    All2 (Val w' r ins) gs bs := hv.mono fun _ _ => h.val

theorem Grows.extends {r w w'} (h : Grows r w w') : Extends r w w' := by
  refine ⟨h.on, fun _ _ _ => h.val, ?_⟩
  intro c c' hc hc'
  obtain ⟨c1, h1, _, h3, h4, h5⟩ := h.circ c hc
  rw [h1] at hc'; cases hc'
  exact ⟨h3, h4, fun i => by rw [h5]⟩

theorem Grows.at {r w w'} (h : Grows r w w') {c} (hc : w.circs[r]? = some c) :
    ∃ c', w'.circs[r]? = some c' ∧ c'.storage = c.storage := by
  obtain ⟨c', h1, h2, _⟩ := h.circ c hc
  exact ⟨c', h1, h2.storage⟩

theorem Grows.keeps {r w w'} (h : Grows r w w') : Keeps (· ≠ r) w w' := h.ext.keeps fun _ _ hx hc => h.on.other hx hc

def RunsW (r : Ref) {α} (w : World) (x : M α) (Q : α → World → Prop) : Prop :=
  ∃ a w', x w = (.ok a, w') ∧ Grows r w w' ∧ Q a w'

section
variable {r : Ref} {w : World}

theorem RunsW.pure {α} {a : α} {Q : α → World → Prop} (hw : WFw w) (h : Q a w) : RunsW r w (pure a) Q :=
  ⟨a, w, rfl, .refl hw, h⟩

theorem RunsW.mono {α} {x : M α} {P Q : α → World → Prop} (h : RunsW r w x P)
    (hpq : ∀ a w', Grows r w w' → P a w' → Q a w') : RunsW r w x Q := by
  obtain ⟨a, w1, h1, h2, h3⟩ := h
  exact ⟨a, w1, h1, h2, hpq _ _ h2 h3⟩

theorem RunsW.seq {α β} {x : M α} {f : α → M β} {P : α → World → Prop} {Q : β → World → Prop}
    (h : RunsW r w x P) (hf : ∀ a w', Grows r w w' → P a w' → RunsW r w' (f a) Q) : RunsW r w (x >>= f) Q := by
  obtain ⟨a, w1, h1, h2, h3⟩ := h
  obtain ⟨b, w2, k1, k2, k3⟩ := hf a w1 h2 h3
  exact ⟨b, w2, by rw [bind_ok h1]; exact k1, h2.trans k2, k3⟩

theorem RunsW.idx {α} {l : List α} {i : Nat} {a : α} {Q : α → World → Prop} (hw : WFw w) (h : l[i]? = some a)
    (hq : Q a w) : RunsW r w (M.idx l i) Q := by
  refine ⟨a, w, ?_, .refl hw, hq⟩
  unfold M.idx; rw [h]; rfl

theorem RunsW.expect {α} {x : M α} {Q : α → World → Prop} (h : RunsW r w x Q) : RunsW r w (M.expect x) Q := by
  obtain ⟨a, w1, h1, h2, h3⟩ := h
  refine ⟨a, w1, ?_, h2, h3⟩
  unfold M.expect; rw [h1]

/-- `n` gates computed one by one -/
theorem RunsW.mapList {α β} {f : α → M β} {P : α → β → World → Prop} (l : List α) : ∀ {w}, WFw w →
    (∀ x y w w', P x y w → Grows r w w' → P x y w') →
    (∀ x w', x ∈ l → Grows r w w' → RunsW r w' (f x) (P x)) →
    RunsW r w (M.mapList f l) fun ys w' => All2 (fun x y => P x y w') l ys := by
  induction l with
  | nil => intro w hw _ _; exact RunsW.pure hw trivial
  | cons a as ih =>
    intro w hw hp hs
    refine RunsW.seq (hs a w (by simp) (.refl hw)) ?_
    intro y w1 g1 h1
    refine RunsW.seq (ih g1.wf hp (fun x w' hx hg => hs x w' (by simp [hx]) (g1.trans hg))) ?_
    intro ys w2 g2 h2
    exact RunsW.pure g2.wf ⟨hp _ _ _ _ h1 g2, h2⟩

theorem RunsW.replicate {α} {f : M α} {P : α → World → Prop} : ∀ (n : Nat) {w}, WFw w →
    (∀ y w w', P y w → Grows r w w' → P y w') →
    (∀ w', Grows r w w' → RunsW r w' f P) →
    RunsW r w (M.replicate f n) fun ys w' => ys.length = n ∧ ∀ y ∈ ys, P y w' := by
  intro n
  induction n with
  | zero => intro w hw _ _; exact RunsW.pure hw ⟨rfl, by simp⟩
  | succ n ih =>
    intro w hw hp hs
    refine RunsW.seq (hs w (.refl hw)) ?_
    intro y w1 g1 h1
    refine RunsW.seq (ih g1.wf hp (fun w' hg => hs w' (g1.trans hg))) ?_
    intro ys w2 g2 h2
    refine RunsW.pure g2.wf ⟨by simp [h2.1], ?_⟩
    intro z hz
    simp at hz
    rcases hz with rfl | hz
    · exact hp _ _ _ h1 g2
    · exact h2.2 z hz

/-- appending one gate -/
theorem RunsW.gate {c c' : Circuit} {gate : Gate} {x : M GateId} {Q : GateId → World → Prop} (hw : WFw w)
    (hc : w.circs[r]? = some c) (op : Op) (hop : op.target = some r) (hcall : ∀ w, (op.call w).2 = (x w).2)
    (he : x w = (.ok c.gateIndex, w.setC r c')) (hwf : WFw (w.setC r c')) (ap : Appends c c' [gate])
    (hx : ExtC c c') (hin : c'.inputLen = c.inputLen)
    (hq : Grows r w (w.setC r c') → (w.setC r c').circs[r]? = some c' → c'.gateMap c.gateIndex = some gate →
      Q c.gateIndex (w.setC r c')) : RunsW r w x Q := by
  have hg : Grows r w (w.setC r c') := by
    refine ⟨?_, hwf, ?_, Ext.setC hc hx⟩
    · have := On.step (r := r) op (On.refl (w := w)) hop
      rw [hcall, he] at this; exact this
    · intro d hd
      rw [hc] at hd; cases hd
      exact ⟨c', setC_get hc c', hx, hin, ap.outputLen, ap.outputMap⟩
  refine ⟨_, _, he, hg, hq hg (setC_get hc c') ?_⟩
  have := ap.new 0
  simpa using this

theorem RunsW.constant {c : Circuit} (hw : WFw w) (hc : w.circs[r]? = some c) (v : Bool) :
    RunsW r w (CC.constant r v) fun g w' => ∀ ins, Val w' r ins g v := by
  have he := constant_eq hc v
  have hwf := (good_constant r v w hw).1
  rw [he] at hwf
  have hwc := hw.circ r c hc
  refine RunsW.gate hw hc (.constant r v) rfl (fun w => map_world _ _ w) he hwf (Circuit.constant_appends hwc v)
    (.constant hwc v) (by simp [Circuit.constant, Circuit.addGate]) ?_
  intro _ hg hgate ins
  exact .const hg hgate

theorem RunsW.not {c : Circuit} (hw : WFw w) (hc : w.circs[r]? = some c) (x : GateId) :
    RunsW r w (CC.not r x) fun g w' => ∀ ins a, Val w r ins x a → Val w' r ins g (!a) := by
  have he := not_eq hc x
  have hwf := (good_not r x w hw).1
  rw [he] at hwf
  have hwc := hw.circ r c hc
  refine RunsW.gate hw hc (.not r x) rfl (fun w => map_world _ _ w) he hwf (Circuit.not_appends hwc x)
    (.not hwc x) (by simp [Circuit.not, Circuit.addGate]) ?_
  intro hgr hg hgate ins a ha
  exact .not hg hgate (hgr.val ha)

theorem RunsW.and {c : Circuit} (hw : WFw w) (hc : w.circs[r]? = some c) (x y : GateId) :
    RunsW r w (CC.and r x y) fun g w' => ∀ ins a b, Val w r ins x a → Val w r ins y b → Val w' r ins g (a && b) := by
  have he := and_eq hc x y
  have hwf := (good_and r x y w hw).1
  rw [he] at hwf
  have hwc := hw.circ r c hc
  refine RunsW.gate hw hc (.and r x y) rfl (fun w => map_world _ _ w) he hwf (Circuit.and_appends hwc x y)
    (.and hwc x y) (by simp [Circuit.and, Circuit.addGate]) ?_
  intro hgr hg hgate ins a b ha hb
  exact .and hg hgate (hgr.val ha) (hgr.val hb)

theorem RunsW.xor {c : Circuit} (hw : WFw w) (hc : w.circs[r]? = some c) (x y : GateId) :
    RunsW r w (CC.xor r x y) fun g w' => ∀ ins a b, Val w r ins x a → Val w r ins y b → Val w' r ins g (a != b) := by
  have he := xor_eq hc x y
  have hwf := (good_xor r x y w hw).1
  rw [he] at hwf
  have hwc := hw.circ r c hc
  refine RunsW.gate hw hc (.xor r x y) rfl (fun w => map_world _ _ w) he hwf (Circuit.xor_appends hwc x y)
    (.xor hwc x y) (by simp [Circuit.xor, Circuit.addGate]) ?_
  intro hgr hg hgate ins a b ha hb
  exact .xor hg hgate (hgr.val ha) (hgr.val hb)

theorem RunsW.consts {c : Circuit} (hw : WFw w) (hc : w.circs[r]? = some c) (v : Bool) (n : Nat) :
    RunsW r w (M.replicate (CC.constant r v) n) fun gs w' => gs.length = n ∧
      ∀ ins, All2 (Val w' r ins) gs (List.replicate n v) := by
  refine (RunsW.replicate (P := fun g w' => ∀ ins, Val w' r ins g v) n hw ?_ ?_).mono ?_
  · intro y w w' h hg ins; exact hg.val (h ins)
  · intro w' hg
    obtain ⟨c', hc', _⟩ := hg.at hc
    exact RunsW.constant hg.wf hc' v
  · rintro gs w' _ ⟨h1, h2⟩
    refine ⟨h1, fun ins => all2_iff.mpr ⟨by simp [h1], ?_⟩⟩
    intro i g b hg hb
    rw [List.getElem?_replicate] at hb
    split at hb
    · cases hb; exact h2 g (List.mem_of_getElem? hg) ins
    · cases hb

theorem RunsW.constList {c : Circuit} (hw : WFw w) (hc : w.circs[r]? = some c) (bs : List Bool) :
    RunsW r w (M.mapList (fun b => CC.constant r b) bs) fun gs w' => gs.length = bs.length ∧
      ∀ ins, All2 (Val w' r ins) gs bs := by
  refine (RunsW.mapList (P := fun b g w' => ∀ ins, Val w' r ins g b) bs hw ?_ ?_).mono ?_
  · intro x y w w' h hg ins; exact hg.val (h ins)
  · intro b w' _ hg
    obtain ⟨c', hc', _⟩ := hg.at hc
    exact RunsW.constant hg.wf hc' b
  · intro gs w' _ h
    have hl := h.length
    refine ⟨hl.symm, fun ins => all2_iff.mpr ⟨hl.symm, ?_⟩⟩
    intro i g b hg hb
    exact (all2_iff.mp h).2 i b g hb hg ins

/-- a module call -/
theorem RunsW.module {c : Circuit} (hw : WFw w) (hc : w.circs[r]? = some c) {N : Nat} (hr : r < N) {mid : ModuleId}
    {nIn nOut : Nat} {f : List Bool → List Bool} (hm : ModOk w N c.storage mid nIn nOut f) (ids : List GateId) :
    RunsW r w (CC.module r mid ids) fun gs w' => gs.length = nOut ∧
      ∀ ins bits, All2 (Val w r ins) ids bits → bits.length = nIn → All2 (Val w' r ins) gs (f bits) := by
  obtain ⟨mr, mc, stor, m1, m2, mA, m4, m5, m6, m7, m8, m9⟩ := hm
  have m3 : mr ≠ r := (mA r hr).ne
  have hwc := hw.circ r c hc
  have hmod : w.module? c mid = some mr := by unfold World.module?; rw [m1]; exact m2
  obtain ⟨c', he, heff⟩ := module_eq_ok hwc hc hmod m3 m4 (by omega) ids
  have hwf := (good_module r mid ids w hw).1
  rw [he] at hwf
  have hx := ExtC.of_moduleEffect hwc heff
  have ap := heff.appends
  have hg : Grows r w (w.setC r c') := by
    refine ⟨?_, hwf, ?_, Ext.setC hc hx⟩
    · have := On.step (r := r) (.module r mid ids) (On.refl (w := w)) rfl
      have e : ((Op.module r mid ids).call w).2 = (CC.module r mid ids w).2 := map_world _ _ w
      rw [e, he] at this; exact this
    · intro d hd
      rw [hc] at hd; cases hd
      exact ⟨c', setC_get hc c', hx, heff.inputLen, ap.outputLen, ap.outputMap⟩
  refine ⟨_, _, he, hg, by simp [m6], ?_⟩
  intro ins bits hv hlen
  obtain ⟨mc', hmc2, l1, l2, hval⟩ := m9 bits hlen
  rw [m4] at hmc2; cases hmc2
  have hl := hv.length
  rw [all2_iff]
  refine ⟨by simp [l2], ?_⟩
  intro i g b hgi hbit
  have hi : i < mc.outputLen := by simpa using lt_of_getElem? hgi
  rw [List.getElem?_range' hi] at hgi
  simp only [Nat.one_mul, Option.some.injEq] at hgi
  subst hgi
  obtain ⟨o, ho, hvo⟩ := hval i b hbit
  have hgate : c'.gateMap (c.gateIndex + i) = some (.module mc.inputLen mc.outputLen ids i mid) := by
    rw [ap.new, moduleGates_get, if_pos hi]
  refine .module (setC_get hc c') hgate (mr := mr) (mc := mc) (bits := bits) (o := o) ?_ ?_ hl.symm ?_ l1 ho ?_
  · exact (World.module?_congr rfl ap.storage mid).trans hmod
  · rw [setC_get_ne _ m3]; exact m4
  · intro k x a hxk ha
    exact hg.val ((all2_iff.mp hv).2 k x a hxk ha)
  · refine hvo.ext hg.ext ?_
    intro q qc qc' _ h1 h2
    by_cases hqe : q = r
    · subst hqe
      rw [hc] at h1; cases h1
      rw [setC_get hc c'] at h2; cases h2; exact heff.inputLen
    · rw [setC_get_ne _ hqe, h1] at h2; cases h2; rfl

end

/-! ### configurations -/

theorem subCircuit_none {r : Ref} {w : World} (h : w.circs[r]? = none) : subCircuit r w = (.error .dangling, w) := by
  unfold subCircuit
  rw [h]

theorem bind_err {α β} {x : M α} {f : α → M β} {w w' : World} {e : Err} (h : x w = (.error e, w')) :
    (x >>= f) w = (.error e, w') := by rw [M.bind_apply, h]

theorem intConfig_circ {r : Ref} {n : Nat} {w w' : World} {cfg : IntConfig} (h : IntConfig.new r n w = (.ok cfg, w')) :
    ∃ c, w.circs[r]? = some c := by
  cases hc : w.circs[r]? with
  | some c => exact ⟨c, rfl⟩
  | none =>
    have e : IntConfig.new r n w = (.error .dangling, w) := bind_err (bind_err (subCircuit_none hc))
    rw [h] at e; cases e

theorem bitsConfig_circ {r : Ref} {n : Nat} {w w' : World} {cfg : BitsConfig} (h : BitsConfig.new r n w = (.ok cfg, w')) :
    ∃ c, w.circs[r]? = some c := by
  cases hc : w.circs[r]? with
  | some c => exact ⟨c, rfl⟩
  | none =>
    have e : BitsConfig.new r n w = (.error .dangling, w) := bind_err (bind_err (subCircuit_none hc))
    rw [h] at e; cases e

theorem buildAdd_zero (r : Ref) (w : World) : ∃ e w', buildAdd r 0 w = (.error e, w') := by
  unfold buildAdd
  cases h : subCircuit r w with
  | mk a w1 =>
    cases a with
    | error e => exact ⟨e, w1, bind_err h⟩
    | ok p => exact ⟨_, w1, by rw [bind_ok h]; rfl⟩

theorem intConfig_pos {r : Ref} {n : Nat} {w w' : World} {cfg : IntConfig} (h : IntConfig.new r n w = (.ok cfg, w')) :
    1 ≤ n := by
  cases n with
  | succ n => omega
  | zero =>
    obtain ⟨e, w2, he⟩ := buildAdd_zero r w
    have e : IntConfig.new r 0 w = (.error e, w2) := bind_err he
    rw [h] at e; cases e

/-- a configuration at a later time -/
structure IntAt (w0 w : World) (r : Ref) (n : Nat) (cfg : IntConfig) (c : Circuit) : Prop where
  wf : WFw w
  circ : w.circs[r]? = some c
  lt : r < w0.circs.length
  cref : cfg.cref = r
  pos : 1 ≤ n
  ok : IntOk w w0.circs.length c.storage n cfg

theorem int_session {w0 w1 w : World} {r : Ref} {n : Nat} {cfg : IntConfig} (h0 : Reachable w0)
    (hcfg : IntConfig.new r n w0 = (.ok cfg, w1)) (hs : Since w0 w1 w) : ∃ c, IntAt w0 w r n cfg c := by
  obtain ⟨c0, hc0⟩ := intConfig_circ hcfg
  have hn := intConfig_pos hcfg
  obtain ⟨cfg', w1', e, ha, hcr, hok⟩ := intConfig_ok (WFw.of_reachable h0) hc0 (Nat.le_refl _) hn
  rw [hcfg] at e; cases e
  have hx := ext_of_later ha.wf hs.later
  obtain ⟨c, hc, he⟩ := hx.2.circs _ _ (ha.keeps.circ _ _ trivial hc0)
  refine ⟨c, hx.1, hc, lt_of_getElem? hc0, hcr, hn, ?_⟩
  rw [he.storage]
  exact hok.map fun _ _ _ _ hm => hm.session (hs.keeps ha.wf)

structure BitsAt (w0 w : World) (r : Ref) (n : Nat) (cfg : BitsConfig) (c : Circuit) : Prop where
  wf : WFw w
  circ : w.circs[r]? = some c
  lt : r < w0.circs.length
  cref : cfg.cref = r
  ok : BitsOk w w0.circs.length c.storage n cfg

theorem bits_session {w0 w1 w : World} {r : Ref} {n : Nat} {cfg : BitsConfig} (h0 : Reachable w0)
    (hcfg : BitsConfig.new r n w0 = (.ok cfg, w1)) (hs : Since w0 w1 w) : ∃ c, BitsAt w0 w r n cfg c := by
  obtain ⟨c0, hc0⟩ := bitsConfig_circ hcfg
  obtain ⟨cfg', w1', e, ha, hcr, hok⟩ := bitsConfig_ok (WFw.of_reachable h0) hc0 (Nat.le_refl _) n
  rw [hcfg] at e; cases e
  have hx := ext_of_later ha.wf hs.later
  obtain ⟨c, hc, he⟩ := hx.2.circs _ _ (ha.keeps.circ _ _ trivial hc0)
  refine ⟨c, hx.1, hc, lt_of_getElem? hc0, hcr, ?_⟩
  rw [he.storage]
  have k := hs.keeps ha.wf
  exact ⟨hok.not.session k, hok.and.session k, hok.or.session k, hok.xor.session k, hok.eq.session k, hok.neq.session k⟩

end CC
