import Verif.Model.Logic
import Verif.Spec.All2
import Verif.Proofs.Built

/-!
# A program logic for circuit builders

A builder works on one circuit `s` that nobody calls yet; the rest of the heap `w` is fixed. `RunsC w s x c Q`: program
`x`, started with circuit `s` equal to `c`, succeeds, changes only circuit `s`, and `Q` holds of result and new circuit.
-/

namespace CC
open Spec

/-! ### pairwise relations -/

theorem All2.length {α β} {P : α → β → Prop} : ∀ {as : List α} {bs : List β}, All2 P as bs → as.length = bs.length
  | [], [], _ => rfl
  | _ :: _, _ :: _, h => by simp [All2.length h.2]
  | [], _ :: _, h => h.elim
  | _ :: _, [], h => h.elim

theorem All2.mono {α β} {P Q : α → β → Prop} (hpq : ∀ a b, P a b → Q a b) : ∀ {as : List α} {bs : List β},
    All2 P as bs → All2 Q as bs
  | [], [], _ => trivial
  | _ :: _, _ :: _, h => ⟨hpq _ _ h.1, All2.mono hpq h.2⟩
  | [], _ :: _, h => h.elim
  | _ :: _, [], h => h.elim

theorem All2.append {α β} {P : α → β → Prop} : ∀ {as : List α} {bs : List β} {as' : List α} {bs' : List β},
    All2 P as bs → All2 P as' bs' → All2 P (as ++ as') (bs ++ bs')
  | [], [], _, _, _, h' => h'
  | _ :: _, _ :: _, _, _, h, h' => ⟨h.1, All2.append h.2 h'⟩
  | [], _ :: _, _, _, h, _ => h.elim
  | _ :: _, [], _, _, h, _ => h.elim

theorem all2_iff {α β} {P : α → β → Prop} : ∀ {as : List α} {bs : List β},
    All2 P as bs ↔ as.length = bs.length ∧ ∀ (i : Nat) a b, as[i]? = some a → bs[i]? = some b → P a b
  | [], [] => by simp [All2]
  | [], _ :: _ => by simp [All2]
  | _ :: _, [] => by simp [All2]
  | a :: as, b :: bs => by
    rw [All2, all2_iff]
    simp only [List.length_cons, Nat.add_right_cancel_iff]
    constructor
    · rintro ⟨h1, h2, h3⟩
      refine ⟨h2, fun i x y hx hy => ?_⟩
      cases i with
      | zero => simp at hx hy; subst hx; subst hy; exact h1
      | succ i => simp at hx hy; exact h3 i x y hx hy
    · rintro ⟨h2, h3⟩
      exact ⟨h3 0 a b rfl rfl, h2, fun i x y hx hy => h3 (i + 1) x y (by simpa using hx) (by simpa using hy)⟩

theorem All2.get {α β} {P : α → β → Prop} {as : List α} {bs : List β} (h : All2 P as bs) {i : Nat} (hi : i < as.length) :
    ∃ a b, as[i]? = some a ∧ bs[i]? = some b ∧ P a b := by
  have hl := h.length
  exact ⟨_, _, List.getElem?_eq_getElem hi, List.getElem?_eq_getElem (by omega),
    (all2_iff.mp h).2 i _ _ (List.getElem?_eq_getElem hi) (List.getElem?_eq_getElem (by omega))⟩

theorem All2.left {α β} {P : α → β → Prop} {as : List α} {bs : List β} (h : All2 P as bs) {a : α} (ha : a ∈ as) :
    ∃ b, P a b := by
  obtain ⟨i, hi, rfl⟩ := List.getElem_of_mem ha
  obtain ⟨a, b, h1, _, h3⟩ := h.get hi
  rw [List.getElem?_eq_getElem hi] at h1; cases h1
  exact ⟨b, h3⟩

theorem All2.take {α β} {P : α → β → Prop} : ∀ (n : Nat) {as : List α} {bs : List β}, All2 P as bs →
    All2 P (as.take n) (bs.take n)
  | 0, _, _, _ => by simp [All2]
  | n + 1, [], [], _ => trivial
  | n + 1, _ :: _, _ :: _, h => ⟨h.1, All2.take n h.2⟩
  | _ + 1, [], _ :: _, h => h.elim
  | _ + 1, _ :: _, [], h => h.elim

theorem All2.drop {α β} {P : α → β → Prop} : ∀ (n : Nat) {as : List α} {bs : List β}, All2 P as bs →
    All2 P (as.drop n) (bs.drop n)
  | 0, _, _, h => by simpa using h
  | n + 1, [], [], _ => trivial
  | n + 1, _ :: _, _ :: _, h => All2.drop n h.2
  | _ + 1, [], _ :: _, h => h.elim
  | _ + 1, _ :: _, [], h => h.elim

/-! ### modules with a known function -/

/-- circuit `x` does not depend on circuit `d` -/
inductive Avoids (w : World) (d : Ref) : Ref → Prop where
  | mk {x c} : x ≠ d → w.circs[x]? = some c →
    (∀ g nIn nOut ids oi mid, c.gateMap g = some (.module nIn nOut ids oi mid) → ∃ q, w.module? c mid = some q) →
    (∀ q, Calls w c q → Avoids w d q) → Avoids w d x

theorem Avoids.ne {w d x} (h : Avoids w d x) : x ≠ d := by cases h; assumption

/-- module `mid` of table `st` is a closed evaluable circuit that computes `f` and does not depend on circuits in `D` -/
def ModD (w : World) (D : Ref → Prop) (st : StoreRef) (mid : ModuleId) (nIn nOut : Nat) (f : List Bool → List Bool) : Prop :=
  ∃ (mr : Ref) (mc : Circuit) (stor : Storage), w.stores[st]? = some stor ∧ stor.moduleMap mid = some mr ∧
    (∀ d, D d → Avoids w d mr) ∧
    w.circs[mr]? = some mc ∧ mc.inputLen = nIn ∧ mc.outputLen = nOut ∧ nIn + nOut ≤ mc.numWire ∧ Evaluable w mr ∧
    ∀ ins : List Bool, ins.length = nIn → Outputs w mr ins (f ins)

/-- the same for the first `N` circuits -/
def ModOk (w : World) (N : Nat) (st : StoreRef) (mid : ModuleId) (nIn nOut : Nat) (f : List Bool → List Bool) : Prop :=
  ModD w (· < N) st mid nIn nOut f

theorem Spec.Evaluable.avoids_fresh {w : World} {x d : Ref} (h : Evaluable w x) (hd : w.circs.length ≤ d) : Avoids w d x := by
  induction h with
  | mk hc _ _ hcalls _ ih =>
    refine .mk ?_ hc ?_ ih
    · have := lt_of_getElem? hc
      omega
    · intro g nIn nOut ids oi mid hg
      obtain ⟨mr, _, h1, _⟩ := hcalls g nIn nOut ids oi mid hg
      exact ⟨mr, h1⟩

/-- changes that leave all circuits in `P` alone -/
structure Keeps (P : Ref → Prop) (w w' : World) : Prop where
  circ : ∀ (x : Ref) c, P x → w.circs[x]? = some c → w'.circs[x]? = some c
  stores : ∀ (s : StoreRef) st, w.stores[s]? = some st → ∃ st', w'.stores[s]? = some st' ∧
    ∀ m q, st.moduleMap m = some q → st'.moduleMap m = some q

theorem Keeps.module? {P w w'} (h : Keeps P w w') {c : Circuit} {mid : ModuleId} {q : Ref}
    (hq : w.module? c mid = some q) : w'.module? c mid = some q := by
  unfold World.module? at hq ⊢
  cases e : w.stores[c.storage]? with
  | none => rw [e] at hq; cases hq
  | some st =>
    rw [e] at hq
    obtain ⟨st', h1, h2⟩ := h.stores _ _ e
    rw [h1]; exact h2 _ _ hq

theorem Keeps.refl (P : Ref → Prop) (w : World) : Keeps P w w :=
  ⟨fun _ _ _ h => h, fun _ st h => ⟨st, h, fun _ _ h => h⟩⟩

theorem Keeps.trans {P w w' w''} (h : Keeps P w w') (k : Keeps P w' w'') : Keeps P w w'' := by
  refine ⟨fun x c hx hc => k.circ x c hx (h.circ x c hx hc), ?_⟩
  intro s st hs
  obtain ⟨st', h1, h2⟩ := h.stores s st hs
  obtain ⟨st'', h3, h4⟩ := k.stores s st' h1
  exact ⟨st'', h3, fun m q hq => h4 m q (h2 m q hq)⟩

theorem Keeps.weaken {P Q : Ref → Prop} {w w'} (h : Keeps P w w') (hpq : ∀ x, Q x → P x) : Keeps Q w w' :=
  ⟨fun x c hx => h.circ x c (hpq x hx), h.stores⟩

theorem keeps_setC {w : World} {s : Ref} (c : Circuit) : Keeps (· ≠ s) w (w.setC s c) :=
  ⟨fun x d hx hd => by rw [setC_get_ne c hx]; exact hd, fun _ st h => ⟨st, h, fun _ _ h => h⟩⟩

/-- well-built circuits that do not depend on changed circuits keep their values -/
theorem Spec.Val.keeps {P w w'} (h : Keeps P w w') (hcl : ∀ (x : Ref) c mr, P x → w.circs[x]? = some c → Calls w c mr → P mr)
    {x : Ref} {ins g b} (hv : Val w x ins g b) : P x → Val w' x ins g b := by
  induction hv with
  | input hc hg hb => intro hx; exact .input (h.circ _ _ hx hc) hg hb
  | const hc hg => intro hx; exact .const (h.circ _ _ hx hc) hg
  | not hc hg _ ih => intro hx; exact .not (h.circ _ _ hx hc) hg (ih hx)
  | and hc hg _ _ ih1 ih2 => intro hx; exact .and (h.circ _ _ hx hc) hg (ih1 hx) (ih2 hx)
  | xor hc hg _ _ ih1 ih2 => intro hx; exact .xor (h.circ _ _ hx hc) hg (ih1 hx) (ih2 hx)
  | or hc hg _ _ ih1 ih2 => intro hx; exact .or (h.circ _ _ hx hc) hg (ih1 hx) (ih2 hx)
  | module hc hg hm hmc hl _ hin ho _ ih1 ih2 =>
    intro hx
    have hp := hcl _ _ _ hx hc ⟨_, _, _, _, _, _, hg, hm⟩
    exact .module (h.circ _ _ hx hc) hg (h.module? hm) (h.circ _ _ hp hmc) hl (fun i x a hi ha => ih1 i x a hi ha hx) hin ho
      (ih2 hp)

theorem Keeps.sameOn {P w w'} (h : Keeps P w w')
    (hcl : ∀ (x : Ref) c mr, P x → w.circs[x]? = some c → Calls w c mr → P mr) : SameOn P w w' :=
  ⟨h.circ, hcl, fun _ _ _ hq => h.module? hq⟩

theorem Avoids.keeps {P w w'} (h : Keeps P w w')
    (hcl : ∀ (x : Ref) c mr, P x → w.circs[x]? = some c → Calls w c mr → P mr) {d x : Ref} (ha : Avoids w d x) :
    P x → Avoids w' d x := by
  induction ha with
  | mk hne hc hmods _ ih =>
    intro hx
    refine .mk hne (h.circ _ _ hx hc) ?_ ?_
    · intro g nIn nOut ids oi mid hg
      obtain ⟨q, hq⟩ := hmods g nIn nOut ids oi mid hg
      exact ⟨q, h.module? hq⟩
    · rintro q ⟨g, nIn, nOut, ids, oi, mid, hg, hm⟩
      obtain ⟨q', hq⟩ := hmods g nIn nOut ids oi mid hg
      have := h.module? hq
      rw [hm] at this; cases this
      have hcall : Calls w _ q := ⟨g, nIn, nOut, ids, oi, mid, hg, hq⟩
      exact ih q hcall (hcl _ _ _ hx hc hcall)

theorem avoids_closed {w : World} {d : Ref} :
    ∀ (x : Ref) c mr, Avoids w d x → w.circs[x]? = some c → Calls w c mr → Avoids w d mr := by
  intro x c mr h hc hm
  cases h with
  | mk _ hc' _ hq => rw [hc] at hc'; cases hc'; exact hq mr hm

theorem ModD.keeps {P w w'} (h : Keeps P w w')
    (hcl : ∀ (x : Ref) c mr, P x → w.circs[x]? = some c → Calls w c mr → P mr) {D D' : Ref → Prop} {st mid nIn nOut f}
    (hm : ModD w D st mid nIn nOut f) (hP : ∀ mr, (∀ d, D d → Avoids w d mr) → P mr)
    (hD : ∀ d, D' d → D d ∨ w.circs.length ≤ d) : ModD w' D' st mid nIn nOut f := by
  obtain ⟨mr, mc, stor, h1, h2, h3, h4, h5, h6, h7, h8, h9⟩ := hm
  have hp := hP mr h3
  obtain ⟨stor', k1, k2⟩ := h.stores _ _ h1
  refine ⟨mr, mc, stor', k1, k2 _ _ h2, ?_, h.circ _ _ hp h4, h5, h6, h7, h8.transfer (h.sameOn hcl) hp, ?_⟩
  · intro d hd
    rcases hD d hd with hd | hd
    · exact (h3 d hd).keeps h hcl hp
    · exact (h8.avoids_fresh hd).keeps h hcl hp
  intro ins hl
  obtain ⟨c, hc, l1, l2, hv⟩ := h9 ins hl
  refine ⟨c, h.circ _ _ hp hc, l1, l2, ?_⟩
  intro i b hb
  obtain ⟨o, ho, hvo⟩ := hv i b hb
  exact ⟨o, ho, hvo.keeps h hcl hp⟩

/-- a module that does not depend on the first `N` circuits is not affected by changes of these -/
theorem ModOk.session {w w' N st mid nIn nOut f} (h : Keeps (N ≤ ·) w w') (hm : ModOk w N st mid nIn nOut f) :
    ModOk w' N st mid nIn nOut f := by
  refine ModD.keeps (P := fun x => ∀ d, d < N → Avoids w d x) (h.weaken fun x hx => ?_)
    (fun x c mr hx hc hm d hd => avoids_closed x c mr (hx d hd) hc hm) hm (fun _ h => h) (fun _ hd => Or.inl hd)
  apply Nat.le_of_not_lt
  intro hlt
  exact (hx x hlt).ne rfl

theorem not_called_closed {w : World} {s : Ref} (h : ¬ Called w s) :
    ∀ (x : Ref) c mr, x ≠ s → w.circs[x]? = some c → Calls w c mr → mr ≠ s := by
  rintro x c mr _ hc hm rfl
  exact h ⟨x, c, hc, hm⟩

/-! ### the circuit under construction -/

/-- the module table used, and the number of circuits that existed before the configuration was built -/
structure Ctx where
  st : StoreRef
  out : Nat

/-- no gate reads `o` -/
def Unread (c : Circuit) (o : GateId) : Prop := ∀ g gate, c.gateMap g = some gate → o ∉ gate.operands

/-- `x` is not an output gate -/
def NotOut (c : Circuit) (x : GateId) : Prop := ∀ i, c.outputMap i ≠ some x

/-- invariant of a circuit `s` under construction; all calls are of evaluable circuits of the fixed heap `w` -/
structure Bld (w : World) (s : Ref) (K : Ctx) (c : Circuit) : Prop where
  lt : s < w.circs.length
  base : ¬ Called w s
  storage : c.storage = K.st
  wf : WFw (w.setC s c)
  topo : Topo c
  calls : ∀ g nIn nOut ids oi mid, c.gateMap g = some (.module nIn nOut ids oi mid) →
    ∃ mr mc, w.module? c mid = some mr ∧ Avoids w s mr ∧ (∀ d, d < K.out → Avoids w d mr) ∧ w.circs[mr]? = some mc ∧ ids.length = nIn ∧ nIn = mc.inputLen ∧
      nOut = mc.outputLen ∧ Evaluable w mr
  unread : ∀ i o, c.outputMap i = some o → Unread c o
  outPos : ∀ i o, c.outputMap i = some o → c.inputLen + i ≤ o
  ins : c.inputLen ≤ c.gateIndex
  /-- building uses valid calls only -/
  valid : ValidRun w → ValidRun (w.setC s c)

section
variable {w : World} {s : Ref} {K : Ctx} {c c' : Circuit}

theorem get_of_lt (h : s < w.circs.length) (c : Circuit) : (w.setC s c).circs[s]? = some c := by
  rw [getElem?_setC h, if_pos rfl]

theorem Bld.get (hb : Bld w s K c) : (w.setC s c).circs[s]? = some c := get_of_lt hb.lt c

theorem Bld.wfc (hb : Bld w s K c) : WFc c := hb.wf.circ s c hb.get

theorem Bld.notCalled (hb : Bld w s K c) : ¬ Called (w.setC s c) s := not_called_setC hb.wf hb.base

theorem Bld.evaluable (hb : Bld w s K c) : Evaluable (w.setC s c) s := by
  have hso : SameOn (· ≠ s) w (w.setC s c) := sameOn_setC c hb.base
  refine .mk hb.get hb.topo (fun i o ho => Or.inl (hb.unread i o ho)) ?_ ?_
  · intro g nIn nOut ids oi mid hg
    obtain ⟨mr, mc, h1, h2, _, h3, h4, h5, h6, _⟩ := hb.calls g nIn nOut ids oi mid hg
    exact ⟨mr, mc, hso.mods _ _ _ h1, hso.circ _ _ h2.ne h3, h4, h5, h6⟩
  · rintro mr ⟨g, nIn, nOut, ids, oi, mid, hg, hm⟩
    obtain ⟨mr', mc, h1, h2, _, h3, _, _, _, h7⟩ := hb.calls g nIn nOut ids oi mid hg
    have := hso.mods _ _ _ h1
    rw [hm] at this; cases this
    exact h7.transfer hso h2.ne

/-- `c'` is `c` with more gates -/
structure Step (w : World) (s : Ref) (K : Ctx) (c c' : Circuit) : Prop where
  bld : Bld w s K c'
  ext : ExtC c c'
  outputMap : c'.outputMap = c.outputMap
  outputLen : c'.outputLen = c.outputLen

theorem Bld.refl (hb : Bld w s K c) : Step w s K c c := ⟨hb, ExtC.refl c, rfl, rfl⟩

theorem Step.trans {c'' : Circuit} (h : Step w s K c c') (k : Step w s K c' c'') : Step w s K c c'' :=
  ⟨k.bld, h.ext.trans k.ext, k.outputMap.trans h.outputMap, k.outputLen.trans h.outputLen⟩

/-- the value of a gate in the circuit under construction -/
def V (w : World) (s : Ref) (ins : List Bool) (c : Circuit) (g : GateId) (b : Bool) : Prop := Val (w.setC s c) s ins g b

theorem val_ext (hb : Bld w s K c) (hx : ExtC c c') {ins g b} (h : V w s ins c g b) : V w s ins c' g b := by
  have he : Ext (w.setC s c) (w.setC s c') := by
    have := Ext.setC hb.get hx
    rw [setC_setC] at this; exact this
  refine Val.ext he ?_ h
  intro mr mc mc' hcl hmc hmc'
  have hne : mr ≠ s := by rintro rfl; exact hb.notCalled hcl
  rw [setC_get_ne _ hne] at hmc hmc'
  rw [hmc] at hmc'; cases hmc'; rfl

theorem V.lt (hb : Bld w s K c) {ins g b} (h : V w s ins c g b) : g < c.gateIndex := by
  have hg := hb.get
  have hwf := hb.wfc
  unfold V at h
  cases h with
  | input hc hg' _ => rw [hg] at hc; cases hc; exact hwf.lt_of_some hg'
  | const hc hg' => rw [hg] at hc; cases hc; exact hwf.lt_of_some hg'
  | not hc hg' _ => rw [hg] at hc; cases hc; exact hwf.lt_of_some hg'
  | and hc hg' _ _ => rw [hg] at hc; cases hc; exact hwf.lt_of_some hg'
  | xor hc hg' _ _ => rw [hg] at hc; cases hc; exact hwf.lt_of_some hg'
  | or hc hg' _ _ => rw [hg] at hc; cases hc; exact hwf.lt_of_some hg'
  | module hc hg' _ _ _ _ _ _ _ => rw [hg] at hc; cases hc; exact hwf.lt_of_some hg'

theorem Step.v (hb : Bld w s K c) (h : Step w s K c c') {ins g b} (hv : V w s ins c g b) : V w s ins c' g b :=
  val_ext hb h.ext hv

theorem Step.vs (hb : Bld w s K c) (h : Step w s K c c') {ins gs bs} (hv : All2 (V w s ins c) gs bs) :
    All2 (V w s ins c') gs bs := hv.mono fun _ _ => h.v hb

theorem Bld.notOut (hb : Bld w s K c) (h0 : c.outputLen = 0) (x : GateId) : NotOut c x := by
  intro i hi
  have := (hb.wfc.output_dom i).mp (by simp [hi])
  omega

theorem Bld.hasGate (hb : Bld w s K c) {x : GateId} (hx : x < c.gateIndex) : HasGate (w.setC s c) s x := by
  obtain ⟨gate, hg⟩ := hb.wfc.some_of_lt hx
  refine ⟨gate, ?_⟩
  unfold World.getGate World.circuit
  rw [hb.get]
  show (match c.gateMap x with
    | none => Except.error (Err.unknownGate x)
    | some gate => Except.ok gate) = _
  rw [hg]

theorem Bld.op (op : Op) (hv : op.Valid (w.setC s c)) (he : (op.call (w.setC s c)).2 = w.setC s c') (h : ValidRun (w.setC s c)) :
    ValidRun (w.setC s c') := by
  rw [← he]; exact .step op h hv

/-- appending gates that read existing non-output gates -/
theorem Bld.step {gs : List Gate} (hb : Bld w s K c) (ap : Appends c c' gs) (hx : ExtC c c') (hwf : WFw (w.setC s c'))
    (hin : c'.inputLen = c.inputLen ∨ (c.outputLen = 0 ∧ c'.inputLen ≤ c'.gateIndex))
    (hops : ∀ (i : Nat) gate, gs[i]? = some gate → ∀ x ∈ gate.operands, x < c.gateIndex ∧ NotOut c x)
    (hlead : ∀ (i : Nat) gate, gs[i]? = some gate → c.gateIndex ≤ lead (c.gateIndex + i) gate)
    (hcalls : ∀ (i : Nat) nIn nOut ids oi mid, gs[i]? = some (.module nIn nOut ids oi mid) →
      ∃ mr mc, w.module? c mid = some mr ∧ Avoids w s mr ∧ (∀ d, d < K.out → Avoids w d mr) ∧ w.circs[mr]? = some mc ∧ ids.length = nIn ∧ nIn = mc.inputLen ∧
        nOut = mc.outputLen ∧ Evaluable w mr)
    (hval : ValidRun (w.setC s c) → ValidRun (w.setC s c')) :
    Step w s K c c' ∧ ∀ o, c.gateIndex ≤ o → Unread c' o := by
  have hwc := hb.wfc
  refine ⟨⟨⟨hb.lt, hb.base, ap.storage.trans hb.storage, hwf, ?_, ?_, ?_, ?_, ?_, fun h => hval (hb.valid h)⟩, hx, ap.outputMap, ap.outputLen⟩, ?_⟩
  · refine hb.topo.append ap ?_
    intro i gate hi x hxo
    have h1 := (hops i gate hi x hxo).1
    have h2 := hlead i gate hi
    omega
  · intro g nIn nOut ids oi mid hg
    have hm : ∀ mid, w.module? c' mid = w.module? c mid := World.module?_congr rfl ap.storage
    rw [hm]
    rw [ap.gate] at hg
    split at hg
    · exact hb.calls g nIn nOut ids oi mid hg
    · exact hcalls _ nIn nOut ids oi mid hg
  · intro i o ho g gate hg hmem
    rw [ap.outputMap] at ho
    rw [ap.gate] at hg
    split at hg
    · exact hb.unread i o ho g gate hg hmem
    · exact (hops _ gate hg o hmem).2 i ho
  · intro i o ho
    rw [ap.outputMap] at ho
    rcases hin with h | h
    · rw [h]; exact hb.outPos i o ho
    · exact absurd ho (hb.notOut h.1 o i)
  · rcases hin with h | h
    · rw [h]; have := hb.ins; have := hx.gateIndex; omega
    · exact h.2
  · intro o ho g gate hg hmem
    rw [ap.gate] at hg
    split at hg
    · next hlt =>
      have h1 := hb.topo g gate hg o hmem
      have h2 := lead_le g gate
      omega
    · have := (hops _ gate hg o hmem).1
      omega

end

/-! ### running programs -/

/-- see the head of the file -/
def RunsC (w : World) (s : Ref) {α} (x : M α) (c : Circuit) (Q : α → Circuit → Prop) : Prop :=
  ∃ a c', x (w.setC s c) = (.ok a, w.setC s c') ∧ Q a c'

section
variable {w : World} {s : Ref} {K : Ctx} {c : Circuit} {ins : List Bool}

theorem RunsC.pure {α} {a : α} {Q : α → Circuit → Prop} (h : Q a c) : RunsC w s (pure a) c Q := ⟨a, c, rfl, h⟩

theorem RunsC.bind {α β} {x : M α} {f : α → M β} {Q : β → Circuit → Prop}
    (h : RunsC w s x c fun a c' => RunsC w s (f a) c' Q) : RunsC w s (x >>= f) c Q := by
  obtain ⟨a, c1, h1, b, c2, h2, h3⟩ := h
  exact ⟨b, c2, by rw [bind_ok h1]; exact h2, h3⟩

theorem RunsC.mono {α} {x : M α} {P Q : α → Circuit → Prop} (h : RunsC w s x c P) (hpq : ∀ a c', P a c' → Q a c') :
    RunsC w s x c Q := by
  obtain ⟨a, c1, h1, h2⟩ := h
  exact ⟨a, c1, h1, hpq _ _ h2⟩

/-- sequencing with a known specification of the first part -/
theorem RunsC.seq {α β} {x : M α} {f : α → M β} {P : α → Circuit → Prop} {Q : β → Circuit → Prop}
    (h : RunsC w s x c P) (hf : ∀ a c', P a c' → RunsC w s (f a) c' Q) : RunsC w s (x >>= f) c Q :=
  RunsC.bind (h.mono hf)

theorem setC_inj (hlt : s < w.circs.length) {c1 c2 : Circuit} (h : w.setC s c1 = w.setC s c2) : c1 = c2 := by
  have h1 := get_of_lt hlt c1
  rw [h, get_of_lt hlt c2] at h1
  cases h1; rfl

/-- a run has one outcome, so specifications for every input vector combine -/
theorem RunsC.forall {α ι} [Inhabited ι] (hlt : s < w.circs.length) {x : M α} {Q : ι → α → Circuit → Prop}
    (h : ∀ i, RunsC w s x c (Q i)) : RunsC w s x c fun a c' => ∀ i, Q i a c' := by
  obtain ⟨a, c1, h1, _⟩ := h default
  refine ⟨a, c1, h1, fun i => ?_⟩
  obtain ⟨a', c1', h1', h2⟩ := h i
  rw [h1] at h1'
  injection h1' with e1 e2
  injection e1 with e1
  subst e1
  rw [setC_inj hlt e2]; exact h2

theorem RunsC.idx {α} {l : List α} {i : Nat} {a : α} {Q : α → Circuit → Prop} (h : l[i]? = some a) (hq : Q a c) :
    RunsC w s (M.idx l i) c Q := by
  refine ⟨a, c, ?_, hq⟩
  unfold M.idx; rw [h]; rfl

theorem RunsC.expect {α} {x : M α} {Q : α → Circuit → Prop} (h : RunsC w s x c Q) : RunsC w s (M.expect x) c Q := by
  obtain ⟨a, c1, h1, h2⟩ := h
  refine ⟨a, c1, ?_, h2⟩
  unfold M.expect; rw [h1]

/-- loops: `I k acc c`: after `k` rounds the results are `acc` -/
theorem RunsC.mapList {α β} {f : α → M β} {I : List β → Circuit → Prop} (l : List α) : ∀ {c},
    ∀ (pre : List α) (acc : List β), acc.length = pre.length → I acc c →
    (∀ p x q acc c, pre ++ l = p ++ x :: q → acc.length = p.length → I acc c →
      RunsC w s (f x) c fun y c' => I (acc ++ [y]) c') →
    RunsC w s (M.mapList f l) c fun ys c' => I (acc ++ ys) c' ∧ ys.length = l.length := by
  induction l with
  | nil =>
    intro c pre acc _ h0 _
    exact RunsC.pure ⟨by simpa using h0, rfl⟩
  | cons x xs ih =>
    intro c pre acc hl h0 hs
    refine RunsC.seq (hs pre x xs acc c rfl hl h0) ?_
    intro y c1 h1
    refine RunsC.seq (ih (pre ++ [x]) (acc ++ [y]) (by simp [hl]) h1 ?_) ?_
    · intro p x' q acc' c' he
      exact hs p x' q acc' c' (by simpa using he)
    · rintro ys c2 ⟨h2, h3⟩
      exact RunsC.pure ⟨by simpa using h2, by simp [h3]⟩

/-- loop over `0..n` -/
theorem RunsC.mapRange {β} {f : Nat → M β} {I : List β → Circuit → Prop} (n : Nat) (h0 : I [] c)
    (hs : ∀ i acc c, i < n → acc.length = i → I acc c → RunsC w s (f i) c fun y c' => I (acc ++ [y]) c') :
    RunsC w s (M.mapList f (List.range n)) c fun ys c' => I ys c' ∧ ys.length = n := by
  refine (RunsC.mapList (I := I) (List.range n) [] [] rfl h0 ?_).mono ?_
  · intro p x q acc c he hl hi
    have hx : x = p.length ∧ x < n := by
      have h1 : (List.range n)[p.length]? = some x := by
        have : (p ++ x :: q)[p.length]? = some x := by simp
        rw [← he] at this; simpa using this
      have := (List.getElem?_eq_some_iff.mp h1)
      obtain ⟨hlt, he⟩ := this
      simp at hlt he
      omega
    exact hs x acc c hx.2 (by omega) hi
  · rintro ys c' ⟨h1, h2⟩
    exact ⟨by simpa using h1, by simpa using h2⟩

theorem rangeFromTo_get {a b i x : Nat} (h : (rangeFromTo a b)[i]? = some x) : x = a + i ∧ x < b := by
  unfold rangeFromTo at h
  simp only [List.getElem?_map] at h
  cases e : (List.range (b - a))[i]? with
  | none => rw [e] at h; cases h
  | some y =>
    rw [e] at h
    obtain ⟨h1, h2⟩ := List.getElem?_eq_some_iff.mp e
    simp at h h1 h2
    omega

/-- loop over `a..b` -/
theorem RunsC.mapFromTo {β} {f : Nat → M β} {I : List β → Circuit → Prop} (a b : Nat) (h0 : I [] c)
    (hs : ∀ i acc c, a ≤ i → i < b → a + acc.length = i → I acc c → RunsC w s (f i) c fun y c' => I (acc ++ [y]) c') :
    RunsC w s (M.mapList f (rangeFromTo a b)) c fun ys c' => I ys c' ∧ ys.length = b - a := by
  refine (RunsC.mapList (I := I) (rangeFromTo a b) [] [] rfl h0 ?_).mono ?_
  · intro p x q acc c he hl hi
    have h1 : (rangeFromTo a b)[p.length]? = some x := by
      have : (p ++ x :: q)[p.length]? = some x := by simp
      rw [← he] at this; simpa using this
    have := rangeFromTo_get h1
    exact hs x acc c (by omega) this.2 (by omega) hi
  · rintro ys c' ⟨h1, h2⟩
    exact ⟨by simpa using h1, by simpa [rangeFromTo] using h2⟩

/-- loop over a list without results -/
theorem RunsC.foldList {σ α} {f : σ → α → M σ} {I : Nat → σ → Circuit → Prop} (l : List α) : ∀ {c} (k : Nat) (x : σ),
    I k x c →
    (∀ (i : Nat) a x c, l[i]? = some a → I (k + i) x c → RunsC w s (f x a) c fun y c' => I (k + i + 1) y c') →
    RunsC w s (M.foldList f x l) c fun y c' => I (k + l.length) y c' := by
  induction l with
  | nil => intro c k x h0 _; exact RunsC.pure h0
  | cons a as ih =>
    intro c k x h0 hs
    refine RunsC.seq (hs 0 a x c rfl h0) ?_
    intro y c1 h1
    refine (ih (k + 1) y h1 ?_).mono ?_
    · intro i b z c2 hi hI
      have e : k + 1 + i = k + (i + 1) := by omega
      rw [e] at hI ⊢
      exact hs (i + 1) b z c2 (by simpa using hi) hI
    · intro y c2 h
      have e : k + 1 + as.length = k + (a :: as).length := by simp; omega
      rw [e] at h; exact h

theorem RunsC.foldRange {σ} {f : σ → Nat → M σ} {I : Nat → σ → Circuit → Prop} (n : Nat) {x : σ} (h0 : I 0 x c)
    (hs : ∀ i x c, i < n → I i x c → RunsC w s (f x i) c fun y c' => I (i + 1) y c') :
    RunsC w s (M.foldList f x (List.range n)) c fun y c' => I n y c' := by
  refine (RunsC.foldList (List.range n) 0 x h0 ?_).mono ?_
  · intro i a x c hi hI
    obtain ⟨hlt, he⟩ := List.getElem?_eq_some_iff.mp hi
    simp at hlt he
    subst he
    rw [Nat.zero_add] at hI ⊢
    exact hs i x c hlt hI
  · intro y c h; simpa using h

theorem RunsC.foldFromTo {σ} {f : σ → Nat → M σ} {I : Nat → σ → Circuit → Prop} (a b : Nat) {x : σ} (hab : a ≤ b)
    (h0 : I a x c) (hs : ∀ i x c, a ≤ i → i < b → I i x c → RunsC w s (f x i) c fun y c' => I (i + 1) y c') :
    RunsC w s (M.foldList f x (rangeFromTo a b)) c fun y c' => I b y c' := by
  refine (RunsC.foldList (rangeFromTo a b) a x h0 ?_).mono ?_
  · intro i y x c hi hI
    obtain ⟨h1, h2⟩ := rangeFromTo_get hi
    subst h1
    exact hs (a + i) x c (by omega) h2 hI
  · intro y c h
    have e : a + (rangeFromTo a b).length = b := by simp [rangeFromTo]; omega
    rw [e] at h; exact h

theorem RunsC.replicate {α} {x : M α} {I : List α → Circuit → Prop} (n : Nat) : ∀ {c} (acc : List α), I acc c →
    (∀ acc' c, acc'.length < acc.length + n → I acc' c → RunsC w s x c fun y c' => I (acc' ++ [y]) c') →
    RunsC w s (M.replicate x n) c fun ys c' => I (acc ++ ys) c' ∧ ys.length = n := by
  induction n with
  | zero => intro c acc h0 _; exact RunsC.pure ⟨by simpa using h0, rfl⟩
  | succ n ih =>
    intro c acc h0 hs
    refine RunsC.seq (hs acc c (by omega) h0) ?_
    intro y c1 h1
    refine RunsC.seq (ih (acc ++ [y]) h1 ?_) ?_
    · intro acc' c' hl
      exact hs acc' c' (by simp at hl; omega)
    · rintro ys c2 ⟨h2, h3⟩
      exact RunsC.pure ⟨by simpa using h2, by simp [h3]⟩

/-! ### one call -/

theorem Bld.module?_eq (hb : Bld w s K c) (mid : ModuleId) :
    w.module? c mid = match w.stores[K.st]? with | none => none | some x => x.moduleMap mid := by
  unfold World.module?; rw [hb.storage]; rfl

/-- what is known after one gate `g` has been appended -/
structure New1 (w : World) (s : Ref) (K : Ctx) (ins : List Bool) (c : Circuit) (g : GateId) (b : Bool)
    (c' : Circuit) : Prop where
  step : Step w s K c c'
  inputLen : c'.inputLen = c.inputLen
  gateIndex : c'.gateIndex = c.gateIndex + 1
  id : g = c.gateIndex
  v : V w s ins c' g b
  unread : Unread c' g

theorem Bld.step1 {gate : Gate} {c' : Circuit} (hb : Bld w s K c) (ap : Appends c c' [gate]) (hx : ExtC c c')
    (hwf : WFw (w.setC s c')) (hin : c'.inputLen = c.inputLen)
    (hnm : ∀ a b ids o m, gate ≠ .module a b ids o m)
    (hops : ∀ x ∈ gate.operands, x < c.gateIndex ∧ NotOut c x) (hval : ValidRun (w.setC s c) → ValidRun (w.setC s c')) {b : Bool}
    (hv : Step w s K c c' → c'.gateMap c.gateIndex = some gate → V w s ins c' c.gateIndex b) :
    New1 w s K ins c c.gateIndex b c' := by
  obtain ⟨h1, h2⟩ := hb.step ap hx hwf (Or.inl hin)
    (by
      intro i gt hi x hxo
      cases i with
      | zero => simp at hi; subst hi; exact hops x hxo
      | succ i => simp at hi)
    (by
      intro i gt hi
      cases i with
      | zero =>
        simp at hi; subst hi
        have e : lead (c.gateIndex + 0) gate = c.gateIndex := by
          cases gate <;> first | rfl | exact absurd rfl (hnm _ _ _ _ _)
        omega
      | succ i => simp at hi)
    (by
      intro i nIn nOut ids oi mid hi
      cases i with
      | zero => simp at hi; exact absurd hi (hnm _ _ _ _ _)
      | succ i => simp at hi) hval
  refine ⟨h1, hin, by rw [ap.idx]; rfl, rfl, hv h1 ?_, h2 _ (Nat.le_refl _)⟩
  have := ap.new 0
  simpa using this

theorem RunsC.not (hb : Bld w s K c) {x : GateId} {b : Bool} (hx : V w s ins c x b) (hn : NotOut c x) :
    RunsC w s (not s x) c fun g c' => New1 w s K ins c g (!b) c' := by
  have he : ∀ x, CC.not s x (w.setC s c) = (.ok c.gateIndex, w.setC s (c.not x).2) := by
    intro x; rw [not_eq hb.get, setC_setC]
  have hwf : WFw (w.setC s (c.not x).2) := by
    have := (good_not s x _ hb.wf).1; rw [he] at this; exact this
  refine ⟨_, _, he x, hb.step1 (Circuit.not_appends hb.wfc x) (.not hb.wfc x) hwf
    (by simp [Circuit.not, Circuit.addGate]) (by intros; simp) ?_
    (Bld.op (.not s x) ⟨hb.notCalled, hb.hasGate (hx.lt hb)⟩ ((map_world _ _ _).trans (congrArg Prod.snd (he x)))) ?_⟩
  · simp only [Gate.operands, List.mem_singleton]; rintro y rfl; exact ⟨hx.lt hb, hn⟩
  · intro hs hg; exact .not hs.bld.get hg (hs.v hb hx)

theorem RunsC.xor (hb : Bld w s K c) {x y : GateId} {a b : Bool} (hx : V w s ins c x a) (hy : V w s ins c y b)
    (hnx : NotOut c x) (hny : NotOut c y) :
    RunsC w s (xor s x y) c fun g c' => New1 w s K ins c g (a != b) c' := by
  have he : CC.xor s x y (w.setC s c) = (.ok c.gateIndex, w.setC s (c.xor x y).2) := by
    rw [xor_eq hb.get, setC_setC]
  have hwf : WFw (w.setC s (c.xor x y).2) := by
    have := (good_xor s x y _ hb.wf).1; rw [he] at this; exact this
  refine ⟨_, _, he, hb.step1 (Circuit.xor_appends hb.wfc x y) (.xor hb.wfc x y) hwf
    (by simp [Circuit.xor, Circuit.addGate]) (by intros; simp) ?_
    (Bld.op (.xor s x y) ⟨hb.notCalled, hb.hasGate (hx.lt hb), hb.hasGate (hy.lt hb)⟩ ((map_world _ _ _).trans (congrArg Prod.snd he))) ?_⟩
  · simp only [Gate.operands, List.mem_cons, List.not_mem_nil, or_false]
    rintro z (rfl | rfl)
    · exact ⟨hx.lt hb, hnx⟩
    · exact ⟨hy.lt hb, hny⟩
  · intro hs hg; exact .xor hs.bld.get hg (hs.v hb hx) (hs.v hb hy)

theorem RunsC.and (hb : Bld w s K c) {x y : GateId} {a b : Bool} (hx : V w s ins c x a) (hy : V w s ins c y b)
    (hnx : NotOut c x) (hny : NotOut c y) :
    RunsC w s (and s x y) c fun g c' => New1 w s K ins c g (a && b) c' := by
  have he : CC.and s x y (w.setC s c) = (.ok c.gateIndex, w.setC s (c.and x y).2) := by
    rw [and_eq hb.get, setC_setC]
  have hwf : WFw (w.setC s (c.and x y).2) := by
    have := (good_and s x y _ hb.wf).1; rw [he] at this; exact this
  refine ⟨_, _, he, hb.step1 (Circuit.and_appends hb.wfc x y) (.and hb.wfc x y) hwf
    (by simp [Circuit.and, Circuit.addGate]) (by intros; simp) ?_
    (Bld.op (.and s x y) ⟨hb.notCalled, hb.hasGate (hx.lt hb), hb.hasGate (hy.lt hb)⟩ ((map_world _ _ _).trans (congrArg Prod.snd he))) ?_⟩
  · simp only [Gate.operands, List.mem_cons, List.not_mem_nil, or_false]
    rintro z (rfl | rfl)
    · exact ⟨hx.lt hb, hnx⟩
    · exact ⟨hy.lt hb, hny⟩
  · intro hs hg; exact .and hs.bld.get hg (hs.v hb hx) (hs.v hb hy)

theorem RunsC.or (hb : Bld w s K c) {x y : GateId} {a b : Bool} (hx : V w s ins c x a) (hy : V w s ins c y b)
    (hnx : NotOut c x) (hny : NotOut c y) :
    RunsC w s (or s x y) c fun g c' => New1 w s K ins c g (a || b) c' := by
  have he : CC.or s x y (w.setC s c) = (.ok c.gateIndex, w.setC s (c.or x y).2) := by
    rw [or_eq hb.get, setC_setC]
  have hwf : WFw (w.setC s (c.or x y).2) := by
    have := (good_or s x y _ hb.wf).1; rw [he] at this; exact this
  refine ⟨_, _, he, hb.step1 (Circuit.or_appends hb.wfc x y) (.or hb.wfc x y) hwf
    (by simp [Circuit.or, Circuit.addGate]) (by intros; simp) ?_
    (Bld.op (.or s x y) ⟨hb.notCalled, hb.hasGate (hx.lt hb), hb.hasGate (hy.lt hb)⟩ ((map_world _ _ _).trans (congrArg Prod.snd he))) ?_⟩
  · simp only [Gate.operands, List.mem_cons, List.not_mem_nil, or_false]
    rintro z (rfl | rfl)
    · exact ⟨hx.lt hb, hnx⟩
    · exact ⟨hy.lt hb, hny⟩
  · intro hs hg; exact .or hs.bld.get hg (hs.v hb hx) (hs.v hb hy)

theorem RunsC.constant (hb : Bld w s K c) (v : Bool) :
    RunsC w s (constant s v) c fun g c' => New1 w s K ins c g v c' := by
  have he : CC.constant s v (w.setC s c) = (.ok c.gateIndex, w.setC s (c.constant v).2) := by
    rw [constant_eq hb.get, setC_setC]
  have hwf : WFw (w.setC s (c.constant v).2) := by
    have := (good_constant s v _ hb.wf).1; rw [he] at this; exact this
  refine ⟨_, _, he, hb.step1 (Circuit.constant_appends hb.wfc v) (.constant hb.wfc v) hwf
    (by simp [Circuit.constant, Circuit.addGate]) (by intros; simp) (by simp [Gate.operands])
    (Bld.op (.constant s v) hb.notCalled ((map_world _ _ _).trans (congrArg Prod.snd he))) ?_⟩
  intro hs hg; exact .const hs.bld.get hg

theorem RunsC.input (hb : Bld w s K c) (h0 : c.outputLen = 0) :
    RunsC w s (input s) c fun g c' => Step w s K c c' ∧ c'.inputLen = c.inputLen + 1 ∧
      c'.gateIndex = c.gateIndex + 1 ∧ g = c.gateIndex ∧ ∀ b, ins[c.inputLen]? = some b → V w s ins c' g b := by
  have he : CC.input s (w.setC s c) = (.ok c.gateIndex, w.setC s c.input.2) := by
    rw [input_eq hb.get, setC_setC]
  have hwf : WFw (w.setC s c.input.2) := by
    have := (good_input s _ hb.wf).1; rw [he] at this; exact this
  have ap := Circuit.input_appends hb.wfc
  obtain ⟨h1, h2⟩ := hb.step ap (.input hb.wfc) hwf (Or.inr ⟨h0, by rw [ap.idx]; show c.inputLen + 1 ≤ _; have := hb.ins; simp; omega⟩)
    (by
      intro i gt hi x hxo
      cases i with
      | zero => simp at hi; subst hi; simp [Gate.operands] at hxo
      | succ i => simp at hi)
    (by
      intro i gt hi
      cases i with
      | zero => simp at hi; subst hi; simp [lead]
      | succ i => simp at hi)
    (by
      intro i nIn nOut ids oi mid hi
      cases i with
      | zero => simp at hi
      | succ i => simp at hi)
    (Bld.op (.input s) hb.notCalled ((map_world _ _ _).trans (congrArg Prod.snd he)))
  refine ⟨_, _, he, h1, rfl, by rw [ap.idx]; rfl, rfl, ?_⟩
  intro b hbit
  have := ap.new 0
  exact .input h1.bld.get (by simpa using this) hbit

theorem RunsC.equivalent (hb : Bld w s K c) {x y : GateId} {a b : Bool} (hx : V w s ins c x a) (hy : V w s ins c y b)
    (hnx : NotOut c x) (hny : NotOut c y) :
    RunsC w s (equivalent s x y) c fun g c' => Step w s K c c' ∧ c'.inputLen = c.inputLen ∧
      c'.gateIndex = c.gateIndex + 2 ∧ g = c.gateIndex + 1 ∧ V w s ins c' g (a == b) ∧ Unread c' g := by
  refine RunsC.seq (RunsC.xor (ins := ins) hb hx hy hnx hny) ?_
  intro g1 c1 h1
  have hno : NotOut c1 g1 := by
    intro i hi
    rw [h1.step.outputMap] at hi
    have := hb.wfc.output_gate i _ hi
    have := h1.id
    omega
  refine (RunsC.not (ins := ins) h1.step.bld h1.v hno).mono ?_
  intro g c2 h2
  have e1 := h1.gateIndex
  have e2 := h2.gateIndex
  have e3 := h2.id
  refine ⟨h1.step.trans h2.step, h2.inputLen.trans h1.inputLen, by omega, by omega, ?_, h2.unread⟩
  have := h2.v
  have e : (!(a != b)) = (a == b) := by cases a <;> cases b <;> rfl
  rw [e] at this; exact this

/-- what is known after a module call -/
structure NewM (w : World) (s : Ref) (K : Ctx) (ins : List Bool) (c : Circuit) (gs : List GateId) (bs : List Bool)
    (c' : Circuit) : Prop where
  step : Step w s K c c'
  inputLen : c'.inputLen = c.inputLen
  gateIndex : c'.gateIndex = c.gateIndex + bs.length
  ids : gs = List.range' c.gateIndex bs.length
  v : All2 (V w s ins c') gs bs
  unread : ∀ g, c.gateIndex ≤ g → Unread c' g

theorem RunsC.module (hb : Bld w s K c) {mid : ModuleId} {nIn nOut : Nat} {f : List Bool → List Bool}
    (hm : ModD w (fun d => d < K.out ∨ d = s) K.st mid nIn nOut f) {ids : List GateId} {bits : List Bool} (hv : All2 (V w s ins c) ids bits)
    (hlen : bits.length = nIn) (hno : ∀ x ∈ ids, NotOut c x) :
    RunsC w s (module s mid ids) c fun gs c' => NewM w s K ins c gs (f bits) c' ∧ (f bits).length = nOut := by
  obtain ⟨mr, mc, stor, m1, m2, mA, m4, m5, m6, m7, m8, m9⟩ := hm
  have m3 : mr ≠ s := (mA s (Or.inr rfl)).ne
  have hmod : w.module? c mid = some mr := by rw [hb.module?_eq, m1]; exact m2
  have hmod' : (w.setC s c).module? c mid = some mr := hmod
  have hmc' : (w.setC s c).circs[mr]? = some mc := by rw [setC_get_ne _ m3]; exact m4
  obtain ⟨c', he, heff⟩ := module_eq_ok hb.wfc hb.get hmod' m3 hmc' (by omega) ids
  rw [setC_setC] at he
  have hwf : WFw (w.setC s c') := by
    have := (good_module s mid ids _ hb.wf).1; rw [he] at this; exact this
  have ap := heff.appends
  have hl := hv.length
  obtain ⟨h1, h2⟩ := hb.step ap (ExtC.of_moduleEffect hb.wfc heff) hwf (Or.inl heff.inputLen)
    (by
      intro i gt hi x hxo
      rw [moduleGates_get] at hi
      split at hi
      · cases hi
        obtain ⟨b, hxv⟩ := hv.left hxo
        exact ⟨hxv.lt hb, hno x hxo⟩
      · cases hi)
    (by
      intro i gt hi
      rw [moduleGates_get] at hi
      split at hi
      · cases hi; simp [lead]
      · cases hi)
    (by
      intro i nIn' nOut' ids' oi mid' hi
      rw [moduleGates_get] at hi
      split at hi
      · cases hi; exact ⟨mr, mc, hmod, mA s (Or.inr rfl), fun d hd => mA d (Or.inl hd), m4, by omega, rfl, rfl, m8⟩
      · cases hi)
    (Bld.op (.module s mid ids) ⟨hb.notCalled, fun x hx => by
      obtain ⟨b, hxv⟩ := hv.left hx
      exact hb.hasGate (hxv.lt hb), fun mc' h => by
      unfold callee at h
      rw [hb.get] at h; simp only at h
      rw [hmod'] at h; simp only at h
      rw [hmc'] at h; cases h; omega⟩ ((map_world _ _ _).trans (congrArg Prod.snd he)))
  obtain ⟨mc', hmc2, l1, l2, hval⟩ := m9 bits hlen
  rw [m4] at hmc2; cases hmc2
  refine ⟨_, _, he, ⟨h1, heff.inputLen, ?_, by rw [l2], ?_, h2⟩, by omega⟩
  · rw [ap.idx]; simp [moduleGates]; omega
  · rw [all2_iff]
    refine ⟨by simp [l2], ?_⟩
    intro i g b hg hbit
    have hi : i < mc.outputLen := by simpa using lt_of_getElem? hg
    rw [List.getElem?_range' hi] at hg
    simp only [Nat.one_mul, Option.some.injEq] at hg
    subst hg
    obtain ⟨o, ho, hvo⟩ := hval i b hbit
    have hgate : c'.gateMap (c.gateIndex + i) = some (.module mc.inputLen mc.outputLen ids i mid) := by
      rw [ap.new, moduleGates_get, if_pos hi]
    refine .module h1.bld.get hgate (mr := mr) (mc := mc) (bits := bits) (o := o) ?_ ?_ hl.symm ?_ l1 ho ?_
    · exact (World.module?_congr rfl ap.storage mid).trans hmod
    · rw [setC_get_ne _ m3]; exact m4
    · intro k x a hx ha
      exact h1.v hb ((all2_iff.mp hv).2 k x a hx ha)
    · exact hvo.keeps (keeps_setC c') (not_called_closed hb.base) m3

/-! ### outputs -/

/-- the outputs so far have values `bs` -/
def Outs (w : World) (s : Ref) (ins : List Bool) (c : Circuit) (bs : List Bool) : Prop :=
  bs.length = c.outputLen ∧ ∀ i b, bs[i]? = some b → ∃ o, c.outputMap i = some o ∧ V w s ins c o b

theorem Outs.step {c' : Circuit} {bs : List Bool} (h : Outs w s ins c bs) (hb : Bld w s K c) (hs : Step w s K c c') :
    Outs w s ins c' bs := by
  refine ⟨h.1.trans hs.outputLen.symm, fun i b hi => ?_⟩
  obtain ⟨o, ho, hv⟩ := h.2 i b hi
  exact ⟨o, by rw [hs.outputMap]; exact ho, hs.v hb hv⟩

theorem Outs.nil (h : c.outputLen = 0) : Outs w s ins c [] := ⟨by simp [h], by simp⟩

/-- what is known after `output g` -/
structure NewOut (w : World) (s : Ref) (K : Ctx) (c : Circuit) (g : GateId) (c' : Circuit) : Prop where
  bld : Bld w s K c'
  ext : ExtC c c'
  gateMap : c'.gateMap = c.gateMap
  gateIndex : c'.gateIndex = c.gateIndex
  inputLen : c'.inputLen = c.inputLen
  outputLen : c'.outputLen = c.outputLen + 1
  outputMap : c'.outputMap = c.outputMap.insert c.outputLen g

theorem RunsC.output (hb : Bld w s K c) {g : GateId} {b : Bool} (hg : V w s ins c g b) (hu : Unread c g)
    (hp : c.inputLen + c.outputLen ≤ g) : RunsC w s (output s g) c fun _ c' => NewOut w s K c g c' := by
  obtain ⟨gate, hgate⟩ := hb.wfc.some_of_lt (hg.lt hb)
  have he := output_eq_ok hb.get hgate
  rw [setC_setC] at he
  have hwf := (good_output s g _ hb.wf).1
  rw [he] at hwf
  have hext : ExtC c { c with outputMap := c.outputMap.insert c.outputLen g, outputLen := c.outputLen + 1 } := by
    have := ExtC.output hb.wfc g
    unfold Circuit.output at this; rw [hgate] at this; exact this
  refine ⟨_, _, he, ⟨hb.lt, hb.base, hb.storage, hwf, hb.topo, hb.calls, ?_, ?_, hb.ins, ?_⟩, hext, rfl, rfl, rfl, rfl, rfl⟩
  rotate_left 2
  · exact fun h => Bld.op (.output s g) hb.notCalled ((map_world _ _ _).trans (congrArg Prod.snd he)) (hb.valid h)
  · intro i o ho
    simp only [Map.insert_apply] at ho
    split at ho
    · cases ho; exact hu
    · exact hb.unread i o ho
  · intro i o ho
    simp only [Map.insert_apply] at ho
    split at ho
    · next e => cases ho; subst e; exact hp
    · exact hb.outPos i o ho

theorem Outs.output {c' : Circuit} {bs : List Bool} {g : GateId} {b : Bool} (h : Outs w s ins c bs) (hb : Bld w s K c)
    (hn : NewOut w s K c g c') (hv : V w s ins c g b) : Outs w s ins c' (bs ++ [b]) := by
  refine ⟨by simp [h.1, hn.outputLen], ?_⟩
  intro i b' hi
  rw [hn.outputMap]
  by_cases hlt : i < bs.length
  · rw [List.getElem?_append_left hlt] at hi
    obtain ⟨o, ho, hvo⟩ := h.2 i b' hi
    refine ⟨o, ?_, val_ext hb hn.ext hvo⟩
    rw [Map.insert_ne]
    · exact ho
    · have := h.1; omega
  · rw [List.getElem?_append_right (by omega)] at hi
    have hi0 : i - bs.length = 0 := by
      have := lt_of_getElem? hi
      simp at this; omega
    rw [hi0] at hi
    simp at hi
    subst hi
    refine ⟨g, ?_, val_ext hb hn.ext hv⟩
    have : i = c.outputLen := by have := h.1; omega
    rw [this, Map.insert_self]

/-- a list of gates ready to become the outputs -/
def Ready (c : Circuit) (gs : List GateId) : Prop :=
  (∀ g ∈ gs, Unread c g) ∧ ∀ (i : Nat) g, gs[i]? = some g → c.inputLen + i ≤ g

theorem NewOut.unread {c' : Circuit} {g o : GateId} (hn : NewOut w s K c g c') (h : Unread c o) : Unread c' o := by
  intro x gate hx; rw [hn.gateMap] at hx; exact h x gate hx

/-- the closing loop `for i in 0..n { output(gs[i]) }` -/
theorem RunsC.outputs (hb : Bld w s K c) (h0 : c.outputLen = 0) {gs : List GateId} {bs : List Bool} (hr : Ready c gs)
    (hv : All2 (V w s ins c) gs bs) :
    RunsC w s (M.mapList (fun i => do let g ← M.idx gs i; CC.output s g) (List.range gs.length)) c fun _ c' =>
      Bld w s K c' ∧ Outs w s ins c' bs ∧ c'.inputLen = c.inputLen := by
  have hl := hv.length
  refine (RunsC.mapRange (I := fun acc c' => Bld w s K c' ∧ Outs w s ins c' (bs.take acc.length) ∧
    c'.inputLen = c.inputLen ∧ ExtC c c' ∧ c'.gateMap = c.gateMap) gs.length
    ⟨hb, by simpa using Outs.nil h0, rfl, ExtC.refl c, rfl⟩ ?_).mono ?_
  · rintro i acc c1 hi hacc ⟨b1, b2, b3, b4, b5⟩
    obtain ⟨g, b, hg, hbit, hgv⟩ := hv.get hi
    refine RunsC.bind (RunsC.idx hg ?_)
    have hgv1 := val_ext hb b4 hgv
    have hlen := b2.1
    rw [List.length_take] at hlen
    have hu : Unread c1 g := by
      intro x gate hx; rw [b5] at hx; exact hr.1 g (List.mem_of_getElem? hg) x gate hx
    have hpos := hr.2 i g hg
    refine (RunsC.output b1 hgv1 hu (by omega)).mono ?_
    intro _ c2 hn
    refine ⟨hn.bld, ?_, hn.inputLen.trans b3, b4.trans hn.ext, hn.gateMap.trans b5⟩
    have := b2.output b1 hn hgv1
    rw [List.length_append]
    simp only [List.length_cons, List.length_nil, Nat.zero_add]
    rw [List.take_add_one, hacc, hbit]
    rw [hacc] at this
    exact this
  · rintro ys c' ⟨⟨b1, b2, b3, _⟩, hy⟩
    refine ⟨b1, ?_, b3⟩
    rw [hy, hl, List.take_length] at b2
    exact b2

/-! ### common loops -/

theorem Bld.room (hb : Bld w s K c) : c.inputLen + c.outputLen ≤ c.gateIndex := by
  cases h : c.outputLen with
  | zero => exact hb.ins
  | succ k =>
    obtain ⟨o, ho⟩ := Option.isSome_iff_exists.mp ((hb.wfc.output_dom k).mpr (by omega))
    have h1 := hb.outPos k o ho
    have h2 := hb.wfc.output_gate k o ho
    omega

theorem Bld.notOut_new (hb : Bld w s K c) {x : GateId} (h : c.gateIndex ≤ x) : NotOut c x := by
  intro i hi
  have := hb.wfc.output_gate i x hi
  omega

theorem New1.notOut {c' : Circuit} {g : GateId} {b : Bool} (hb : Bld w s K c) (h : New1 w s K ins c g b c') :
    NotOut c' g := by
  intro i hi
  rw [h.step.outputMap] at hi
  exact hb.notOut_new (Nat.le_of_eq h.id.symm) i hi

/-- after a block of calls that only adds gates -/
structure Grew (w : World) (s : Ref) (K : Ctx) (c c' : Circuit) : Prop where
  step : Step w s K c c'
  inputLen : c'.inputLen = c.inputLen

theorem Grew.trans {c1 c2 : Circuit} (h : Grew w s K c c1) (k : Grew w s K c1 c2) : Grew w s K c c2 :=
  ⟨h.step.trans k.step, k.inputLen.trans h.inputLen⟩

theorem Bld.grew (hb : Bld w s K c) : Grew w s K c c := ⟨hb.refl, rfl⟩

theorem New1.grew {c' : Circuit} {g : GateId} {b : Bool} (h : New1 w s K ins c g b c') : Grew w s K c c' :=
  ⟨h.step, h.inputLen⟩

theorem NewM.grew {c' : Circuit} {gs : List GateId} {bs : List Bool} (h : NewM w s K ins c gs bs c') :
    Grew w s K c c' := ⟨h.step, h.inputLen⟩

theorem NewM.ready {c' : Circuit} {gs : List GateId} {bs : List Bool} (hb : Bld w s K c)
    (h : NewM w s K ins c gs bs c') : Ready c' gs := by
  have hi := hb.ins
  refine ⟨?_, ?_⟩
  · intro g hg
    rw [h.ids] at hg
    exact h.unread g (by simp at hg; omega)
  · intro i g hg
    rw [h.ids] at hg
    have hlt := lt_of_getElem? hg
    simp at hlt
    rw [List.getElem?_range' hlt] at hg
    simp only [Nat.one_mul, Option.some.injEq] at hg
    rw [h.inputLen]
    omega

theorem Grew.out0 {c' : Circuit} (h : Grew w s K c c') (h0 : c.outputLen = 0) : c'.outputLen = 0 :=
  h.step.outputLen.trans h0

/-- `n` fresh inputs -/
theorem RunsC.inputs (hb : Bld w s K c) (h0 : c.outputLen = 0) (n : Nat) (hl : c.inputLen + n ≤ ins.length) :
    RunsC w s (M.replicate (CC.input s) n) c fun gs c' => Step w s K c c' ∧ c'.inputLen = c.inputLen + n ∧
      c'.gateIndex = c.gateIndex + n ∧ gs.length = n ∧ All2 (V w s ins c') gs ((ins.drop c.inputLen).take n) := by
  refine (RunsC.replicate (I := fun acc c' => Step w s K c c' ∧ c'.inputLen = c.inputLen + acc.length ∧
    c'.gateIndex = c.gateIndex + acc.length ∧ All2 (V w s ins c') acc ((ins.drop c.inputLen).take acc.length)) n []
    ⟨hb.refl, rfl, rfl, by simp [All2]⟩ ?_).mono ?_
  · rintro acc c1 hlt ⟨h1, h2, h3, h4⟩
    simp only [List.length_nil, Nat.zero_add] at hlt
    refine (RunsC.input (ins := ins) h1.bld (h1.outputLen.trans h0)).mono ?_
    rintro g c2 ⟨k1, k2, k3, k4, k5⟩
    refine ⟨h1.trans k1, by simp; omega, by simp; omega, ?_⟩
    have hlt' : c.inputLen + acc.length < ins.length := by omega
    have e : (ins.drop c.inputLen)[acc.length]? = some (ins[c.inputLen + acc.length]) := by
      rw [List.getElem?_drop, List.getElem?_eq_getElem hlt']
    rw [List.length_append, List.length_singleton, List.take_add_one, e]
    refine (k1.vs h1.bld h4).append ⟨?_, trivial⟩
    apply k5
    rw [h2, List.getElem?_eq_getElem hlt']
  · rintro gs c' ⟨⟨h1, h2, h3, h4⟩, h5⟩
    simp only [List.nil_append] at *
    rw [h5] at h2 h3 h4
    exact ⟨h1, h2, h3, h5, h4⟩

/-- `n` gates computed one by one -/
theorem RunsC.mapVals (hb : Bld w s K c) {f : Nat → M GateId} (n : Nat) (φ : Nat → Bool)
    (hs : ∀ i c', i < n → Grew w s K c c' → RunsC w s (f i) c' fun g c'' => Grew w s K c' c'' ∧ V w s ins c'' g (φ i)) :
    RunsC w s (M.mapList f (List.range n)) c fun gs c' => Grew w s K c c' ∧
      All2 (V w s ins c') gs ((List.range n).map φ) := by
  refine (RunsC.mapRange (I := fun acc c' => Grew w s K c c' ∧
    All2 (V w s ins c') acc ((List.range acc.length).map φ)) n ⟨hb.grew, by simp [All2]⟩ ?_).mono ?_
  · rintro i acc c1 hi hl ⟨h1, h2⟩
    refine (hs i c1 hi h1).mono ?_
    rintro g c2 ⟨k1, k2⟩
    refine ⟨h1.trans k1, ?_⟩
    rw [List.length_append, List.length_singleton, List.range_succ, List.map_append]
    subst hl
    exact (k1.step.vs h1.step.bld h2).append ⟨k2, trivial⟩
  · rintro gs c' ⟨⟨h1, h2⟩, h3⟩
    rw [h3] at h2
    exact ⟨h1, h2⟩

/-- `n` constants -/
theorem RunsC.consts (hb : Bld w s K c) (v : Bool) (n : Nat) :
    RunsC w s (M.replicate (CC.constant s v) n) c fun gs c' => Grew w s K c c' ∧
      All2 (V w s ins c') gs (List.replicate n v) := by
  refine (RunsC.replicate (I := fun acc c' => Grew w s K c c' ∧
    All2 (V w s ins c') acc (List.replicate acc.length v)) n [] ⟨hb.grew, by simp [All2]⟩ ?_).mono ?_
  · rintro acc c1 _ ⟨h1, h2⟩
    refine (RunsC.constant (ins := ins) h1.step.bld v).mono ?_
    intro g c2 hn
    refine ⟨h1.trans hn.grew, ?_⟩
    rw [List.length_append, List.length_singleton, List.replicate_succ']
    exact (hn.step.vs h1.step.bld h2).append ⟨hn.v, trivial⟩
  · rintro gs c' ⟨⟨h1, h2⟩, h3⟩
    simp only [List.nil_append] at h2
    rw [h3] at h2
    exact ⟨h1, h2⟩

theorem RunsC.constList : ∀ (bs : List Bool) {c : Circuit} (_ : Bld w s K c),
    RunsC w s (M.mapList (fun b => CC.constant s b) bs) c fun gs c' => Grew w s K c c' ∧ All2 (V w s ins c') gs bs
  | [], _, hb => RunsC.pure ⟨hb.grew, trivial⟩
  | b :: bs, c, hb => by
    refine RunsC.seq (RunsC.constant (ins := ins) hb b) ?_
    intro g c1 h1
    refine RunsC.seq (RunsC.constList bs h1.step.bld) ?_
    rintro gs c2 ⟨h2, h3⟩
    exact RunsC.pure ⟨h1.grew.trans h2, h2.step.v h1.step.bld h1.v, h3⟩

/-! ### gates and outputs interleaved -/

/-- since `c0`, gates were added and the outputs `bs` were declared, all of them new gates -/
structure Em (w : World) (s : Ref) (K : Ctx) (ins : List Bool) (c0 : Circuit) (bs : List Bool) (c : Circuit) :
    Prop where
  bld : Bld w s K c
  ext : ExtC c0 c
  inputLen : c.inputLen = c0.inputLen
  outs : Outs w s ins c bs
  ge : ∀ i o, c.outputMap i = some o → c0.gateIndex ≤ o

theorem Bld.em (hb : Bld w s K c) (h0 : c.outputLen = 0) : Em w s K ins c [] c :=
  ⟨hb, ExtC.refl c, rfl, Outs.nil h0, fun i o ho => absurd ho (hb.notOut h0 o i)⟩

theorem Em.notOut {c0 : Circuit} {bs} (h : Em w s K ins c0 bs c) {x : GateId} (hx : x < c0.gateIndex) : NotOut c x := by
  intro i hi
  have := h.ge i x hi
  omega

theorem Em.v {c0 : Circuit} {bs} (h : Em w s K ins c0 bs c) (hb : Bld w s K c0) {x b} (hx : V w s ins c0 x b) :
    V w s ins c x b := val_ext hb h.ext hx

theorem Em.step {c0 c' : Circuit} {bs} (h : Em w s K ins c0 bs c) (hg : Grew w s K c c') : Em w s K ins c0 bs c' :=
  ⟨hg.step.bld, h.ext.trans hg.step.ext, hg.inputLen.trans h.inputLen, h.outs.step h.bld hg.step,
    fun i o ho => h.ge i o (by rw [← hg.step.outputMap]; exact ho)⟩

theorem Em.emit {c0 c' : Circuit} {bs g b} (h : Em w s K ins c0 bs c) (hn : New1 w s K ins c g b c') :
    RunsC w s (CC.output s g) c' fun _ c'' => Em w s K ins c0 (bs ++ [b]) c'' := by
  have he := h.step hn.grew
  have hroom := h.bld.room
  have h1 := hn.inputLen
  have h2 := hn.step.outputLen
  have h3 := hn.id
  refine (RunsC.output he.bld hn.v hn.unread (by omega)).mono ?_
  intro _ c'' ho
  refine ⟨ho.bld, he.ext.trans ho.ext, ho.inputLen.trans he.inputLen, he.outs.output he.bld ho hn.v, ?_⟩
  intro i o hio
  rw [ho.outputMap, Map.insert_apply] at hio
  split at hio
  · cases hio
    have := h.ext.gateIndex
    omega
  · exact he.ge i o hio

theorem rangeFromTo_zero (n : Nat) : rangeFromTo 0 n = List.range n := by simp [rangeFromTo]

/-- a loop declaring one output per round -/
theorem RunsC.emitLoop {β} {c0 : Circuit} {bs0 : List Bool} {f : Nat → M β} (a b : Nat) (φ : Nat → Bool)
    (he : Em w s K ins c0 bs0 c)
    (hs : ∀ i bs c, a ≤ i → i < b → Em w s K ins c0 bs c → RunsC w s (f i) c fun _ c' => Em w s K ins c0 (bs ++ [φ i]) c') :
    RunsC w s (M.mapList f (rangeFromTo a b)) c fun _ c' => Em w s K ins c0 (bs0 ++ (rangeFromTo a b).map φ) c' := by
  refine (RunsC.mapFromTo (I := fun acc c' => Em w s K ins c0 (bs0 ++ (rangeFromTo a (a + acc.length)).map φ) c') a b
    (by simpa [rangeFromTo] using he) ?_).mono ?_
  · intro i acc c1 h1 h2 h3 h4
    refine (hs i _ c1 h1 h2 h4).mono ?_
    intro y c2 h5
    have e : rangeFromTo a (a + (acc ++ [y]).length) = rangeFromTo a (a + acc.length) ++ [i] := by
      simp only [rangeFromTo, List.length_append, List.length_singleton]
      rw [show a + (acc.length + 1) - a = acc.length + 1 by omega, show a + acc.length - a = acc.length by omega,
        List.range_succ, List.map_append]
      simp
      omega
    rw [e, List.map_append, ← List.append_assoc]
    exact h5
  · rintro ys c' ⟨h1, h2⟩
    by_cases hab : a ≤ b
    · rw [h2, show a + (b - a) = b by omega] at h1; exact h1
    · have e : rangeFromTo a b = [] := by simp [rangeFromTo]; omega
      have e2 : ys.length = 0 := by omega
      rw [e2] at h1
      rw [e]
      simpa [rangeFromTo] using h1

end

/-! ### whole builders -/

theorem ValidRun.subCircuit {w w' : World} {r : Ref} {x} (he : CC.subCircuit r w = (x, w')) (h : ValidRun w) : ValidRun w' := by
  have h1 := ValidRun.step (.subCircuit r) h trivial
  have e : (Op.call (.subCircuit r) w).2 = w' := by
    refine (map_world (CC.subCircuit r) (fun p => Ret.sub p.1 p.2) w).trans ?_
    rw [he]
  rw [← e]; exact h1

/-- everything that existed is unchanged, and the heap is still well-formed -/
structure After (w w' : World) : Prop where
  wf : WFw w'
  keeps : Keeps (fun _ => True) w w'
  /-- only new circuits become modules -/
  reg : ∀ (s : StoreRef) st' m q, w'.stores[s]? = some st' → st'.moduleMap m = some q → q < w.circs.length →
    ∃ st, w.stores[s]? = some st ∧ st.moduleMap m = some q
  valid : ValidRun w → ValidRun w'

theorem After.length {w w'} (h : After w w') : w.circs.length ≤ w'.circs.length := by
  apply Nat.le_of_not_lt
  intro hlt
  have := lt_of_getElem? (h.keeps.circ _ _ trivial (List.getElem?_eq_getElem hlt))
  omega

theorem After.trans {w w' w''} (h : After w w') (k : After w' w'') : After w w'' :=
  ⟨k.wf, h.keeps.trans k.keeps, fun s st' m q h1 h2 h3 => by
    obtain ⟨st1, e1, e2⟩ := k.reg s st' m q h1 h2 (Nat.lt_of_lt_of_le h3 h.length)
    exact h.reg s st1 m q e1 e2 h3, fun e => k.valid (h.valid e)⟩

theorem After.modOk {w w'} (h : After w w') {N st mid nIn nOut f} (hm : ModOk w N st mid nIn nOut f) :
    ModOk w' N st mid nIn nOut f :=
  ModD.keeps h.keeps (fun _ _ _ _ _ _ => trivial) hm (fun _ _ => trivial) (fun _ hd => Or.inl hd)

/-- the builder `x`, run in heap `w` with table `st`, produces a module computing `f` that does not depend on the first
`N` circuits -/
def Builds (w : World) (N : Nat) (st : StoreRef) (x : M ModuleId) (nIn nOut : Nat) (f : List Bool → List Bool) : Prop :=
  ∃ mid w', x w = (.ok mid, w') ∧ After w w' ∧ ModOk w' N st mid nIn nOut f

/-- the empty circuit -/
structure Empty (c : Circuit) : Prop where
  inputLen : c.inputLen = 0
  outputLen : c.outputLen = 0
  gateIndex : c.gateIndex = 0

theorem Builds.mk {w : World} {r : Ref} {N : Nat} {c0 : Circuit} {x : ModuleId × Ref → M ModuleId} {nIn nOut : Nat}
    {f : List Bool → List Bool} (hw : WFw w) (hr : w.circs[r]? = some c0) (hN : N ≤ w.circs.length)
    (hf : ∀ ins, ins.length = nIn → (f ins).length = nOut)
    (h : ∀ (w1 : World) (s : Ref) (K : Ctx) (mid : ModuleId) (c1 : Circuit) (ins : List Bool),
      (∀ mid nIn nOut f, ModOk w N c0.storage mid nIn nOut f → ModD w1 (fun d => d < K.out ∨ d = s) K.st mid nIn nOut f) →
      Bld w1 s K c1 → Empty c1 → ins.length = nIn →
      RunsC w1 s (x (mid, s)) c1 fun m c' => m = mid ∧ Bld w1 s K c' ∧ Outs w1 s ins c' (f ins) ∧
        c'.inputLen = nIn) :
    Builds w N c0.storage (subCircuit r >>= x) nIn nOut f := by
  have hstl := hw.store r c0 hr
  obtain ⟨stor, hs⟩ : ∃ st, w.stores[c0.storage]? = some st := ⟨_, List.getElem?_eq_getElem hstl⟩
  have he := subCircuit_eq hr hs
  have hwf1 := (good_subCircuit r _ hw).1
  rw [he] at hwf1
  generalize hw1 : World.mk (w.circs ++ [Circuit.new c0.storage])
    (w.stores.set c0.storage (stor.register w.circs.length).2) = w1 at he hwf1
  have hg1 : w1.circs[w.circs.length]? = some (Circuit.new c0.storage) := by subst hw1; simp
  have hrl := lt_of_getElem? hr
  have hst1 : w1.stores[c0.storage]? = some (stor.register w.circs.length).2 := by
    subst hw1; simp [hstl]
  have hnum := hw.mods _ _ hs
  have hk : Keeps (fun _ => True) w w1 := by
    subst hw1
    refine ⟨fun x c _ hx => by simp only; rw [List.getElem?_append_left (lt_of_getElem? hx)]; exact hx, ?_⟩
    intro s st' hs'
    by_cases hse : s = c0.storage
    · subst hse
      rw [hs] at hs'; cases hs'
      refine ⟨_, by simpa using hst1, ?_⟩
      intro m q hq
      have hlt := (hnum m).mp (by simp [hq])
      simp only [Storage.register, Map.insert_apply]
      rw [if_neg (by omega)]; exact hq
    · refine ⟨st', ?_, fun _ _ h => h⟩
      simp only
      rw [List.getElem?_set_ne (fun e => hse e.symm)]; exact hs'
  have hbase : ¬ Called w1 w.circs.length := by
    rintro ⟨q, c, hq, g, nIn, nOut, ids, oi, mid, hg, hm⟩
    have hql := lt_of_getElem? hq
    by_cases hqe : q = w.circs.length
    · subst hqe
      rw [hg1] at hq; cases hq
      simp [Circuit.new, Map.empty] at hg
    · have hqw : w.circs[q]? = some c := by
        subst hw1
        simp only at hq hql
        simp at hql
        rw [List.getElem?_append_left (by omega)] at hq
        exact hq
      obtain ⟨mr, h1, h2⟩ := hw.calls q c hqw g nIn nOut ids oi mid hg
      have h3 := hk.module? h1
      rw [hm] at h3
      cases h3
      obtain ⟨st2, h4⟩ : ∃ st2, w.stores[c.storage]? = some st2 := ⟨_, List.getElem?_eq_getElem (hw.store q c hqw)⟩
      unfold World.module? at h1
      rw [h4] at h1
      have := hw.mods_ref _ _ h4 _ _ h1
      omega
  have hself : w1.setC w.circs.length (Circuit.new c0.storage) = w1 := setC_self hg1
  have hb : Bld w1 w.circs.length ⟨c0.storage, N⟩ (Circuit.new c0.storage) := by
    refine ⟨lt_of_getElem? hg1, hbase, rfl, by rw [hself]; exact hwf1, ?_, ?_, ?_, ?_, by simp [Circuit.new], fun h => by rw [hself]; exact h⟩
    · intro g gate hg; simp [Circuit.new, Map.empty] at hg
    · intro g _ _ _ _ _ hg; simp [Circuit.new, Map.empty] at hg
    · intro i o ho; simp [Circuit.new, Map.empty] at ho
    · intro i o ho; simp [Circuit.new, Map.empty] at ho
  have hmod : ∀ mid nIn nOut f, ModOk w N c0.storage mid nIn nOut f →
      ModD w1 (fun d => d < N ∨ d = w.circs.length) c0.storage mid nIn nOut f := fun mid nIn nOut f hm =>
    ModD.keeps hk (fun _ _ _ _ _ _ => trivial) hm (fun _ _ => trivial)
      (fun d hd => hd.imp id fun e => Nat.le_of_eq e.symm)
  have hemp : Empty (Circuit.new c0.storage) := ⟨rfl, rfl, rfl⟩
  have hrun : ∀ i : { ins : List Bool // ins.length = nIn }, RunsC w1 w.circs.length (x (stor.numModule, w.circs.length))
      (Circuit.new c0.storage) fun m c' => m = stor.numModule ∧ Bld w1 w.circs.length ⟨c0.storage, N⟩ c' ∧
        Outs w1 w.circs.length i.1 c' (f i.1) ∧ c'.inputLen = nIn := fun i =>
    h w1 w.circs.length ⟨c0.storage, N⟩ stor.numModule (Circuit.new c0.storage) i.1 hmod hb hemp i.2
  have hinh : Inhabited { ins : List Bool // ins.length = nIn } := ⟨⟨List.replicate nIn false, by simp⟩⟩
  obtain ⟨m, c', hx, hall⟩ := RunsC.forall hb.lt hrun
  rw [hself] at hx
  obtain ⟨hm, hb', _, hin⟩ := hall default
  subst hm
  refine ⟨stor.numModule, w1.setC w.circs.length c', by rw [bind_ok he]; exact hx, ⟨hb'.wf, ?_, ?_, fun h => hb'.valid (ValidRun.subCircuit he h)⟩, ?_⟩
  · refine ⟨?_, hk.stores⟩
    intro y c _ hy
    have := lt_of_getElem? hy
    rw [setC_get_ne _ (by omega)]
    exact hk.circ y c trivial hy
  · intro s st' m q h1 h2 h3
    have h1 : w1.stores[s]? = some st' := h1
    by_cases hse : s = c0.storage
    · subst hse
      rw [hst1] at h1; cases h1
      simp only [Storage.register, Map.insert_apply] at h2
      split at h2
      · cases h2; omega
      · exact ⟨stor, hs, h2⟩
    · subst hw1
      simp only at h1
      rw [List.getElem?_set_ne (fun e => hse e.symm)] at h1
      exact ⟨st', h1, h2⟩
  · have hout : c'.outputLen = nOut := by
      have h1 := (hall default).2.2.1.1
      rw [hf _ (default : { ins : List Bool // ins.length = nIn }).2] at h1
      exact h1.symm
    refine ⟨w.circs.length, c', _, hst1, ?_, ?_, hb'.get, hin, hout, ?_, hb'.evaluable, ?_⟩
    · simp [Storage.register]
    · intro d hd
      have hks : Keeps (· ≠ w.circs.length) w1 (w1.setC w.circs.length c') := keeps_setC c'
      refine .mk (fun e => by omega) hb'.get ?_ ?_
      · intro g nIn nOut ids oi mid hg
        obtain ⟨mr, mc, h1, _⟩ := hb'.calls g nIn nOut ids oi mid hg
        exact ⟨mr, hks.module? h1⟩
      · rintro q ⟨g, nIn, nOut, ids, oi, mid, hg, hm⟩
        obtain ⟨mr, mc, h1, h2, h3, _⟩ := hb'.calls g nIn nOut ids oi mid hg
        have := hks.module? h1
        rw [hm] at this; cases this
        exact (h3 d hd).keeps hks (not_called_closed hbase) h2.ne
    · have := hb'.room
      have := hb'.wfc.wires
      omega
    · intro ins hl
      obtain ⟨_, _, ho, _⟩ := hall ⟨ins, hl⟩
      exact ⟨c', hb'.get, by omega, ho.1, ho.2⟩

/-- the two operand vectors at the start of most builders -/
theorem RunsC.two {w : World} {s : Ref} {K : Ctx} {c : Circuit} {ins : List Bool} (hb : Bld w s K c) (he : Empty c)
    (n : Nat) (hl : ins.length = 2 * n) {α} {k : List GateId → List GateId → M α} {Q : α → Circuit → Prop}
    (h : ∀ a b c', Bld w s K c' → c'.outputLen = 0 → c'.inputLen = 2 * n →
      All2 (V w s ins c') a (ins.take n) → All2 (V w s ins c') b (ins.drop n) → RunsC w s (k a b) c' Q) :
    RunsC w s (do let a ← M.replicate (CC.input s) n; let b ← M.replicate (CC.input s) n; k a b) c Q := by
  have h0 := he.inputLen
  refine RunsC.seq (RunsC.inputs (ins := ins) hb he.outputLen n (by omega)) ?_
  rintro a c1 ⟨h1, h2, h3, h4, h5⟩
  refine RunsC.seq (RunsC.inputs (ins := ins) h1.bld (h1.outputLen.trans he.outputLen) n (by omega)) ?_
  rintro b c2 ⟨k1, k2, k3, k4, k5⟩
  rw [h0] at h2 h5
  rw [h2] at k2 k5
  refine h a b c2 k1.bld (k1.outputLen.trans (h1.outputLen.trans he.outputLen)) (by omega) ?_ ?_
  · exact k1.vs h1.bld (by simpa using h5)
  · have e : (ins.drop (0 + n)).take n = ins.drop n := by
      rw [Nat.zero_add, List.take_of_length_le]; simp; omega
    rw [e] at k5; exact k5

end CC
