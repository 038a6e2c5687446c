import Verif.Spec.Cost
import Verif.Proofs.Session

/-!
# Counting gates

`Spends E s x Q`: if program `x` succeeds, it only changes circuit `s`, and `Q` holds of its result and of the counters it added.
`E mid k` lists module ids that can be called and the counters of the called circuits.
-/

namespace CC
open Spec

@[simp] theorem cost_add_gates (a b : Cost) : (a + b).gates = a.gates + b.gates := rfl
@[simp] theorem cost_add_consts (a b : Cost) : (a + b).consts = a.consts + b.consts := rfl
@[simp] theorem cost_add_ins (a b : Cost) : (a + b).ins = a.ins + b.ins := rfl
@[simp] theorem cost_add_outs (a b : Cost) : (a + b).outs = a.outs + b.outs := rfl
@[simp] theorem cost_zero_gates : (0 : Cost).gates = 0 := rfl
@[simp] theorem cost_zero_consts : (0 : Cost).consts = 0 := rfl
@[simp] theorem cost_zero_ins : (0 : Cost).ins = 0 := rfl
@[simp] theorem cost_zero_outs : (0 : Cost).outs = 0 := rfl

theorem cost_add_assoc (a b c : Cost) : a + b + c = a + (b + c) := by ext <;> simp <;> omega
@[simp] theorem cost_add_zero (a : Cost) : a + 0 = a := rfl
@[simp] theorem cost_zero_add (a : Cost) : 0 + a = a := by ext <;> simp

/-- sum over a list -/
def totalCost {α : Type} (k : α → Cost) : List α → Cost
  | [] => 0
  | x :: xs => k x + totalCost k xs

/-- the modules that can be called -/
abbrev Table := ModuleId → Cost → Prop

/-- the module table of storage `sr` contains the modules of `E`, defined by circuits not before `lo` -/
structure EnvOk (E : Table) (lo : Nat) (w : World) (sr : StoreRef) : Prop where
  fresh : ∃ st, w.stores[sr]? = some st ∧ ∀ m q, st.moduleMap m = some q → m < st.numModule ∧ q < w.circs.length
  mods : ∀ mid k, E mid k → ∃ st q m, w.stores[sr]? = some st ∧ st.moduleMap mid = some q ∧ lo ≤ q ∧ w.circs[q]? = some m ∧
    counts m = k

/-- `EnvOk` for the circuits other than `s` -/
def EnvFor (E : Table) (lo : Nat) (s : Ref) (w : World) : Prop :=
  ∃ c, w.circs[s]? = some c ∧ EnvOk E lo w c.storage ∧ ∀ mid k, E mid k → w.module? c mid ≠ some s

theorem EnvFor.set {E : Table} {lo : Nat} {s : Ref} {w : World} (h : EnvFor E lo s w) {c c' : Circuit} (hc : w.circs[s]? = some c)
    (hs : c'.storage = c.storage) : EnvFor E lo s (w.setC s c') := by
  obtain ⟨d, hd, h1, h2⟩ := h
  rw [hc] at hd
  cases hd
  refine ⟨c', setC_get hc _, ⟨?_, ?_⟩, ?_⟩
  · obtain ⟨st, k1, k2⟩ := h1.fresh
    refine ⟨st, by rw [hs]; exact k1, fun m q hq => ⟨(k2 m q hq).1, ?_⟩⟩
    simp only [World.setC, List.length_set]
    exact (k2 m q hq).2
  · intro mid k hk
    obtain ⟨st, q, m, k1, k2, k3, k4, k5⟩ := h1.mods mid k hk
    refine ⟨st, q, m, by rw [hs]; exact k1, k2, k3, ?_, k5⟩
    rw [setC_get_ne]
    · exact k4
    · rintro rfl
      refine h2 mid k hk ?_
      unfold World.module?
      rw [k1]
      exact k2
  · intro mid k hk hm
    refine h2 mid k hk ?_
    unfold World.module? at hm ⊢
    rw [hs] at hm
    exact hm

/-- see above -/
def Spends (E : Table) (lo : Nat) (s : Ref) {α : Type} (x : M α) (Q : α → Cost → Prop) : Prop :=
  ∀ w a w', EnvFor E lo s w → x w = (.ok a, w') → ∃ k, Added s w w' k ∧ Q a k

section
variable {E : Table} {lo : Nat} {s : Ref} {α β : Type}

theorem Spends.mono {x : M α} {Q Q' : α → Cost → Prop} (h : Spends E lo s x Q) (hq : ∀ a k, Q a k → Q' a k) : Spends E lo s x Q' := by
  intro w a w' hw hx
  obtain ⟨k, h1, h2⟩ := h w a w' hw hx
  exact ⟨k, h1, hq a k h2⟩

theorem added_refl {w : World} {c : Circuit} (hc : w.circs[s]? = some c) : Added s w w 0 := by
  obtain ⟨h, e⟩ := List.getElem?_eq_some_iff.mp hc
  refine ⟨c, c, hc, ?_, rfl, rfl⟩
  simp only [World.setC, ← e, List.set_getElem_self]

theorem Spends.pure {a : α} {Q : α → Cost → Prop} (h : Q a 0) : Spends E lo s (Pure.pure a) Q := by
  intro w b w' hw hx
  cases hx
  obtain ⟨c, hc, _⟩ := hw
  exact ⟨0, added_refl hc, h⟩

theorem Spends.bind {x : M α} {f : α → M β} {Q : β → Cost → Prop}
    (h : Spends E lo s x fun a k => Spends E lo s (f a) fun b k' => Q b (k + k')) : Spends E lo s (x >>= f) Q := by
  intro w b w' hw hx
  rw [M.bind_apply] at hx
  rcases e : x w with ⟨a | a, w1⟩
  · rw [e] at hx; cases hx
  rw [e] at hx
  obtain ⟨k, ⟨c, c1, hc, rfl, hs, hk⟩, h2⟩ := h w a w1 hw e
  obtain ⟨k', ⟨c2, c3, hc2, rfl, hs', hk'⟩, h4⟩ := h2 _ b w' (hw.set hc hs) hx
  rw [setC_get hc] at hc2
  cases hc2
  refine ⟨k + k', ⟨c, c3, hc, setC_setC _ _, hs'.trans hs, ?_⟩, h4⟩
  rw [hk', hk, cost_add_assoc]

/-- first a program with known cost -/
theorem Spends.seq {x : M α} {f : α → M β} {P : α → Cost → Prop} {Q : β → Cost → Prop} (h : Spends E lo s x P)
    (hf : ∀ a k, P a k → Spends E lo s (f a) fun b k' => Q b (k + k')) : Spends E lo s (x >>= f) Q :=
  Spends.bind (h.mono hf)

theorem Spends.throw {e : Err} {Q : α → Cost → Prop} : Spends E lo s (M.throw e : M α) Q := by
  intro w a w' _ hx; cases hx

theorem Spends.expect {x : M α} {Q : α → Cost → Prop} (h : Spends E lo s x Q) : Spends E lo s (M.expect x) Q := by
  intro w a w' hw hx
  refine h w a w' hw ?_
  unfold M.expect at hx
  rcases e : x w with ⟨err | b, w1⟩
  · rw [e] at hx
    cases err <;> cases hx
  · rw [e] at hx
    exact hx

theorem Spends.idx {l : List α} {i : Nat} {Q : α → Cost → Prop} (h : ∀ a, Q a 0) : Spends E lo s (M.idx l i) Q := by
  unfold M.idx
  split
  · exact Spends.pure (h _)
  · exact Spends.throw

theorem Spends.on {f : Circuit → Except Err α × Circuit} {Q : α → Cost → Prop}
    (h : ∀ c a, (f c).1 = .ok a → (f c).2.storage = c.storage ∧ ∃ k, counts (f c).2 = counts c + k ∧ Q a k) :
    Spends E lo s (M.onCircuit s f) Q := by
  intro w a w' hw hx
  obtain ⟨c, hc, _⟩ := hw
  unfold M.onCircuit at hx
  rw [hc] at hx
  simp only [Prod.mk.injEq] at hx
  obtain ⟨h1, rfl⟩ := hx
  obtain ⟨h2, k, h3, h4⟩ := h c a h1
  exact ⟨k, ⟨c, _, hc, rfl, h2, h3⟩, h4⟩

theorem counts_addDependence (c : Circuit) (x g : GateId) : counts (c.addDependence x g) = counts c ∧ (c.addDependence x g).storage = c.storage := by
  unfold Circuit.addDependence
  split <;> exact ⟨rfl, rfl⟩

theorem Spends.input {Q : GateId → Cost → Prop} (h : ∀ g, Q g ⟨0, 0, 1, 0⟩) : Spends E lo s (input s) Q :=
  Spends.on fun _ a _ => ⟨rfl, _, rfl, h a⟩

theorem Spends.constant {v : Bool} {Q : GateId → Cost → Prop} (h : ∀ g, Q g ⟨0, 1, 0, 0⟩) : Spends E lo s (constant s v) Q :=
  Spends.on fun _ a _ => ⟨rfl, _, rfl, h a⟩

theorem Spends.output {g : GateId} {Q : WireId → Cost → Prop} (h : ∀ i, Q i ⟨0, 0, 0, 1⟩) : Spends E lo s (output s g) Q := by
  refine Spends.on fun c a ha => ?_
  rcases e : c.output g with ⟨r, c'⟩
  rw [e] at ha
  unfold Circuit.output at e
  split at e
  · cases e
    cases ha
  · cases e
    exact ⟨rfl, _, rfl, h a⟩

theorem Spends.not {x : GateId} {Q : GateId → Cost → Prop} (h : ∀ g, Q g ⟨1, 0, 0, 0⟩) : Spends E lo s (not s x) Q := by
  refine Spends.on fun c a _ => ?_
  have h1 := counts_addDependence (c.addGate (.not x)).2 x c.gateIndex
  refine ⟨h1.2, ⟨1, 0, 0, 0⟩, ?_, h a⟩
  have h2 := Cost.ext_iff.mp h1.1
  refine Cost.ext (congrArg (· + 1) h2.1) h2.2.1 h2.2.2.1 h2.2.2.2

theorem two_deps (c : Circuit) (gate : Gate) (x y g : GateId) :
    let d := ((c.addGate gate).2.addDependence x g).addDependence y g
    counts { d with numGate := d.numGate + 1 } = counts c + ⟨1, 0, 0, 0⟩ ∧ d.storage = c.storage := by
  have h1 := counts_addDependence (c.addGate gate).2 x g
  have h2 := counts_addDependence ((c.addGate gate).2.addDependence x g) y g
  have h3 := Cost.ext_iff.mp (h2.1.trans h1.1)
  exact ⟨Cost.ext (congrArg (· + 1) h3.1) h3.2.1 h3.2.2.1 h3.2.2.2, h2.2.trans h1.2⟩

theorem Spends.xor {x y : GateId} {Q : GateId → Cost → Prop} (h : ∀ g, Q g ⟨1, 0, 0, 0⟩) : Spends E lo s (xor s x y) Q :=
  Spends.on fun c a _ => ⟨(two_deps c (.xor x y) x y c.gateIndex).2, _, (two_deps c (.xor x y) x y c.gateIndex).1, h a⟩

theorem Spends.and {x y : GateId} {Q : GateId → Cost → Prop} (h : ∀ g, Q g ⟨1, 0, 0, 0⟩) : Spends E lo s (and s x y) Q :=
  Spends.on fun c a _ => ⟨(two_deps c (.and x y) x y c.gateIndex).2, _, (two_deps c (.and x y) x y c.gateIndex).1, h a⟩

theorem Spends.or {x y : GateId} {Q : GateId → Cost → Prop} (h : ∀ g, Q g ⟨1, 0, 0, 0⟩) : Spends E lo s (or s x y) Q :=
  Spends.on fun c a _ => ⟨(two_deps c (.or x y) x y c.gateIndex).2, _, (two_deps c (.or x y) x y c.gateIndex).1, h a⟩

theorem Spends.equivalent {x y : GateId} {Q : GateId → Cost → Prop} (h : ∀ g, Q g ⟨2, 0, 0, 0⟩) : Spends E lo s (equivalent s x y) Q :=
  Spends.bind (Spends.xor fun _ => Spends.not fun g => h g)

theorem counts_addModuleGates (nIn nOut : Nat) (ids : List GateId) (mid : ModuleId) (k : Nat) : ∀ (c : Circuit) (i : Nat),
    counts (c.addModuleGates nIn nOut ids mid i k).2 = counts c ∧ (c.addModuleGates nIn nOut ids mid i k).2.storage = c.storage ∧
      (c.addModuleGates nIn nOut ids mid i k).1.length = k := by
  induction k with
  | zero => exact fun c i => ⟨rfl, rfl, rfl⟩
  | succ k ih =>
    intro c i
    obtain ⟨h1, h2, h3⟩ := ih (c.addGate (.module nIn nOut ids i mid)).2 (i + 1)
    exact ⟨h1, h2, by simp only [Circuit.addModuleGates, List.length_cons, h3]⟩

theorem counts_addModuleDeps (ids outs : List GateId) : ∀ c : Circuit,
    counts (c.addModuleDeps ids outs) = counts c ∧ (c.addModuleDeps ids outs).storage = c.storage := by
  have h1 (x : GateId) (outs : List GateId) : ∀ c : Circuit,
      counts (outs.foldl (fun c o => c.addDependence x o) c) = counts c ∧
        (outs.foldl (fun c o => c.addDependence x o) c).storage = c.storage := by
    induction outs with
    | nil => exact fun _ => ⟨rfl, rfl⟩
    | cons o outs ih =>
      intro c
      have := counts_addDependence c x o
      exact ⟨(ih _).1.trans this.1, (ih _).2.trans this.2⟩
  unfold Circuit.addModuleDeps
  induction ids with
  | nil => exact fun _ => ⟨rfl, rfl⟩
  | cons x ids ih =>
    intro c
    exact ⟨(ih _).1.trans (h1 x outs c).1, (ih _).2.trans (h1 x outs c).2⟩

theorem Spends.module {mid : ModuleId} {k : Cost} (hE : E mid k) {ids : List GateId} {Q : List GateId → Cost → Prop}
    (h : ∀ gs : List GateId, gs.length = k.outs → Q gs ⟨k.gates, k.consts, 0, 0⟩) : Spends E lo s (module s mid ids) Q := by
  intro w a w' hw hx
  obtain ⟨c, hc, h1, h2⟩ := hw
  obtain ⟨st, q, m, k1, k2, _, k4, rfl⟩ := h1.mods mid k hE
  have hm : w.module? c mid = some q := by unfold World.module?; rw [k1]; exact k2
  have hne : q ≠ s := by rintro rfl; exact h2 mid _ hE hm
  unfold CC.module at hx
  simp only [hc, hm, if_neg hne, k4, Prod.mk.injEq] at hx
  obtain ⟨hx, rfl⟩ := hx
  refine ⟨⟨m.numGate, m.numConst, 0, 0⟩, ⟨c, _, hc, rfl, ?_⟩, ?_⟩
  · unfold Circuit.module at hx ⊢
    split at hx
    · cases hx
    split at hx
    · cases hx
    next e1 e2 =>
    rw [if_neg e1, if_neg e2]
    have g1 := counts_addModuleGates m.inputLen m.outputLen ids mid m.outputLen ({ c with
      numWire := c.numWire + (m.numWire - m.inputLen - m.outputLen)
      numGate := c.numGate + m.numGate
      numConst := c.numConst + m.numConst } : Circuit) 0
    have g2 := counts_addModuleDeps ids (({ c with
      numWire := c.numWire + (m.numWire - m.inputLen - m.outputLen)
      numGate := c.numGate + m.numGate
      numConst := c.numConst + m.numConst } : Circuit).addModuleGates m.inputLen m.outputLen ids mid 0 m.outputLen).1
      (({ c with
      numWire := c.numWire + (m.numWire - m.inputLen - m.outputLen)
      numGate := c.numGate + m.numGate
      numConst := c.numConst + m.numConst } : Circuit).addModuleGates m.inputLen m.outputLen ids mid 0 m.outputLen).2
    exact ⟨g2.2.trans g1.2.1, g2.1.trans g1.1⟩
  · refine h a ?_
    unfold Circuit.module at hx
    split at hx
    · cases hx
    split at hx
    · cases hx
    cases hx
    exact (counts_addModuleGates m.inputLen m.outputLen ids mid m.outputLen _ 0).2.2

/-! ### loops -/

theorem Spends.mapList {f : α → M β} {k : α → Cost} (xs : List α) : ∀ {Q : List β → Cost → Prop},
    (∀ x ∈ xs, Spends E lo s (f x) fun _ k' => k' = k x) → (∀ ys : List β, ys.length = xs.length → Q ys (totalCost k xs)) →
    Spends E lo s (M.mapList f xs) Q := by
  induction xs with
  | nil => intro Q _ h; exact Spends.pure (h [] rfl)
  | cons x xs ih =>
    intro Q hf h
    unfold M.mapList
    refine Spends.seq (hf x List.mem_cons_self) fun y _ hk => ?_
    refine Spends.bind (ih (fun z hz => hf z (List.mem_cons_of_mem _ hz)) fun ys hys => Spends.pure ?_)
    rw [hk]
    exact h (y :: ys) (by simp [hys])

theorem Spends.foldList {σ : Type} {f : σ → α → M σ} {k : α → Cost} {I : σ → Prop} (xs : List α) : ∀ {Q : σ → Cost → Prop} {a : σ},
    I a → (∀ x ∈ xs, ∀ a, I a → Spends E lo s (f a x) fun a' k' => I a' ∧ k' = k x) →
    (∀ a, I a → Q a (totalCost k xs)) → Spends E lo s (M.foldList f a xs) Q := by
  induction xs with
  | nil => intro Q a ha _ h; exact Spends.pure (h a ha)
  | cons x xs ih =>
    intro Q a ha hf h
    unfold M.foldList
    refine Spends.seq (hf x List.mem_cons_self a ha) fun a' _ hk => ?_
    refine ih hk.1 (fun z hz => hf z (List.mem_cons_of_mem _ hz)) fun b hb => ?_
    rw [hk.2]
    exact h b hb

theorem Spends.replicate {x : M α} {k : Cost} (hx : Spends E lo s x fun _ k' => k' = k) (n : Nat) : ∀ {Q : List α → Cost → Prop},
    (∀ ys : List α, ys.length = n → Q ys ⟨n * k.gates, n * k.consts, n * k.ins, n * k.outs⟩) → Spends E lo s (M.replicate x n) Q := by
  induction n with
  | zero =>
    intro Q h
    refine Spends.pure ?_
    have := h [] rfl
    simp only [Nat.zero_mul] at this
    exact this
  | succ n ih =>
    intro Q h
    unfold M.replicate
    refine Spends.seq hx fun y _ hk => ?_
    refine Spends.bind (ih fun ys hys => Spends.pure ?_)
    have := h (y :: ys) (by simp [hys])
    rw [hk]
    have e : k + (⟨n * k.gates, n * k.consts, n * k.ins, n * k.outs⟩ + 0) =
        (⟨(n + 1) * k.gates, (n + 1) * k.consts, (n + 1) * k.ins, (n + 1) * k.outs⟩ : Cost) := by
      ext <;> simp <;> rw [Nat.succ_mul] <;> omega
    rw [e]
    exact this

end

theorem totalCost_const {α : Type} (k : Cost) (xs : List α) :
    totalCost (fun _ => k) xs = ⟨xs.length * k.gates, xs.length * k.consts, xs.length * k.ins, xs.length * k.outs⟩ := by
  induction xs with
  | nil => ext <;> simp [totalCost]
  | cons x xs ih => rw [totalCost, ih]; ext <;> simp <;> rw [Nat.succ_mul] <;> omega

end CC
