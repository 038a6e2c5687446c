import Verif.Proofs.Waste
import Verif.Proofs.Checked
import Verif.Proofs.CostC
import Verif.Proofs.Mixed
import Verif.Spec.ReadBack

/-!
# Calls after which the text of a circuit cannot be read back
-/

namespace CC
open Spec Logic Arith

/-! ### programs that only call methods of one circuit -/

/-- the heap after `x` comes from the heap before by calls on circuit `r` -/
def PlaysOn (r : Ref) {α} (x : M α) : Prop := ∀ w, On r w (x w).2

namespace PlaysOn
variable {r : Ref}

theorem pure {α} (a : α) : PlaysOn r (Pure.pure a : M α) := fun _ => .refl

theorem throw {α} (e : Err) : PlaysOn r (M.throw e : M α) := fun _ => .refl

theorem bind {α β} {x : M α} {f : α → M β} (hx : PlaysOn r x) (hf : ∀ a, PlaysOn r (f a)) : PlaysOn r (x >>= f) := by
  intro w
  rw [M.bind_apply]
  have := hx w
  rcases h : x w with ⟨a | a, w'⟩
  · rw [h] at this; exact this
  · rw [h] at this; exact this.trans (hf a w')

theorem expect {α} {x : M α} (hx : PlaysOn r x) : PlaysOn r (M.expect x) := by
  intro w
  have := hx w
  unfold M.expect
  split <;> (rename_i h; rw [h] at this; exact this)

theorem replicate {α} {x : M α} (hx : PlaysOn r x) : ∀ n, PlaysOn r (M.replicate x n)
  | 0 => pure _
  | n + 1 => bind hx fun _ => bind (replicate hx n) fun _ => pure _

theorem mapList {α β} {f : α → M β} (hf : ∀ a, PlaysOn r (f a)) : ∀ l, PlaysOn r (M.mapList f l)
  | [] => pure _
  | a :: as => bind (hf a) fun _ => bind (mapList hf as) fun _ => pure _

theorem idx {α} (l : List α) (i : Nat) : PlaysOn r (M.idx l i) := by
  unfold M.idx; split
  · exact pure _
  · exact throw _

theorem op {α} {x : M α} (op : Op) (ht : op.target = some r) (h : ∀ w, (op.call w).2 = (x w).2) : PlaysOn r x := fun w => by
  have := On.step op (.refl (w := w)) ht
  rw [h] at this; exact this

theorem input : PlaysOn r (CC.input r) := .op (.input r) rfl (map_world _ _)
theorem output (g : GateId) : PlaysOn r (CC.output r g) := .op (.output r g) rfl (map_world _ _)
theorem constant (v : Bool) : PlaysOn r (CC.constant r v) := .op (.constant r v) rfl (map_world _ _)
theorem not (x : GateId) : PlaysOn r (CC.not r x) := .op (.not r x) rfl (map_world _ _)
theorem xor (x y : GateId) : PlaysOn r (CC.xor r x y) := .op (.xor r x y) rfl (map_world _ _)
theorem and (x y : GateId) : PlaysOn r (CC.and r x y) := .op (.and r x y) rfl (map_world _ _)
theorem or (x y : GateId) : PlaysOn r (CC.or r x y) := .op (.or r x y) rfl (map_world _ _)
theorem equivalent (x y : GateId) : PlaysOn r (CC.equivalent r x y) := .op (.equivalent r x y) rfl (map_world _ _)
theorem identity (x : GateId) : PlaysOn r (CC.identity r x) := .op (.identity r x) rfl (map_world _ _)
theorem module (mid : ModuleId) (ids : List GateId) : PlaysOn r (CC.module r mid ids) := .op (.module r mid ids) rfl (map_world _ _)

end PlaysOn

macro "stays" : tactic => `(tactic| repeat' with_reducible (first
  | exact PlaysOn.pure _ | exact PlaysOn.throw _ | exact PlaysOn.input | exact PlaysOn.output _ | exact PlaysOn.constant _
  | exact PlaysOn.not _ | exact PlaysOn.xor _ _ | exact PlaysOn.and _ _ | exact PlaysOn.or _ _
  | exact PlaysOn.equivalent _ _ | exact PlaysOn.identity _ | exact PlaysOn.module _ _
  | exact PlaysOn.idx _ _ | assumption
  | apply PlaysOn.expect | apply PlaysOn.replicate | apply PlaysOn.mapList | apply PlaysOn.bind
  | intro _ | split))

/-- if `x` succeeds, it only called methods of circuit `r`, and `Q` holds of the result -/
def Stays (r : Ref) {α} (x : M α) (Q : α → Prop) : Prop := ∀ w a w', x w = (.ok a, w') → On r w w' ∧ Q a

namespace Stays
variable {r : Ref}

theorem of {α} {x : M α} (h : PlaysOn r x) : Stays r x fun _ => True := by
  intro w a w' hx
  have := h w
  rw [hx] at this
  exact ⟨this, trivial⟩

theorem pure {α} {a : α} {Q : α → Prop} (h : Q a) : Stays r (Pure.pure a) Q := by
  intro w b w' hx
  cases hx
  exact ⟨.refl, h⟩

theorem throw {α} {e : Err} {Q : α → Prop} : Stays r (M.throw e) Q := by
  intro w b w' hx
  cases hx

theorem seq {α β} {x : M α} {f : α → M β} {P : α → Prop} {Q : β → Prop} (h : Stays r x P) (k : ∀ a, P a → Stays r (f a) Q) :
    Stays r (x >>= f) Q := by
  intro w b w' hx
  rw [M.bind_apply] at hx
  rcases e : x w with ⟨a | a, w1⟩
  · rw [e] at hx; cases hx
  · rw [e] at hx
    obtain ⟨h1, h2⟩ := h w a w1 e
    obtain ⟨h3, h4⟩ := k a h2 w1 b w' hx
    exact ⟨h1.trans h3, h4⟩

theorem andThen {α β} {x : M α} {f : α → M β} {Q : β → Prop} (h : PlaysOn r x) (k : ∀ a, Stays r (f a) Q) : Stays r (x >>= f) Q :=
  seq (of h) fun a _ => k a

end Stays

/-! ### what stays -/

theorem leW_later {w w' : World} (h : Later w w') : LeW w w' := by
  induction h with
  | refl => exact LeW.rfl'
  | step op _ ih => exact ih.trans ((callC_agrees op).le _)

/-- module `mid` of the circuit can be called, and its circuit has a constant, or a logic gate its outputs do not need -/
def Heavy (w : World) (r : Ref) (mid : ModuleId) : Prop :=
  ∃ c mr m, w.circs[r]? = some c ∧ w.module? c mid = some mr ∧ mr ≠ r ∧ w.circs[mr]? = some m ∧ 1 ≤ m.outputLen ∧
    m.inputLen + m.outputLen ≤ m.numWire ∧ (1 ≤ m.numConst ∨ ∃ d, IsLogic m d ∧ ¬ Needed m d)

/-- circuit `r` has constants, or calls another circuit with a logic gate that its outputs do not need -/
def Spoiled (w : World) (r : Ref) : Prop :=
  (∃ c, w.circs[r]? = some c ∧ 1 ≤ c.numConst) ∨
    ∃ c g mr m d, w.circs[r]? = some c ∧ IsCall w c g mr ∧ mr ≠ r ∧ w.circs[mr]? = some m ∧ IsLogic m d ∧ ¬ Needed m d

theorem Heavy.on {w w' : World} {r : Ref} {mid : ModuleId} (hw : WFw w) (h : Heavy w r mid) (ho : On r w w') : Heavy w' r mid := by
  obtain ⟨c, mr, m, h1, h2, h3, h4, h5⟩ := h
  obtain ⟨_, he⟩ := ext_of_later hw ho.later
  obtain ⟨c', hc', hx⟩ := he.circs r c h1
  exact ⟨c', mr, m, hc', he.module? hx.storage h2, h3, ho.other h3 h4, h5⟩

theorem Spoiled.on {w w' : World} {r : Ref} (hw : WFw w) (h : Spoiled w r) (ho : On r w w') : Spoiled w' r := by
  obtain ⟨_, he⟩ := ext_of_later hw ho.later
  rcases h with ⟨c, hc, hk⟩ | ⟨c, g, mr, m, d, h1, ⟨nIn, nOut, ids, mid, h2, h2'⟩, h3, h4, h5⟩
  · obtain ⟨c', hc', hle⟩ := (leW_later ho.later).circs r c hc
    exact .inl ⟨c', hc', Nat.le_trans hk hle.numConst⟩
  · obtain ⟨c', hc', hx⟩ := he.circs r c h1
    exact .inr ⟨c', g, mr, m, d, hc', ⟨nIn, nOut, ids, mid, hx.gates _ _ h2, he.module? hx.storage h2'⟩, h3, ho.other h3 h4, h5⟩

/-! ### programs that spoil -/

/-- if `H` holds, which stays true while calls on `r` are made, `x` spoils circuit `r` -/
def Spoils (r : Ref) (H : World → Prop) {α} (x : M α) : Prop :=
  ∀ w a w', WFw w → H w → x w = (.ok a, w') → Spoiled w' r

/-- `H` stays true while calls on `r` are made -/
def Kept (r : Ref) (H : World → Prop) : Prop := ∀ w w', WFw w → H w → On r w w' → H w'

namespace Spoils
variable {r : Ref} {H : World → Prop}

theorem first {α β} {x : M α} {f : α → M β} {P : α → Prop} {Q : β → Prop} (h : Spoils r H x) (hp : Stays r x P)
    (hf : ∀ a, P a → Stays r (f a) Q) : Spoils r H (x >>= f) := by
  intro w b w' hw hH hx
  rw [M.bind_apply] at hx
  rcases e : x w with ⟨a | a, w1⟩
  · rw [e] at hx; cases hx
  · rw [e] at hx
    obtain ⟨h1, h2⟩ := hp w a w1 e
    exact (h w a w1 hw hH e).on (ext_of_later hw h1.later).1 (hf a h2 w1 b w' hx).1

theorem after {α β} {x : M α} {f : α → M β} {P : α → Prop} (hk : Kept r H) (hp : Stays r x P) (h : ∀ a, P a → Spoils r H (f a)) :
    Spoils r H (x >>= f) := by
  intro w b w' hw hH hx
  rw [M.bind_apply] at hx
  rcases e : x w with ⟨a | a, w1⟩
  · rw [e] at hx; cases hx
  · rw [e] at hx
    obtain ⟨h1, h2⟩ := hp w a w1 e
    exact h a h2 w1 b w' (ext_of_later hw h1.later).1 (hk w w1 hw hH h1) hx

theorem replicate {α} {x : M α} (h : Spoils r H x) (hp : PlaysOn r x) {k : Nat} (hk : 1 ≤ k) : Spoils r H (M.replicate x k) := by
  obtain ⟨k, rfl⟩ : ∃ j, k = j + 1 := ⟨k - 1, by omega⟩
  exact first h (.of hp) fun _ _ => .of (.bind (.replicate hp _) fun _ => .pure _)

theorem expect {α} {x : M α} (h : Spoils r H x) : Spoils r H (M.expect x) := by
  intro w a w' hw hH hx
  unfold M.expect at hx
  split at hx <;> cases hx
  rename_i e
  exact h w _ _ hw hH e

theorem constant (v : Bool) : Spoils r H (CC.constant r v) := by
  intro w a w' hw hH hx
  unfold CC.constant at hx
  unfold M.onCircuit at hx
  cases hc : w.circs[r]? with
  | none => rw [hc] at hx; cases hx
  | some c =>
    rw [hc] at hx
    cases hx
    refine .inl ⟨_, setC_get hc _, ?_⟩
    simp [Circuit.constant, Circuit.addGate]

theorem module {mid : ModuleId} {ids : List GateId} (hh : ∀ w, H w → Heavy w r mid) : Spoils r H (CC.module r mid ids) := by
  intro w a w' hw hH hx
  obtain ⟨c, mr, m, h1, h2, h3, h4, h5, h6, h7⟩ := hh w hH
  obtain ⟨c', e1, e2⟩ := module_eq_ok (hw.circ r c h1) h1 h2 h3 h4 h6 ids
  rw [e1] at hx
  cases hx
  rcases h7 with h7 | ⟨d, h7, h8⟩
  · refine .inl ⟨c', setC_get h1 _, ?_⟩
    have := e2.numConst
    omega
  · refine .inr ⟨c', c.gateIndex, mr, m, d, setC_get h1 _, ⟨m.inputLen, m.outputLen, ids, mid, ?_, ?_⟩, h3, ?_, h7, h8⟩
    · have := e2.appends.gate c.gateIndex
      rw [if_neg (by omega), Nat.sub_self, moduleGates_get, if_pos (by omega)] at this
      exact this
    · rw [← h2]
      exact World.module?_congr rfl e2.appends.storage _
    · rw [setC_get_ne _ h3]; exact h4

end Spoils

/-! ### the modules of the configurations -/

theorem heavy_of_env {E : Table} {lo : Nat} {r : Ref} {w : World} {mid : ModuleId} {k : Cost} (hw : Reachable w)
    (h : EnvFor E lo r w) (hk : E mid k) (h1 : 1 ≤ k.consts) (h2 : 1 ≤ k.outs) (h3 : k.outs ≤ k.gates) : Heavy w r mid := by
  obtain ⟨c, hc, he, hne⟩ := h
  obtain ⟨st, q, m, k1, k2, _, k4, k5⟩ := he.mods mid k hk
  have hq : w.module? c mid = some q := by
    unfold World.module?
    rw [k1]
    exact k2
  have hs := wireSum_inv.reachable hw _ (List.mem_of_getElem? k4)
  have hs : m.numWire = m.inputLen + m.numConst + m.numGate := hs
  subst k5
  refine ⟨c, q, m, hc, hq, fun e => hne mid _ hk (e ▸ hq), k4, h2, ?_, .inl h1⟩
  have h3 : m.outputLen ≤ m.numGate := h3
  omega

/-- the modules of both configurations that spoil circuits -/
structure HeavyMods (ic : IntConfig) (bc : BitsConfig) (r : Ref) (w : World) : Prop where
  add : Heavy w r ic.addMid
  sub : Heavy w r ic.subMid
  mul : Heavy w r ic.mulMid
  eq : Heavy w r ic.eqMid
  neq : Heavy w r ic.neqMid
  less : Heavy w r ic.lessMid
  lessOrEq : Heavy w r ic.lessOrEqMid
  larger : Heavy w r ic.largerMid
  largerOrEq : Heavy w r ic.largerOrEqMid
  eqBits : Heavy w r bc.eqMid
  neqBits : Heavy w r bc.neqMid

theorem HeavyMods.kept {ic : IntConfig} {bc : BitsConfig} {r : Ref} : Kept r (HeavyMods ic bc r) := by
  intro w w' hw h ho
  exact ⟨h.add.on hw ho, h.sub.on hw ho, h.mul.on hw ho, h.eq.on hw ho, h.neq.on hw ho, h.less.on hw ho, h.lessOrEq.on hw ho,
    h.larger.on hw ho, h.largerOrEq.on hw ho, h.eqBits.on hw ho, h.neqBits.on hw ho⟩

theorem mul_outs {n : Nat} (hn : 1 ≤ n) : n ≤ n * (n + 1) / 2 + n * (6 * n - 3) := by
  have : n * 1 ≤ n * (6 * n - 3) := Nat.mul_le_mul_left n (by omega)
  omega

theorem configs_heavy {w w' : World} {r : Ref} {n : Nat} {ic : IntConfig} {bc : BitsConfig} (hw : Reachable w)
    (hx : Mixed.configs n r w = (.ok (ic, bc), w')) : Reachable w' ∧ ic.cref = r ∧ bc.cref = r ∧ HeavyMods ic bc r w' := by
  have hwf := WFw.of_reachable hw
  have hx0 := hx
  unfold Mixed.configs at hx
  rw [M.bind_apply] at hx
  rcases e1 : IntConfig.new r n w with ⟨a | ic1, w1⟩
  · rw [e1] at hx; cases hx
  rw [e1] at hx
  simp only at hx
  rw [M.bind_apply] at hx
  rcases e2 : BitsConfig.new r n w1 with ⟨a | bc1, w2⟩
  · rw [e2] at hx; cases hx
  rw [e2] at hx
  cases hx
  obtain ⟨c0, hr⟩ := intConfig_circ e1
  have hn := intConfig_pos e1
  have hl1 := plays_intConfig r n w
  rw [e1] at hl1
  have hl2 := plays_bitsConfig r n w1
  rw [e2] at hl2
  have hR1 := later_reachable hw hl1
  have hR2 := later_reachable hR1 hl2
  have hw1 := WFw.of_reachable hR1
  obtain ⟨E1, h1, h2, _, h4, h5⟩ := makes_int hn _ _ _ (envFor_start hwf hr) (Nat.le_refl _) e1
  obtain ⟨E2, k1, _, k3, k4, k5⟩ := makes_bits _ _ _ h1 h2 e2
  have h6 := h5.mono k3
  -- the adder
  obtain ⟨wa, ea, ha⟩ := intConfig_first hwf e1
  obtain ⟨c, m, d, hc, hmod, hmc, hd, hrl⟩ := buildAdd_idle hwf ea
  have hab : After w1 w' := by
    obtain ⟨bc', w2', e2', a2, _⟩ := bitsConfig_ok hw1 (ha.keeps.circ r c trivial hc) (Nat.zero_le _) n
    rw [e2] at e2'
    cases e2'
    exact a2
  have hac := ha.trans hab
  have hadd : Heavy w' r ic.addMid := by
    obtain ⟨c', hc', he, hne⟩ := k1
    obtain ⟨st, q, m', q1, q2, _, q4, q5⟩ := he.mods _ _ h6.add
    have hcw := hac.keeps.circ r c trivial hc
    have hmw := hac.keeps.circ _ m trivial hmc
    have hmodw := hac.keeps.module? (c := c) hmod
    rw [hcw] at hc'
    cases hc'
    have hq : w'.module? c ic.addMid = some q := by
      unfold World.module?
      rw [q1]
      exact q2
    rw [hmodw] at hq
    cases hq
    rw [hmw] at q4
    cases q4
    have hs : m.numWire = m.inputLen + m.numConst + m.numGate := wireSum_inv.reachable hR2 _ (List.mem_of_getElem? hmw)
    have e3 : m.numGate = 6 * n - 3 := congrArg Cost.gates q5
    have e4 : m.outputLen = n := congrArg Cost.outs q5
    exact ⟨c, _, m, hcw, hmodw, by omega, hmw, by omega, by omega, .inr ⟨d, hd.logic, hd.not_needed⟩⟩
  refine ⟨hR2, h4, k4, hadd, ?_, ?_, ?_, ?_, ?_, ?_, ?_, ?_, ?_, ?_⟩
  · exact heavy_of_env hR2 k1 h6.sub (by simp [subCost]; omega) (by simp [subCost]; omega) (by simp [subCost]; omega)
  · exact heavy_of_env hR2 k1 h6.mul (by simp only [mulCost]; omega) (by simp [mulCost]; omega) (mul_outs hn)
  · exact heavy_of_env hR2 k1 h6.eq (by simp [eqCost]) (by simp [eqCost]) (by simp [eqCost]; omega)
  · exact heavy_of_env hR2 k1 h6.neq (by simp [neqCost]) (by simp [neqCost]) (by simp [neqCost])
  · exact heavy_of_env hR2 k1 h6.less (by simp [lessCost]) (by simp [lessCost]) (by simp [lessCost]; omega)
  · exact heavy_of_env hR2 k1 h6.lessOrEq (by simp [lessOrEqCost]) (by simp [lessOrEqCost]) (by simp [lessOrEqCost]; omega)
  · exact heavy_of_env hR2 k1 h6.larger (by simp [largerCost]) (by simp [largerCost]) (by simp [largerCost]; omega)
  · exact heavy_of_env hR2 k1 h6.largerOrEq (by simp [largerOrEqCost]) (by simp [largerOrEqCost]) (by simp [largerOrEqCost]; omega)
  · exact heavy_of_env hR2 k1 k5.eq (by simp [eqCost]) (by simp [eqCost]) (by simp [eqCost]; omega)
  · exact heavy_of_env hR2 k1 k5.neq (by simp [neqCost]) (by simp [neqCost]) (by simp [neqCost])

/-! ### programs -/

section
open Mixed
variable {r : Ref} {ic : IntConfig} {bc : BitsConfig} {n : Nat} {env : List Handle}

/-- a value belongs to the configurations -/
def HandleOk (ic : IntConfig) (bc : BitsConfig) : Handle → Prop
  | .int x => x.config = ic
  | .bits x => x.config = bc
  | .bit _ => True

theorem idx_ok {α : Type} {l : List α} {i : Nat} {a : α} {w w' : World} (h : M.idx l i w = (.ok a, w')) : a ∈ l ∧ w' = w := by
  unfold M.idx at h
  cases e : l[i]? with
  | none => rw [e] at h; cases h
  | some b =>
    rw [e] at h
    cases h
    exact ⟨List.mem_of_getElem? e, rfl⟩

theorem Stays.idx {α : Type} {l : List α} {i : Nat} {Q : α → Prop} (h : ∀ a ∈ l, Q a) : Stays r (M.idx l i) Q := by
  intro w a w' hx
  obtain ⟨h1, rfl⟩ := idx_ok hx
  exact ⟨.refl, h a h1⟩

theorem Stays.int (h : ∀ a ∈ env, HandleOk ic bc a) (i : Nat) : Stays r (Mixed.int env i) fun x => x.config = ic := by
  refine .seq (.idx h) fun a ha => ?_
  cases a with
  | int x => exact .pure ha
  | bits x => exact .throw
  | bit x => exact .throw

theorem Stays.bits (h : ∀ a ∈ env, HandleOk ic bc a) (i : Nat) : Stays r (Mixed.bits env i) fun x => x.config = bc := by
  refine .seq (.idx h) fun a ha => ?_
  cases a with
  | int x => exact .throw
  | bits x => exact .pure ha
  | bit x => exact .throw

theorem Stays.bit (i : Nat) : Stays r (Mixed.bit env i) fun _ => True := by
  refine .of (.bind (.idx _ _) fun a => ?_)
  cases a with
  | int x => exact .throw _
  | bits x => exact .throw _
  | bit x => exact .pure _

theorem playsOn_compare {x y : AInt} {mid : ModuleId} (hx : x.config.cref = r) : PlaysOn r (AInt.compareWith mid x y n) := by
  subst hx
  unfold AInt.compareWith AInt.slices
  stays

theorem playsOn_from {ids : List GateId} : PlaysOn ic.cref (AInt.fromGateIds ic n ids) := by
  unfold AInt.fromGateIds
  stays

/-- every statement makes calls on the circuit only -/
theorem cmd_stays (hi : ic.cref = r) (hb : bc.cref = r) (he : ∀ a ∈ env, HandleOk ic bc a) (c : Cmd) :
    Stays r (c.build r ic bc n env) (HandleOk ic bc) := by
  have hI := fun i => Stays.int (r := r) he i
  have hB := fun i => Stays.bits (r := r) he i
  have hX := fun i => Stays.bit (r := r) (env := env) i
  -- two integers, and so on
  have ret : ∀ {x : M AInt}, Stays r x (fun z => z.config = ic) → Stays r (do return Handle.int (← x)) (HandleOk ic bc) :=
    fun h => .seq h fun _ ha => .pure ha
  have retB : ∀ {x : M Bits}, Stays r x (fun z => z.config = bc) → Stays r (do return Handle.bits (← x)) (HandleOk ic bc) :=
    fun h => .seq h fun _ ha => .pure ha
  have retG : ∀ {x : M GateId}, PlaysOn r x → Stays r (do return Handle.bit (← x)) (HandleOk ic bc) :=
    fun h => .seq (.of h) fun _ _ => .pure trivial
  have fromI : ∀ ids, Stays r (AInt.fromGateIds ic n ids) fun z => z.config = ic := by
    intro ids
    unfold AInt.fromGateIds
    split
    · exact .andThen (hi ▸ .replicate (.constant _) _) fun _ => .pure rfl
    · exact .throw
  have callI : ∀ {x : AInt} {mid : ModuleId} {ids : List GateId}, x.config = ic → Stays r (do
      let bits ← M.expect (CC.module x.config.cref mid ids)
      pure ({ val := bits, config := x.config } : AInt)) fun z => z.config = ic := by
    intro x mid ids hx
    rw [hx, hi]
    exact .andThen (.expect (.module _ _)) fun _ => .pure rfl
  have callB : ∀ {x : Bits} {mid : ModuleId} {ids : List GateId}, x.config = bc → Stays r (do
      let bits ← M.expect (CC.module x.config.cref mid ids)
      pure ({ bits := bits, config := x.config } : Bits)) fun z => z.config = bc := by
    intro x mid ids hx
    rw [hx, hb]
    exact .andThen (.expect (.module _ _)) fun _ => .pure rfl
  have cmp : ∀ {x y : AInt} {mid : ModuleId}, x.config = ic → PlaysOn r (AInt.compareWith mid x y n) :=
    fun hx => playsOn_compare (by rw [hx, hi])
  cases c with
  | newInt => exact ret (.andThen (hi ▸ .replicate .input _) fun _ => .pure rfl)
  | const v =>
    refine ret ?_
    unfold AInt.fromBiguint
    simp only
    split
    · exact .andThen (hi ▸ .mapList (fun _ => .constant _) _) fun _ => .andThen (hi ▸ .replicate (.constant _) _) fun _ => .pure rfl
    · exact .throw
  | zero => exact ret (fromI _)
  | one => exact ret (.andThen (hi ▸ .constant _) fun _ => fromI _)
  | add i j => exact .seq (hI i) fun x hx => .seq (hI j) fun y hy => ret (callI hx)
  | sub i j => exact .seq (hI i) fun x hx => .seq (hI j) fun y hy => ret (callI hx)
  | mul i j => exact .seq (hI i) fun x hx => .seq (hI j) fun y hy => ret (callI hx)
  | neg i =>
    refine .seq (hI i) fun x hx => ret ?_
    refine .seq (P := fun z => z.config = ic) ?_ fun z hz => callI hz
    intro w a w' h
    unfold M.expect at h
    split at h <;> cases h
    rename_i e
    rw [hx] at e
    exact fromI [] w _ _ e
  | shl i k =>
    refine .seq (hI i) fun x hx => ret (.andThen ?_ fun _ => .andThen (.mapList (fun _ => .idx _ _) _) fun _ => .pure hx)
    rw [hx, hi]
    exact .replicate (.constant _) _
  | shr i k =>
    refine .seq (hI i) fun x hx => ret ?_
    unfold AInt.shiftRight
    split
    · split
      · exact .seq (P := fun _ => False) .throw fun _ h => h.elim
      · exact .andThen (.idx _ _) fun _ => .throw
    · split
      · exact .seq (P := fun _ => False) .throw fun _ h => h.elim
      · exact .andThen (.idx _ _) fun _ => .andThen (.mapList (fun _ => .idx _ _) _) fun _ => .pure hx
  | eq i j => exact .seq (hI i) fun x hx => .seq (hI j) fun y hy => retG (cmp hx)
  | neq i j => exact .seq (hI i) fun x hx => .seq (hI j) fun y hy => retG (cmp hx)
  | less i j => exact .seq (hI i) fun x hx => .seq (hI j) fun y hy => retG (cmp hx)
  | lessOrEq i j => exact .seq (hI i) fun x hx => .seq (hI j) fun y hy => retG (cmp hx)
  | larger i j => exact .seq (hI i) fun x hx => .seq (hI j) fun y hy => retG (cmp hx)
  | largerOrEq i j => exact .seq (hI i) fun x hx => .seq (hI j) fun y hy => retG (cmp hx)
  | ofBit i => exact .seq (hX i) fun x _ => ret (fromI _)
  | toInt i => exact .seq (hB i) fun x _ => ret (fromI _)
  | newBits => exact retB (.andThen (hb ▸ .replicate .input _) fun _ => .pure rfl)
  | toBits i =>
    refine .seq (hI i) fun x _ => retB ?_
    unfold Bits.fromGateIds
    split
    · exact .andThen (hb ▸ .replicate (.constant _) _) fun _ => .pure rfl
    · exact .throw
  | notBits i => exact .seq (hB i) fun x hx => retB (callB hx)
  | andBits i j => exact .seq (hB i) fun x hx => .seq (hB j) fun y _ => retB (callB hx)
  | orBits i j => exact .seq (hB i) fun x hx => .seq (hB j) fun y _ => retB (callB hx)
  | xorBits i j => exact .seq (hB i) fun x hx => .seq (hB j) fun y _ => retB (callB hx)
  | eqBits i j =>
    refine .seq (hB i) fun x hx => .seq (hB j) fun y _ => retG (.bind ?_ fun _ => .idx _ _)
    rw [hx, hb]
    exact .module _ _
  | neqBits i j =>
    refine .seq (hB i) fun x hx => .seq (hB j) fun y _ => retG (.bind ?_ fun _ => .idx _ _)
    rw [hx, hb]
    exact .module _ _
  | mux s i j =>
    refine .seq (hX s) fun c _ => .seq (hB i) fun x hx => .seq (hB j) fun y _ => retB ?_
    unfold Bits.mux
    rw [hx, hb]
    refine .andThen (.not _) fun _ => .andThen (.mapList (fun _ => ?_) _) fun _ => .pure rfl
    stays
  | input => exact retG .input
  | constant b => exact retG (.constant b)
  | not i => exact .seq (hX i) fun x _ => retG (.not _)
  | and i j => exact .seq (hX i) fun x _ => .seq (hX j) fun y _ => retG (.and _ _)
  | or i j => exact .seq (hX i) fun x _ => .seq (hX j) fun y _ => retG (.or _ _)
  | xor i j => exact .seq (hX i) fun x _ => .seq (hX j) fun y _ => retG (.xor _ _)
  | equivalent i j => exact .seq (hX i) fun x _ => .seq (hX j) fun y _ => retG (.equivalent _ _)
  | identity i => exact .seq (hX i) fun x _ => retG (.identity _)

/-- the statements of `Cmd.Spoils` -/
theorem cmd_spoils (hi : ic.cref = r) (hb : bc.cref = r) (hn : 1 ≤ n) (he : ∀ a ∈ env, HandleOk ic bc a) {c : Cmd}
    (hc : c.Spoils n) : Spoils r (HeavyMods ic bc r) (c.build r ic bc n env) := by
  have hI := fun i => Stays.int (r := r) he i
  have hB := fun i => Stays.bits (r := r) he i
  have hX := fun i => Stays.bit (r := r) (env := env) i
  have hk : Kept r (HeavyMods ic bc r) := HeavyMods.kept
  have ret : ∀ {α : Type} {x : M α} {f : α → Handle}, Spoils r (HeavyMods ic bc r) x → PlaysOn r x →
      Spoils r (HeavyMods ic bc r) (do return f (← x)) := fun h hp => .first h (.of hp) fun _ _ => .of (.pure _)
  have callI : ∀ {x : AInt} {mid : ModuleId} {ids : List GateId}, (∀ w, HeavyMods ic bc r w → Heavy w r mid) →
      x.config = ic → Spoils r (HeavyMods ic bc r) (do
        let bits ← M.expect (CC.module x.config.cref mid ids)
        pure ({ val := bits, config := x.config } : AInt)) := by
    intro x mid ids hm hx
    rw [hx, hi]
    exact .first (.expect (.module hm)) (.of (.expect (.module _ _))) fun _ _ => .of (.pure _)
  have callP : ∀ {x : AInt} {mid : ModuleId} {ids : List GateId}, x.config = ic → PlaysOn r (do
        let bits ← M.expect (CC.module x.config.cref mid ids)
        pure ({ val := bits, config := x.config } : AInt)) := by
    intro x mid ids hx
    rw [hx, hi]
    exact .bind (.expect (.module _ _)) fun _ => .pure _
  have cmp : ∀ {x y : AInt} {mid : ModuleId}, (∀ w, HeavyMods ic bc r w → Heavy w r mid) → x.config = ic →
      Spoils r (HeavyMods ic bc r) (do return Handle.bit (← AInt.compareWith mid x y n)) := by
    intro x y mid hm hx
    refine ret ?_ (playsOn_compare (by rw [hx, hi]))
    unfold AInt.compareWith
    refine .after hk (.of (by unfold AInt.slices; stays)) fun ids _ => ?_
    rw [hx, hi]
    exact .first (.module hm) (.of (.module _ _)) fun _ _ => .of (.idx _ _)
  have cmpB : ∀ {x : Bits} {mid : ModuleId} {ids : List GateId}, (∀ w, HeavyMods ic bc r w → Heavy w r mid) → x.config = bc →
      Spoils r (HeavyMods ic bc r) (do
        let outs ← CC.module x.config.cref mid ids
        M.idx outs 0) := by
    intro x mid ids hm hx
    rw [hx, hb]
    exact .first (.module hm) (.of (.module _ _)) fun _ _ => .of (.idx _ _)
  have cmpP : ∀ {x : Bits} {mid : ModuleId} {ids : List GateId}, x.config = bc → PlaysOn r (do
        let outs ← CC.module x.config.cref mid ids
        M.idx outs 0) := by
    intro x mid ids hx
    rw [hx, hb]
    exact .bind (.module _ _) fun _ => .idx _ _
  have fromI : ∀ ids : List GateId, ids.length < n → Spoils r (HeavyMods ic bc r) (AInt.fromGateIds ic n ids) := by
    intro ids hl
    unfold AInt.fromGateIds
    rw [if_pos (by omega), hi]
    exact .first (.replicate (.constant _) (.constant _) (by omega)) (.of (.replicate (.constant _) _)) fun _ _ => .of (.pure _)
  have fromP : ∀ ids : List GateId, PlaysOn r (AInt.fromGateIds ic n ids) := fun ids => hi ▸ playsOn_from
  cases c with
  | const v =>
    have hpc : ∀ b, PlaysOn r (CC.constant ic.cref b) := fun b => hi ▸ .constant b
    have hp : PlaysOn r (AInt.fromBiguint ic n v) := by
      unfold AInt.fromBiguint
      simp only
      split
      · exact .bind (.mapList (fun b => hpc b) _) fun _ => .bind (.replicate (hpc _) _) fun _ => .pure _
      · exact .throw _
    refine ret ?_ hp
    unfold AInt.fromBiguint
    simp only
    generalize Utils.bytes2bitsLe (AInt.bytesLe v) = bs
    split
    · cases bs with
      | nil =>
        refine .after hk (.of (.pure _)) fun _ _ => .first (.replicate ?_ (hpc _) hn) (.of (.replicate (hpc _) _)) fun _ _ => .of (.pure _)
        rw [hi]; exact .constant _
      | cons b bs =>
        refine .first (.first ?_ (.of (hpc b)) fun _ _ => .of (.bind (.mapList (fun b => hpc b) _) fun _ => .pure _))
          (.of (.mapList (fun b => hpc b) _)) fun _ _ => .of (.bind (.replicate (hpc _) _) fun _ => .pure _)
        rw [hi]; exact .constant _
    · intro w a w' _ _ h; cases h
  | zero => exact ret (fromI _ hn) (fromP _)
  | one =>
    refine ret (.first (hi ▸ .constant _) (.of (hi ▸ .constant _)) fun _ _ => .of (fromP _)) ?_
    exact .bind (hi ▸ .constant _) fun _ => fromP _
  | add i j => exact .after hk (hI i) fun x hx => .after hk (hI j) fun y hy => ret (callI (fun w h => hx ▸ h.add) hx) (callP hx)
  | sub i j => exact .after hk (hI i) fun x hx => .after hk (hI j) fun y hy => ret (callI (fun w h => hx ▸ h.sub) hx) (callP hx)
  | mul i j => exact .after hk (hI i) fun x hx => .after hk (hI j) fun y hy => ret (callI (fun w h => hx ▸ h.mul) hx) (callP hx)
  | neg i =>
    refine .after hk (hI i) fun x hx => ?_
    have hz : Stays r (M.expect (AInt.zero x.config n)) fun z => z.config = ic := by
      intro w a w' h
      unfold M.expect at h
      split at h <;> cases h
      rename_i e
      unfold AInt.zero AInt.fromGateIds at e
      rw [hx] at e
      split at e
      · rw [hi] at e
        exact Stays.andThen (Q := fun z : AInt => z.config = ic) (.replicate (.constant _) _) (fun _ => .pure rfl) w _ _ e
      · cases e
    have hs : Spoils r (HeavyMods ic bc r) (M.expect (AInt.zero x.config n)) := by
      rw [hx]; exact .expect (fromI _ hn)
    refine .first (.first hs hz fun z hz => .of (callP hz)) (P := fun _ => True) ?_ fun _ _ => .of (.pure _)
    exact .seq hz fun z hz => .of (callP hz)
  | shl i k =>
    refine .after hk (hI i) fun x hx => ret (.first ?_ (P := fun _ => True) (Q := fun _ => True) (.of ?_) fun _ _ => .of ?_) ?_
    · rw [hx, hi]; exact .replicate (.constant _) (.constant _) hc
    · rw [hx, hi]; exact .replicate (.constant _) _
    · stays
    · refine .bind ?_ fun _ => ?_
      · rw [hx, hi]; exact .replicate (.constant _) _
      · stays
  | eq i j => exact .after hk (hI i) fun x hx => .after hk (hI j) fun y hy => cmp (fun w h => hx ▸ h.eq) hx
  | neq i j => exact .after hk (hI i) fun x hx => .after hk (hI j) fun y hy => cmp (fun w h => hx ▸ h.neq) hx
  | less i j => exact .after hk (hI i) fun x hx => .after hk (hI j) fun y hy => cmp (fun w h => hx ▸ h.less) hx
  | lessOrEq i j => exact .after hk (hI i) fun x hx => .after hk (hI j) fun y hy => cmp (fun w h => hx ▸ h.lessOrEq) hx
  | larger i j => exact .after hk (hI i) fun x hx => .after hk (hI j) fun y hy => cmp (fun w h => hx ▸ h.larger) hx
  | largerOrEq i j => exact .after hk (hI i) fun x hx => .after hk (hI j) fun y hy => cmp (fun w h => hx ▸ h.largerOrEq) hx
  | ofBit i => exact .after hk (hX i) fun x _ => ret (fromI _ hc) (fromP _)
  | eqBits i j => exact .after hk (hB i) fun x hx => .after hk (hB j) fun y hy => ret (cmpB (fun w h => hx ▸ h.eqBits) hx) (cmpP hx)
  | neqBits i j => exact .after hk (hB i) fun x hx => .after hk (hB j) fun y hy => ret (cmpB (fun w h => hx ▸ h.neqBits) hx) (cmpP hx)
  | constant b => exact ret (.constant _) (.constant _)
  | newInt | newBits | input | shr | toInt | toBits | notBits | andBits | orBits | xorBits | mux | not | and | or | xor
  | equivalent | identity => cases hc

/-- all statements -/
theorem build_stays (hi : ic.cref = r) (hb : bc.cref = r) : ∀ (p : List Cmd) (env : List Handle), (∀ a ∈ env, HandleOk ic bc a) →
    Stays r (Mixed.build r ic bc n p env) fun env' => ∀ a ∈ env', HandleOk ic bc a
  | [], env, he => .pure he
  | c :: p, env, he => .seq (cmd_stays hi hb he c) fun x hx => build_stays hi hb p _ fun a ha => by
    rcases List.mem_append.mp ha with h | h
    · exact he a h
    · rw [List.mem_singleton.mp h]; exact hx

theorem build_spoils (hi : ic.cref = r) (hb : bc.cref = r) (hn : 1 ≤ n) : ∀ (p : List Cmd) (env : List Handle),
    (∀ a ∈ env, HandleOk ic bc a) → (∃ c ∈ p, c.Spoils n) → Spoils r (HeavyMods ic bc r) (Mixed.build r ic bc n p env)
  | [], env, he, hp => by simp at hp
  | c :: p, env, he, hp => by
    have hext : ∀ x, HandleOk ic bc x → ∀ a ∈ env ++ [x], HandleOk ic bc a := fun x hx a ha => by
      rcases List.mem_append.mp ha with h | h
      · exact he a h
      · rw [List.mem_singleton.mp h]; exact hx
    by_cases hc : c.Spoils n
    · exact .first (cmd_spoils hi hb hn he hc) (cmd_stays hi hb he c) fun x hx => build_stays hi hb p _ (hext x hx)
    · refine .after HeavyMods.kept (cmd_stays hi hb he c) fun x hx => build_spoils hi hb hn p _ (hext x hx) ?_
      obtain ⟨d, hd, hs⟩ := hp
      rcases List.mem_cons.mp hd with rfl | hd
      · exact (hc hs).elim
      · exact ⟨d, hd, hs⟩

theorem playsOn_outputH (hi : ic.cref = r) (hb : bc.cref = r) {x : Handle} (hx : HandleOk ic bc x) : PlaysOn r (x.output r n) := by
  cases x with
  | int x =>
    show PlaysOn r (x.output n)
    unfold AInt.output
    rw [show x.config.cref = r from by rw [show x.config = ic from hx, hi]]
    stays
  | bits x =>
    show PlaysOn r (x.output n)
    unfold Bits.output
    rw [show x.config.cref = r from by rw [show x.config = bc from hx, hb]]
    stays
  | bit g => exact .bind (.output _) fun _ => .pure _

/-- a program with a statement of `Cmd.Spoils` -/
theorem compile_spoiled {w w' : World} (hw : Reachable w) {st : StoreRef} {p : List Cmd} {outs : List Nat}
    (hx : Mixed.compile st n p outs w = (.ok r, w')) (hp : ∃ c ∈ p, c.Spoils n) : Spoiled w' r := by
  unfold Mixed.compile at hx
  rw [M.bind_apply] at hx
  rcases e1 : newCircuit st w with ⟨a | s, w1⟩
  · rw [e1] at hx; cases hx
  rw [e1] at hx
  simp only at hx
  have hR1 : Reachable w1 := by
    have := plays_newCircuit st w
    rw [e1] at this
    exact later_reachable hw this
  rw [M.bind_apply] at hx
  rcases e2 : Mixed.configs n s w1 with ⟨a | ⟨ic, bc⟩, w2⟩
  · rw [e2] at hx; cases hx
  rw [e2] at hx
  simp only at hx
  obtain ⟨hR2, hi, hb, hh⟩ := configs_heavy hR1 e2
  have hn : 1 ≤ n := by
    unfold Mixed.configs at e2
    rw [M.bind_apply] at e2
    rcases e3 : IntConfig.new s n w1 with ⟨a | ic1, w3⟩
    · rw [e3] at e2; cases e2
    · exact intConfig_pos e3
  have hrest : Spoils s (HeavyMods ic bc s) (do
      let env ← Mixed.build s ic bc n p []
      let _ ← M.mapList (fun i => do let z ← M.idx env i; z.output s n) outs
      pure s) := by
    refine .first (build_spoils hi hb hn p [] (by simp) hp) (build_stays hi hb p [] (by simp)) (Q := fun _ => True) fun env he => ?_
    refine .seq (P := fun _ => True) ?_ fun _ _ => .pure trivial
    clear hx
    induction outs with
    | nil => exact .pure trivial
    | cons i outs ih =>
      refine .seq (.seq (.idx he) fun z hz => .of (playsOn_outputH hi hb hz)) fun _ _ => ?_
      exact .seq ih fun _ _ => .pure trivial
  have hsr : s = r := by
    rw [M.bind_apply] at hx
    rcases e3 : Mixed.build s ic bc n p [] w2 with ⟨a | env, w3⟩
    · rw [e3] at hx; cases hx
    rw [e3] at hx
    simp only at hx
    rw [M.bind_apply] at hx
    rcases e4 : M.mapList (fun i => do let z ← M.idx env i; z.output s n) outs w3 with ⟨a | u, w4⟩
    · rw [e4] at hx; cases hx
    rw [e4] at hx
    cases hx
    rfl
  subst hsr
  exact hrest w2 _ w' (WFw.of_reachable hR2) hh hx

end

end CC
