import Verif.Proofs.Cost
import Verif.Proofs.FpC
import Mathlib.Tactic.Ring

/-!
# The sizes of the module circuits
-/

set_option linter.unnecessarySeqFocus false

namespace CC
open Spec Logic Arith

section
variable {E : Table} {lo : Nat} {s : Ref}

theorem Spends.inputs {n : Nat} {Q : List GateId → Cost → Prop} (h : ∀ gs : List GateId, gs.length = n → Q gs ⟨0, 0, n, 0⟩) :
    Spends E lo s (M.replicate (CC.input s) n) Q := by
  refine Spends.replicate (k := ⟨0, 0, 1, 0⟩) (Spends.input fun _ => rfl) n fun ys hys => ?_
  have := h ys hys
  simpa using this

theorem Spends.consts {v : Bool} {n : Nat} {Q : List GateId → Cost → Prop}
    (h : ∀ gs : List GateId, gs.length = n → Q gs ⟨0, n, 0, 0⟩) : Spends E lo s (M.replicate (CC.constant s v) n) Q := by
  refine Spends.replicate (k := ⟨0, 1, 0, 0⟩) (Spends.constant fun _ => rfl) n fun ys hys => ?_
  have := h ys hys
  simpa using this

/-- a loop whose rounds all cost the same -/
theorem Spends.mapConst {α β : Type} {f : α → M β} {xs : List α} (k : Cost) {Q : List β → Cost → Prop}
    (hf : ∀ x ∈ xs, Spends E lo s (f x) fun _ k' => k' = k)
    (h : ∀ ys : List β, ys.length = xs.length →
      Q ys ⟨xs.length * k.gates, xs.length * k.consts, xs.length * k.ins, xs.length * k.outs⟩) :
    Spends E lo s (M.mapList f xs) Q := by
  refine Spends.mapList (k := fun _ => k) xs hf fun ys hys => ?_
  rw [totalCost_const]
  exact h ys hys

theorem Spends.foldConst {α σ : Type} {f : σ → α → M σ} {xs : List α} {a : σ} (k : Cost) (I : σ → Prop) {Q : σ → Cost → Prop}
    (ha : I a) (hf : ∀ x ∈ xs, ∀ a, I a → Spends E lo s (f a x) fun a' k' => I a' ∧ k' = k)
    (h : ∀ a, I a → Q a ⟨xs.length * k.gates, xs.length * k.consts, xs.length * k.ins, xs.length * k.outs⟩) :
    Spends E lo s (M.foldList f a xs) Q := by
  refine Spends.foldList (k := fun _ => k) (I := I) xs ha hf fun b hb => ?_
  rw [totalCost_const]
  exact h b hb

theorem length_rangeFromTo (a b : Nat) : (rangeFromTo a b).length = b - a := by simp [rangeFromTo]

end

/-! ### one module -/

/-- the table with one more module -/
def Table.with (E : Table) (mid : ModuleId) (k : Cost) : Table := fun m k' => E m k' ∨ (m = mid ∧ k' = k)

/-- `x` makes a circuit of size `k` and returns its module id -/
def Sized (E : Table) (lo : Nat) (r : Ref) (x : M ModuleId) (k : Cost) : Prop :=
  ∀ w mid w', EnvFor E lo r w → lo ≤ w.circs.length → x w = (.ok mid, w') →
    EnvFor (E.with mid k) lo r w' ∧ lo ≤ w'.circs.length

theorem Sized.of {E : Table} {lo : Nat} {r : Ref} {k : Cost} {body : ModuleId × Ref → M ModuleId}
    (h : ∀ mid s, Spends E lo s (body (mid, s)) fun m k' => m = mid ∧ k' = k) : Sized E lo r (subCircuit r >>= body) k := by
  intro w mid w' hw hlo hx
  obtain ⟨c, hc, he, hne⟩ := hw
  obtain ⟨st, hst, hf⟩ := he.fresh
  have hr := lt_of_getElem? hc
  have e1 : subCircuit r w = (.ok ((st.register w.circs.length).1, w.circs.length),
      { circs := w.circs ++ [Circuit.new c.storage], stores := w.stores.set c.storage (st.register w.circs.length).2 }) := by
    unfold subCircuit
    simp only [hc]
    rw [M.bind_apply]
    unfold newCircuit
    simp only [hst]
    rw [M.bind_apply]
    unfold registerModule
    simp only [List.getElem?_append_left hr, hc, List.getElem?_concat_length, hst]
    rfl
  rw [M.bind_apply, e1] at hx
  have hsl : c.storage < w.stores.length := (List.getElem?_eq_some_iff.mp hst).1
  have hE1 : ∀ mid k, E mid k → ∃ q m, st.moduleMap mid = some q ∧ lo ≤ q ∧ w.circs[q]? = some m ∧ counts m = k ∧
      (st.register w.circs.length).2.moduleMap mid = some q := by
    intro mid k hk
    obtain ⟨st', q, m, h1, h2, h3, h4, h5⟩ := he.mods mid k hk
    rw [hst] at h1
    cases h1
    refine ⟨q, m, h2, h3, h4, h5, ?_⟩
    have := (hf mid q h2).1
    unfold Storage.register
    simp only [Map.insert]
    rw [if_neg (by omega)]
    exact h2
  have hnew : (w.circs ++ [Circuit.new c.storage])[w.circs.length]? = some (Circuit.new c.storage) := by simp
  have henv : EnvFor E lo w.circs.length { circs := w.circs ++ [Circuit.new c.storage], stores := w.stores.set c.storage (st.register w.circs.length).2 } := by
    refine ⟨Circuit.new c.storage, hnew, ⟨?_, ?_⟩, ?_⟩
    · refine ⟨(st.register w.circs.length).2, List.getElem?_set_self hsl, ?_⟩
      intro m q hq
      simp only [List.length_append, List.length_cons, List.length_nil]
      unfold Storage.register at hq ⊢
      simp only [Map.insert] at hq ⊢
      split at hq
      · cases hq
        omega
      · have := hf m q hq
        omega
    · intro m k hk'
      obtain ⟨q, mc, _, h2, h3, h4, h5⟩ := hE1 m k hk'
      have := lt_of_getElem? h3
      refine ⟨(st.register w.circs.length).2, q, mc, List.getElem?_set_self hsl, h5, h2, ?_, h4⟩
      simp only [List.getElem?_append_left this, h3]
    · intro m k hk' hm
      obtain ⟨q, mc, h1, h2, h3, h4, h5⟩ := hE1 m k hk'
      have := lt_of_getElem? h3
      unfold World.module? at hm
      have e : (w.stores.set c.storage (st.register w.circs.length).2)[(Circuit.new c.storage).storage]? =
        some (st.register w.circs.length).2 := List.getElem?_set_self hsl
      simp only [e, h5] at hm
      cases hm
      omega
  obtain ⟨k', ⟨d, d', hd, rfl, hs, hk⟩, rfl, rfl⟩ := h _ _ _ _ _ henv hx
  rw [hnew] at hd
  cases hd
  refine ⟨⟨c, ?_, ⟨?_, ?_⟩, ?_⟩, ?_⟩
  · rw [setC_get_ne _ (by omega)]
    simp only [List.getElem?_append_left hr, hc]
  · refine ⟨(st.register w.circs.length).2, by simp only [World.setC]; rw [List.getElem?_set_self hsl], ?_⟩
    intro m q hq
    simp only [World.setC, List.length_set, List.length_append, List.length_cons, List.length_nil]
    unfold Storage.register at hq ⊢
    simp only [Map.insert] at hq ⊢
    split at hq
    · cases hq
      omega
    · have := hf m q hq
      omega
  · intro m k hk'
    refine ⟨(st.register w.circs.length).2, ?_⟩
    rcases hk' with hk' | ⟨rfl, rfl⟩
    · obtain ⟨q, mc, _, h2, h3, h4, h5⟩ := hE1 m k hk'
      have := lt_of_getElem? h3
      refine ⟨q, mc, by simp only [World.setC]; rw [List.getElem?_set_self hsl], h5, h2, ?_, h4⟩
      rw [setC_get_ne _ (by omega)]
      simp only [List.getElem?_append_left this, h3]
    · refine ⟨w.circs.length, d', by simp only [World.setC]; rw [List.getElem?_set_self hsl], ?_, hlo, setC_get hnew _, ?_⟩
      · unfold Storage.register
        simp [Map.insert]
      · rw [hk]
        ext <;> simp [counts, Circuit.new]
  · intro m k hk' hm
    unfold World.module? at hm
    simp only [World.setC] at hm
    rw [List.getElem?_set_self hsl] at hm
    rcases hk' with hk' | ⟨rfl, rfl⟩
    · obtain ⟨q, mc, h1, h2, h3, h4, h5⟩ := hE1 m k hk'
      simp only [h5] at hm
      refine hne m k hk' ?_
      unfold World.module?
      rw [hst]
      simp only [h1, hm]
    · have hm : (st.register w.circs.length).2.moduleMap (st.register w.circs.length).1 = some r := hm
      unfold Storage.register at hm
      simp [Map.insert] at hm
      omega
  · simp only [World.setC, List.length_set, List.length_append, List.length_cons, List.length_nil]
    omega

/-! ### sums -/

theorem totalCost_append {α : Type} (k : α → Cost) (xs ys : List α) : totalCost k (xs ++ ys) = totalCost k xs + totalCost k ys := by
  induction xs with
  | nil => simp [totalCost]
  | cons x xs ih => simp only [List.cons_append, totalCost, ih, cost_add_assoc]

theorem two_dvd_succ (n : Nat) : 2 * (n * (n + 1) / 2) = n * (n + 1) := by
  refine Nat.mul_div_cancel' ?_
  rcases Nat.mod_two_eq_zero_or_one n with h | h
  · exact Nat.dvd_mul_right_of_dvd (Nat.dvd_of_mod_eq_zero h) _
  · exact Nat.dvd_mul_left_of_dvd (Nat.dvd_of_mod_eq_zero (by omega)) _

theorem mul_rounds (n a : Nat) : totalCost (fun i => ⟨(n - i) + a, i, 0, 0⟩) (List.range n) =
    ⟨n * (n + 1) / 2 + n * a, n * (n - 1) / 2, 0, 0⟩ := by
  have h : ∀ m, m ≤ n → 2 * (totalCost (fun i => ⟨(n - i) + a, i, 0, 0⟩) (List.range m)).gates + m * m = m * (2 * n + 1) + 2 * (m * a) ∧
      2 * (totalCost (fun i => ⟨(n - i) + a, i, 0, 0⟩) (List.range m)).consts + m = m * m ∧
      (totalCost (fun i => ⟨(n - i) + a, i, 0, 0⟩) (List.range m)).ins = 0 ∧
      (totalCost (fun i => ⟨(n - i) + a, i, 0, 0⟩) (List.range m)).outs = 0 := by
    intro m
    induction m with
    | zero => intro _; simp [totalCost]
    | succ m ih =>
      intro hm
      obtain ⟨h1, h2, h3, h4⟩ := ih (by omega)
      rw [List.range_succ, totalCost_append]
      simp only [cost_add_gates, cost_add_consts, cost_add_ins, cost_add_outs, totalCost, cost_zero_gates, cost_zero_consts,
        cost_zero_ins, cost_zero_outs, h3, h4]
      have e1 : m * (2 * n + 1) = 2 * (m * n) + m := by ring
      have e2 : (m + 1) * (2 * n + 1) = 2 * (m * n) + m + 2 * n + 1 := by ring
      have e3 : (m + 1) * (m + 1) = m * m + 2 * m + 1 := by ring
      have e4 : (m + 1) * a = m * a + a := by ring
      rw [e1] at h1
      rw [e2, e3, e4]
      exact ⟨by omega, by omega, trivial, trivial⟩
  obtain ⟨h1, h2, h3, h4⟩ := h n (Nat.le_refl _)
  ext
  · have := two_dvd_succ n
    simp only [Nat.mul_add, Nat.mul_one, Nat.mul_left_comm n 2 n] at h1 this ⊢
    omega
  · have : n * (n - 1) = n * n - n := by rw [Nat.mul_sub, Nat.mul_one]
    have := Nat.le_mul_self n
    simp only
    omega
  · exact h3
  · exact h4

/-! ### the builders -/

section
variable {E : Table} {lo : Nat} {r : Ref} {n : Nat}

macro "spend" : tactic => `(tactic| repeat with_reducible (first
  | (refine Spends.bind ?_)
  | (refine Spends.pure ?_)
  | (refine Spends.idx fun _ => ?_)
  | (refine Spends.inputs fun _ _ => ?_)
  | (refine Spends.consts fun _ _ => ?_)
  | (refine Spends.output fun _ => ?_)
  | (refine Spends.constant fun _ => ?_)
  | (refine Spends.not fun _ => ?_)
  | (refine Spends.and fun _ => ?_)
  | (refine Spends.or fun _ => ?_)
  | (refine Spends.xor fun _ => ?_)
  | (refine Spends.equivalent fun _ => ?_)))

theorem sized_not : Sized E lo r (buildNot r n) ⟨n, 0, n, n⟩ := by
  unfold buildNot
  refine Sized.of fun mid s => ?_
  simp only []
  spend
  refine Spends.mapConst ⟨1, 0, 0, 1⟩ (fun i _ => ?_) fun _ _ => ?_
  · spend; rfl
  · spend
    refine ⟨rfl, ?_⟩
    ext <;> simp

theorem sized_and : Sized E lo r (buildAnd r n) ⟨n, 0, 2 * n, n⟩ := by
  unfold buildAnd
  refine Sized.of fun mid s => ?_
  simp only []
  spend
  refine Spends.mapConst ⟨1, 0, 0, 1⟩ (fun i _ => ?_) fun _ _ => ?_
  · spend; rfl
  · spend
    refine ⟨rfl, ?_⟩
    ext <;> simp <;> omega

theorem sized_or : Sized E lo r (buildOr r n) ⟨n, 0, 2 * n, n⟩ := by
  unfold buildOr
  refine Sized.of fun mid s => ?_
  simp only []
  spend
  refine Spends.mapConst ⟨1, 0, 0, 1⟩ (fun i _ => ?_) fun _ _ => ?_
  · spend; rfl
  · spend
    refine ⟨rfl, ?_⟩
    ext <;> simp <;> omega

theorem sized_xor : Sized E lo r (buildXor r n) ⟨n, 0, 2 * n, n⟩ := by
  unfold buildXor
  refine Sized.of fun mid s => ?_
  simp only []
  spend
  refine Spends.mapConst ⟨1, 0, 0, 1⟩ (fun i _ => ?_) fun _ _ => ?_
  · spend; rfl
  · spend
    refine ⟨rfl, ?_⟩
    ext <;> simp <;> omega

theorem sized_eq : Sized E lo r (buildEq r n) (eqCost n) := by
  unfold buildEq
  refine Sized.of fun mid s => ?_
  simp only []
  spend
  refine Spends.foldConst ⟨3, 0, 0, 0⟩ (fun _ => True) trivial (fun i _ a _ => ?_) fun _ _ => ?_
  · spend; exact ⟨trivial, rfl⟩
  · spend
    refine ⟨rfl, ?_⟩
    ext <;> simp [eqCost] <;> omega

theorem sized_neq {eqMid : ModuleId} (h : E eqMid (eqCost n)) : Sized E lo r (buildNeq r n eqMid) (neqCost n) := by
  unfold buildNeq
  refine Sized.of fun mid s => ?_
  simp only []
  spend
  refine Spends.module h fun _ _ => ?_
  spend
  refine ⟨rfl, ?_⟩
  ext <;> simp [eqCost, neqCost] <;> omega

theorem sized_add : Sized E lo r (buildAdd r n) (addCost n) := by
  unfold buildAdd
  refine Sized.of fun mid s => ?_
  simp only []
  by_cases hn : n = 0
  · subst hn
    refine Spends.bind (Spends.inputs fun _ _ => ?_)
    refine Spends.bind (Spends.inputs fun _ _ => ?_)
    refine Spends.bind (Spends.pure ?_)
    refine Spends.bind ?_
    unfold M.idx
    exact Spends.throw
  spend
  refine Spends.mapConst ⟨2, 0, 0, 0⟩ (fun i _ => ?_) fun _ _ => ?_
  · spend; rfl
  spend
  refine Spends.foldConst ⟨2, 0, 0, 0⟩ (fun _ => True) trivial (fun i _ a _ => ?_) fun _ _ => ?_
  · spend; exact ⟨trivial, rfl⟩
  spend
  refine Spends.mapConst ⟨2, 0, 0, 1⟩ (fun i _ => ?_) fun _ _ => ?_
  · spend; rfl
  · spend
    refine ⟨rfl, ?_⟩
    ext <;> simp [addCost, length_rangeFromTo] <;> omega

theorem sized_sub {addMid : ModuleId} (hn : 1 ≤ n) (h : E addMid (addCost n)) : Sized E lo r (Arith.buildSub r n addMid) (subCost n) := by
  unfold Arith.buildSub
  refine Sized.of fun mid s => ?_
  simp only []
  spend
  refine Spends.mapConst ⟨1, 0, 0, 0⟩ (fun i _ => ?_) fun _ _ => ?_
  · spend; rfl
  spend
  refine Spends.module h fun _ _ => ?_
  spend
  refine Spends.module h fun gs hgs => ?_
  spend
  refine Spends.mapConst ⟨0, 0, 0, 1⟩ (fun i _ => ?_) fun _ _ => ?_
  · spend; rfl
  · spend
    refine ⟨rfl, ?_⟩
    have : gs.length = n := hgs
    ext <;> simp [addCost, subCost, this] <;> omega

theorem sized_mul {addMid : ModuleId} (h : E addMid (addCost n)) : Sized E lo r (Arith.buildMul r n addMid) (mulCost n) := by
  unfold Arith.buildMul
  refine Sized.of fun mid s => ?_
  simp only []
  spend
  refine Spends.foldList (k := fun i => ⟨(n - i) + (6 * n - 3), i, 0, 0⟩) (I := fun _ => True) _ trivial (fun i _ a _ => ?_) fun _ _ => ?_
  · spend
    refine Spends.mapConst ⟨1, 0, 0, 0⟩ (fun i _ => ?_) fun _ _ => ?_
    · spend; rfl
    · refine Spends.module h fun gs hgs => ⟨trivial, ?_⟩
      ext <;> simp [addCost]
  rw [mul_rounds]
  spend
  refine Spends.mapConst ⟨0, 0, 0, 1⟩ (fun i _ => ?_) fun _ _ => ?_
  · spend; rfl
  · spend
    refine ⟨rfl, ?_⟩
    ext <;> simp [mulCost] <;> omega

theorem sized_mulExtend {addMid : ModuleId} (h : E addMid (addCost (2 * n))) :
    Sized E lo r (Arith.buildMulExtend r n addMid) (mulExtendCost n) := by
  unfold Arith.buildMulExtend
  refine Sized.of fun mid s => ?_
  simp only []
  spend
  refine Spends.foldConst ⟨n + (12 * n - 3), n, 0, 0⟩ (fun _ => True) trivial (fun i hi a _ => ?_) fun _ _ => ?_
  · spend
    refine Spends.mapConst ⟨1, 0, 0, 0⟩ (fun i _ => ?_) fun _ _ => ?_
    · spend; rfl
    · spend
      refine Spends.module h fun gs hgs => ⟨trivial, ?_⟩
      have := List.mem_range.mp hi
      ext <;> simp [addCost] <;> omega
  spend
  refine Spends.mapConst ⟨0, 0, 0, 1⟩ (fun i _ => ?_) fun _ _ => ?_
  · spend; rfl
  · spend
    refine ⟨rfl, ?_⟩
    ext <;> simp [mulExtendCost, Nat.mul_add] <;> omega

theorem sized_less {subMid : ModuleId} (h : E subMid (subCost n)) : Sized E lo r (buildLess r n subMid) (lessCost n) := by
  unfold buildLess
  refine Sized.of fun mid s => ?_
  simp only []
  spend
  refine Spends.module h fun _ _ => ?_
  spend
  split
  · exact Spends.throw
  spend
  refine ⟨rfl, ?_⟩
  ext <;> simp [lessCost, subCost] <;> omega

theorem sized_lessOrEq {lessMid eqMid : ModuleId} (hn : 1 ≤ n) (h : E lessMid (lessCost n)) (h' : E eqMid (eqCost n)) :
    Sized E lo r (buildLessOrEq r n lessMid eqMid) (lessOrEqCost n) := by
  unfold buildLessOrEq
  refine Sized.of fun mid s => ?_
  simp only []
  spend
  refine Spends.module h fun _ _ => ?_
  spend
  refine Spends.module h' fun _ _ => ?_
  spend
  refine ⟨rfl, ?_⟩
  ext <;> simp [lessCost, eqCost, lessOrEqCost] <;> omega

theorem sized_larger {m : ModuleId} (hn : 1 ≤ n) (h : E m (lessOrEqCost n)) : Sized E lo r (buildLarger r n m) (largerCost n) := by
  unfold buildLarger
  refine Sized.of fun mid s => ?_
  simp only []
  spend
  refine Spends.module h fun _ _ => ?_
  spend
  refine ⟨rfl, ?_⟩
  ext <;> simp [largerCost, lessOrEqCost] <;> omega

theorem sized_largerOrEq {m : ModuleId} (hn : 1 ≤ n) (h : E m (lessCost n)) : Sized E lo r (buildLargerOrEq r n m) (largerOrEqCost n) := by
  unfold buildLargerOrEq
  refine Sized.of fun mid s => ?_
  simp only []
  spend
  refine Spends.module h fun _ _ => ?_
  spend
  refine ⟨rfl, ?_⟩
  ext <;> simp [largerOrEqCost, lessCost] <;> omega

end

end CC
