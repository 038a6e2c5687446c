import Verif.Proofs.CostB

/-!
# The sizes of the configurations and of the operations on values
-/

set_option linter.unnecessarySeqFocus false

namespace CC
open Spec Logic Arith

theorem EnvOk.sub {E E' : Table} {lo : Nat} {w : World} {sr : StoreRef} (h : EnvOk E lo w sr) (hE : ∀ m k, E' m k → E m k) :
    EnvOk E' lo w sr := ⟨h.fresh, fun m k hk => h.mods m k (hE m k hk)⟩

theorem EnvFor.sub {E E' : Table} {lo : Nat} {s : Ref} {w : World} (h : EnvFor E lo s w) (hE : ∀ m k, E' m k → E m k) :
    EnvFor E' lo s w := by
  obtain ⟨c, h1, h2, h3⟩ := h
  exact ⟨c, h1, h2.sub hE, fun m k hk => h3 m k (hE m k hk)⟩

/-- the modules of an integer configuration -/
structure IntEnv (E : Table) (n : Nat) (ic : IntConfig) : Prop where
  pos : 1 ≤ n
  add : E ic.addMid (addCost n)
  sub : E ic.subMid (subCost n)
  mul : E ic.mulMid (mulCost n)
  eq : E ic.eqMid (eqCost n)
  neq : E ic.neqMid (neqCost n)
  less : E ic.lessMid (lessCost n)
  lessOrEq : E ic.lessOrEqMid (lessOrEqCost n)
  larger : E ic.largerMid (largerCost n)
  largerOrEq : E ic.largerOrEqMid (largerOrEqCost n)

structure BitsEnv (E : Table) (n : Nat) (bc : BitsConfig) : Prop where
  not : E bc.notMid ⟨n, 0, n, n⟩
  and : E bc.andMid ⟨n, 0, 2 * n, n⟩
  or : E bc.orMid ⟨n, 0, 2 * n, n⟩
  xor : E bc.xorMid ⟨n, 0, 2 * n, n⟩
  eq : E bc.eqMid (eqCost n)
  neq : E bc.neqMid (neqCost n)

structure FieldEnv (E : Table) (n rExp : Nat) (cfg : Fp.FpConfig) : Prop where
  int : IntEnv E n cfg.intConfig
  add : E cfg.addMid (fieldAddCost n)
  sub : E cfg.subMid (fieldSubCost n)
  mul : E cfg.mulMid (fieldMulCost n rExp)
  red : E cfg.montRedMid (redCost n rExp)

/-- programs that make modules -/
def Makes (E : Table) (lo : Nat) (r : Ref) {α : Type} (x : M α) (Q : α → Table → Prop) : Prop :=
  ∀ w a w', EnvFor E lo r w → lo ≤ w.circs.length → x w = (.ok a, w') →
    ∃ E', EnvFor E' lo r w' ∧ lo ≤ w'.circs.length ∧ (∀ m k, E m k → E' m k) ∧ Q a E'

section
variable {E : Table} {lo : Nat} {r : Ref} {n : Nat}

theorem Makes.one {α : Type} {x : M ModuleId} {k : Cost} (h : Sized E lo r x k) {f : ModuleId → M α} {Q : α → Table → Prop}
    (hf : ∀ mid, Makes (E.with mid k) lo r (f mid) Q) : Makes E lo r (x >>= f) Q := by
  intro w a w' hw hlo hx
  rw [M.bind_apply] at hx
  rcases e : x w with ⟨mid | mid, w1⟩
  · rw [e] at hx; cases hx
  rw [e] at hx
  obtain ⟨h1, h2⟩ := h w mid w1 hw hlo e
  obtain ⟨E', k1, k2, k3, k4⟩ := hf mid w1 a w' h1 h2 hx
  exact ⟨E', k1, k2, fun m k hk => k3 m k (.inl hk), k4⟩

theorem Makes.pure {α : Type} {a : α} {Q : α → Table → Prop} (h : Q a E) : Makes E lo r (Pure.pure a) Q := by
  intro w b w' hw hlo hx
  cases hx
  exact ⟨E, hw, hlo, fun _ _ h => h, h⟩

theorem Makes.bind {α β : Type} {x : M α} {f : α → M β} {P : α → Table → Prop} {Q : β → Table → Prop} (h : Makes E lo r x P)
    (hf : ∀ a E', (∀ m k, E m k → E' m k) → P a E' → Makes E' lo r (f a) Q) : Makes E lo r (x >>= f) Q := by
  intro w a w' hw hlo hx
  rw [M.bind_apply] at hx
  rcases e : x w with ⟨b | b, w1⟩
  · rw [e] at hx; cases hx
  rw [e] at hx
  obtain ⟨E1, h1, h2, h3, h4⟩ := h w b w1 hw hlo e
  obtain ⟨E', k1, k2, k3, k4⟩ := hf b E1 h3 h4 w1 a w' h1 h2 hx
  exact ⟨E', k1, k2, fun m k hk => k3 m k (h3 m k hk), k4⟩

theorem Table.with_self {E : Table} {m : ModuleId} {k : Cost} : E.with m k m k := .inr ⟨rfl, rfl⟩
theorem Table.with_old {E : Table} {m m' : ModuleId} {k k' : Cost} (h : E m k) : E.with m' k' m k := .inl h

macro "intab" : tactic => `(tactic| repeat (first | exact Table.with_self | assumption | apply Table.with_old))

theorem makes_int : (hn : 1 ≤ n) → Makes E lo r (IntConfig.new r n) fun cfg E' => cfg.cref = r ∧ IntEnv E' n cfg := by
  intro hn
  unfold IntConfig.new
  refine Makes.one sized_add fun addMid => ?_
  refine Makes.one (sized_sub hn (by intab)) fun subMid => ?_
  refine Makes.one (sized_mul (by intab)) fun mulMid => ?_
  refine Makes.one sized_eq fun eqMid => ?_
  refine Makes.one (sized_neq (by intab)) fun neqMid => ?_
  refine Makes.one (sized_less (by intab)) fun lessMid => ?_
  refine Makes.one (sized_lessOrEq hn (by intab) (by intab)) fun lessOrEqMid => ?_
  refine Makes.one (sized_larger hn (by intab)) fun largerMid => ?_
  refine Makes.one (sized_largerOrEq hn (by intab)) fun largerOrEqMid => ?_
  refine Makes.pure ⟨rfl, hn, ?_, ?_, ?_, ?_, ?_, ?_, ?_, ?_, ?_⟩ <;> intab

theorem makes_bits : Makes E lo r (BitsConfig.new r n) fun cfg E' => cfg.cref = r ∧ BitsEnv E' n cfg := by
  unfold BitsConfig.new
  refine Makes.one sized_not fun _ => ?_
  refine Makes.one sized_and fun _ => ?_
  refine Makes.one sized_or fun _ => ?_
  refine Makes.one sized_xor fun _ => ?_
  refine Makes.one sized_eq fun _ => ?_
  refine Makes.one (sized_neq (by intab)) fun _ => ?_
  refine Makes.pure ⟨rfl, ?_, ?_, ?_, ?_, ?_, ?_⟩ <;> intab

theorem IntEnv.mono {E E' : Table} {ic : IntConfig} (h : IntEnv E n ic) (he : ∀ m k, E m k → E' m k) : IntEnv E' n ic :=
  ⟨h.pos, he _ _ h.add, he _ _ h.sub, he _ _ h.mul, he _ _ h.eq, he _ _ h.neq, he _ _ h.less, he _ _ h.lessOrEq, he _ _ h.larger,
    he _ _ h.largerOrEq⟩

theorem IntEnv.cref {E : Table} {ic : IntConfig} (h : IntEnv E n ic) (s : Ref) : IntEnv E n { ic with cref := s } :=
  ⟨h.pos, h.add, h.sub, h.mul, h.eq, h.neq, h.less, h.lessOrEq, h.larger, h.largerOrEq⟩

end

/-! ### integer values -/

section
variable {E : Table} {lo : Nat} {n : Nat} {ic : IntConfig} {x y : AInt} {Q : AInt → Cost → Prop} {R : GateId → Cost → Prop}

theorem Spends.anew (h : ∀ z : AInt, z.config = ic → z.val.length = n → Q z ⟨0, 0, n, 0⟩) : Spends E lo ic.cref (AInt.new ic n) Q := by
  unfold AInt.new
  refine Spends.bind (Spends.inputs fun gs hgs => Spends.pure ?_)
  exact h _ rfl hgs

theorem Spends.afrom {ids : List GateId} (h : ∀ z : AInt, z.config = ic → z.val.length = n → ids.length ≤ n → Q z ⟨0, n - ids.length, 0, 0⟩) :
    Spends E lo ic.cref (AInt.fromGateIds ic n ids) Q := by
  unfold AInt.fromGateIds
  split
  · next hl =>
    refine Spends.bind (Spends.consts fun gs hgs => Spends.pure ?_)
    exact h _ rfl (by simp [hgs]; omega) hl
  · exact Spends.throw

theorem Spends.abig {v : Nat} (h : ∀ z : AInt, z.config = ic → z.val.length = n → Q z ⟨0, n, 0, 0⟩) :
    Spends E lo ic.cref (AInt.fromBiguint ic n v) Q := by
  unfold AInt.fromBiguint
  simp only []
  split
  · next hl =>
    refine Spends.bind (Spends.mapConst ⟨0, 1, 0, 0⟩ (fun _ _ => Spends.constant fun _ => rfl) fun gs hgs => ?_)
    refine Spends.bind (Spends.consts fun gs' hgs' => Spends.pure ?_)
    have e : (⟨(Utils.bytes2bitsLe (AInt.bytesLe v)).length * 0, (Utils.bytes2bitsLe (AInt.bytesLe v)).length * 1,
        (Utils.bytes2bitsLe (AInt.bytesLe v)).length * 0, (Utils.bytes2bitsLe (AInt.bytesLe v)).length * 0⟩ : Cost) +
        (⟨0, n - (Utils.bytes2bitsLe (AInt.bytesLe v)).length, 0, 0⟩ + 0) = ⟨0, n, 0, 0⟩ := by
      ext <;> simp
      omega
    rw [e]
    exact h _ rfl (by simp [hgs, hgs']; omega)
  · exact Spends.throw

theorem Spends.azero (h : ∀ z : AInt, z.config = ic → z.val.length = n → Q z ⟨0, n, 0, 0⟩) : Spends E lo ic.cref (AInt.zero ic n) Q :=
  Spends.afrom fun z h1 h2 _ => h z h1 h2

theorem Spends.aone (hn : 1 ≤ n) (h : ∀ z : AInt, z.config = ic → z.val.length = n → Q z ⟨0, n, 0, 0⟩) :
    Spends E lo ic.cref (AInt.one ic n) Q := by
  unfold AInt.one
  refine Spends.bind (Spends.constant fun g => Spends.afrom fun z h1 h2 _ => ?_)
  have e : (⟨0, 1, 0, 0⟩ : Cost) + ⟨0, n - [g].length, 0, 0⟩ = ⟨0, n, 0, 0⟩ := by
    ext <;> simp
    omega
  rw [e]
  exact h z h1 h2

theorem Spends.aoutput {Q : Unit → Cost → Prop} (hx : x.config = ic) (h : Q () ⟨0, 0, 0, n⟩) : Spends E lo ic.cref (x.output n) Q := by
  subst hx
  unfold AInt.output
  refine Spends.bind (Spends.mapConst ⟨0, 0, 0, 1⟩ (fun i _ => Spends.bind (Spends.idx fun _ => Spends.output fun _ => rfl)) fun _ _ =>
    Spends.pure ?_)
  simpa using h

theorem Spends.acall {mid : ModuleId} {k : Cost} (hE : E mid k) (hx : x.config = ic) (h : ∀ z : AInt, z.config = ic → z.val.length = k.outs → Q z k.call) :
    Spends E lo ic.cref (do
      let bits ← M.expect (CC.module x.config.cref mid (x.val ++ y.val))
      Pure.pure (⟨bits, x.config⟩ : AInt)) Q := by
  subst hx
  exact Spends.bind (Spends.expect (Spends.module hE fun _ hgs => Spends.pure (h _ rfl hgs)))

theorem Spends.aadd (hE : IntEnv E n ic) (hx : x.config = ic) (h : ∀ z : AInt, z.config = ic → z.val.length = n → Q z (addCost n).call) :
    Spends E lo ic.cref (x.add y) Q := by
  subst hx
  exact Spends.acall hE.add rfl h

theorem Spends.asub (hE : IntEnv E n ic) (hx : x.config = ic) (h : ∀ z : AInt, z.config = ic → z.val.length = n → Q z (subCost n).call) :
    Spends E lo ic.cref (x.sub y) Q := by
  subst hx
  exact Spends.acall hE.sub rfl h

theorem Spends.amul (hE : IntEnv E n ic) (hx : x.config = ic) (h : ∀ z : AInt, z.config = ic → z.val.length = n → Q z (mulCost n).call) :
    Spends E lo ic.cref (x.mul y) Q := by
  subst hx
  exact Spends.acall hE.mul rfl h

theorem Spends.aneg (hE : IntEnv E n ic) (hx : x.config = ic)
    (h : ∀ z : AInt, z.config = ic → z.val.length = n → Q z (⟨0, n, 0, 0⟩ + (subCost n).call)) :
    Spends E lo ic.cref (x.neg n) Q := by
  subst hx
  unfold AInt.neg
  exact Spends.bind (Spends.expect (Spends.azero fun z hz _ => Spends.asub hE hz h))

theorem Spends.acompare {mid : ModuleId} {k : Cost} (hE : E mid k) (hx : x.config = ic) (h : ∀ g, R g k.call) :
    Spends E lo ic.cref (AInt.compareWith mid x y n) R := by
  subst hx
  unfold AInt.compareWith AInt.slices
  refine Spends.bind ?_
  split
  · exact Spends.throw
  split
  · exact Spends.throw
  refine Spends.pure (Spends.bind (Spends.module hE fun gs hgs => Spends.idx fun g => ?_))
  rw [cost_add_zero, cost_zero_add]
  exact h g

theorem Spends.ashiftLeft {k : Nat} (hx : x.config = ic) (h : ∀ z : AInt, z.config = ic → z.val.length = max k n → Q z ⟨0, k, 0, 0⟩) :
    Spends E lo ic.cref (x.shiftLeft n k) Q := by
  subst hx
  unfold AInt.shiftLeft
  refine Spends.bind (Spends.consts fun gs hgs => Spends.bind (Spends.mapConst 0 (fun _ _ => Spends.idx fun _ => rfl) fun ys hys =>
    Spends.pure ?_))
  have e : (⟨0, k, 0, 0⟩ : Cost) + (⟨(rangeFromTo k n).length * 0, (rangeFromTo k n).length * 0, (rangeFromTo k n).length * 0,
      (rangeFromTo k n).length * 0⟩ + 0) = ⟨0, k, 0, 0⟩ := by ext <;> simp
  rw [← e] at h
  exact h ⟨gs ++ ys, x.config⟩ rfl (by simp [hgs, hys, length_rangeFromTo]; omega)

theorem Spends.ashiftRight {k : Nat} (hx : x.config = ic) (h : ∀ z : AInt, z.config = ic → z.val.length = n → Q z 0) :
    Spends E lo ic.cref (x.shiftRight n k) Q := by
  subst hx
  unfold AInt.shiftRight
  simp only []
  split
  · exact Spends.bind Spends.throw
  refine Spends.bind (Spends.idx fun sign => ?_)
  split
  · exact Spends.throw
  refine Spends.bind (Spends.mapConst 0 (fun _ _ => Spends.idx fun _ => rfl) fun ys hys => Spends.pure ?_)
  have e : (0 : Cost) + (⟨(List.range (n - k)).length * 0, (List.range (n - k)).length * 0, (List.range (n - k)).length * 0,
      (List.range (n - k)).length * 0⟩ + 0) = 0 := by ext <;> simp
  rw [← e] at h
  exact h ⟨ys ++ List.replicate k sign, x.config⟩ rfl (by simp at hys; simp [hys]; omega)

end

/-! ### the field -/

macro "sumup" : tactic => `(tactic| (refine Cost.ext ?_ ?_ ?_ ?_ <;>
  (simp only [cost_add_gates, cost_add_consts, cost_add_ins, cost_add_outs, cost_zero_gates, cost_zero_consts, cost_zero_ins,
    cost_zero_outs, addCost, subCost, lessCost, largerCost, largerOrEqCost, Cost.call, List.length_cons, List.length_nil]; omega)))

section
variable {E : Table} {lo : Nat} {r : Ref} {n p rExp : Nat} {ic : IntConfig}

theorem sized_fieldAdd (h : IntEnv E n ic) : Sized E lo r (Fp.buildAdd r ic n p) (fieldAddCost n) := by
  unfold Fp.buildAdd
  refine Sized.of fun mid s => ?_
  simp only []
  have h := h.cref s
  have hp := h.pos
  refine Spends.bind (Spends.anew (ic := { ic with cref := s }) fun l hl _ => ?_)
  refine Spends.bind (Spends.anew (ic := { ic with cref := s }) fun q hq _ => ?_)
  refine Spends.bind (Spends.abig (ic := { ic with cref := s }) fun pI _ _ => ?_)
  refine Spends.bind (Spends.aadd h hl fun sum hsum _ => ?_)
  refine Spends.bind (Spends.acompare (by rw [hsum]; exact h.larger) hsum fun pl => ?_)
  refine Spends.bind (Spends.afrom (ic := { ic with cref := s }) fun pli hpli _ _ => ?_)
  refine Spends.bind (Spends.azero (ic := { ic with cref := s }) fun z hz _ => ?_)
  refine Spends.bind (Spends.aneg h hz fun nz hnz _ => ?_)
  refine Spends.bind (Spends.acompare (by rw [hsum]; exact h.less) hsum fun ml => ?_)
  refine Spends.bind (Spends.afrom (ic := { ic with cref := s }) fun mli hmli _ _ => ?_)
  refine Spends.bind (Spends.or fun _ => ?_)
  refine Spends.bind (Spends.not fun _ => ?_)
  refine Spends.bind (Spends.afrom (ic := { ic with cref := s }) fun ei hei _ _ => ?_)
  refine Spends.bind (Spends.asub h hsum fun smp hsmp _ => ?_)
  refine Spends.bind (Spends.amul h hpli fun t1 ht1 _ => ?_)
  refine Spends.bind (Spends.aadd h hsum fun spp hspp _ => ?_)
  refine Spends.bind (Spends.amul h hmli fun t2 ht2 _ => ?_)
  refine Spends.bind (Spends.aadd h ht1 fun o ho _ => ?_)
  refine Spends.bind (Spends.amul h hei fun t3 ht3 _ => ?_)
  refine Spends.bind (Spends.aadd h ho fun o' ho' _ => ?_)
  refine Spends.bind (Spends.aoutput ho' (Spends.pure ⟨rfl, ?_⟩))
  unfold fieldAddCost
  clear * - hp
  generalize mulCost n = m
  sumup

theorem sized_fieldSub {addMid : ModuleId} (h : IntEnv E n ic) (hA : E addMid (fieldAddCost n)) :
    Sized E lo r (Fp.buildSub r ic n addMid) (fieldSubCost n) := by
  unfold Fp.buildSub
  refine Sized.of fun mid s => ?_
  simp only []
  have h := h.cref s
  have hp := h.pos
  refine Spends.bind (Spends.anew (ic := { ic with cref := s }) fun l hl _ => ?_)
  refine Spends.bind (Spends.anew (ic := { ic with cref := s }) fun q hq _ => ?_)
  refine Spends.bind (Spends.aneg h hq fun nz hnz _ => ?_)
  refine Spends.bind (Spends.module hA fun os hos => ?_)
  refine Spends.bind (Spends.afrom (ic := { ic with cref := s }) fun o ho _ _ => ?_)
  refine Spends.bind (Spends.aoutput ho (Spends.pure ⟨rfl, ?_⟩))
  have hos : os.length = n := hos
  rw [hos]
  unfold fieldSubCost
  clear * - hp
  generalize fieldAddCost n = m
  sumup

theorem sized_red {pi : Nat} (h : IntEnv E n ic) : Sized E lo r (Fp.buildMontRed r ic n p pi rExp) (redCost n rExp) := by
  unfold Fp.buildMontRed
  refine Sized.of fun mid s => ?_
  simp only []
  have h := h.cref s
  have hp := h.pos
  refine Spends.bind (Spends.anew (ic := { ic with cref := s }) fun v hv _ => ?_)
  refine Spends.bind (Spends.abig (ic := { ic with cref := s }) fun pI _ _ => ?_)
  refine Spends.bind (Spends.abig (ic := { ic with cref := s }) fun piI _ _ => ?_)
  refine Spends.bind (Spends.amul h hv fun vp hvp _ => ?_)
  refine Spends.bind (Spends.constant fun fb => ?_)
  refine Spends.bind (Spends.foldConst ⟨1, 0, 0, 0⟩ (fun _ => True) trivial (fun i _ a _ => ?_) fun bits _ => ?_)
  · exact Spends.bind (Spends.idx fun _ => Spends.bind (Spends.and fun _ => Spends.pure ⟨trivial, rfl⟩))
  refine Spends.bind (Spends.amul h hvp fun vpp hvpp _ => ?_)
  refine Spends.bind (Spends.aadd h hv fun vv hvv _ => ?_)
  refine Spends.bind (Spends.ashiftRight hvv fun t ht _ => ?_)
  refine Spends.bind (Spends.acompare (by rw [ht]; exact h.largerOrEq) ht fun ge => ?_)
  refine Spends.bind (Spends.afrom (ic := { ic with cref := s }) fun gi hgi _ _ => ?_)
  refine Spends.bind (Spends.aone (ic := { ic with cref := s }) hp fun o ho _ => ?_)
  refine Spends.bind (Spends.asub h ho fun ei hei _ => ?_)
  refine Spends.bind (Spends.asub h ht fun ps hps _ => ?_)
  refine Spends.bind (Spends.amul h hgi fun t1 ht1 _ => ?_)
  refine Spends.bind (Spends.amul h hei fun t2 ht2 _ => ?_)
  refine Spends.bind (Spends.asub h ht1 fun o' ho' _ => ?_)
  refine Spends.bind (Spends.aoutput ho' (Spends.pure ⟨rfl, ?_⟩))
  rw [length_rangeFromTo]
  unfold redCost
  clear * - hp
  generalize mulCost n = m
  sumup

theorem sized_fieldMul {r2 : Nat} {redMid : ModuleId} (h : IntEnv E n ic) (hR : E redMid (redCost n rExp)) :
    Sized E lo r (Fp.buildMul r ic n r2 redMid) (fieldMulCost n rExp) := by
  unfold Fp.buildMul
  refine Sized.of fun mid s => ?_
  simp only []
  have h := h.cref s
  have hp := h.pos
  refine Spends.bind (Spends.anew (ic := { ic with cref := s }) fun l hl _ => ?_)
  refine Spends.bind (Spends.anew (ic := { ic with cref := s }) fun q hq _ => ?_)
  refine Spends.bind (Spends.amul h hl fun lr hlr _ => ?_)
  refine Spends.bind (Spends.module hR fun os hos => ?_)
  refine Spends.bind (Spends.afrom (ic := { ic with cref := s }) fun o ho _ _ => ?_)
  refine Spends.bind (Spends.abig (ic := { ic with cref := s }) fun r2I _ _ => ?_)
  refine Spends.bind (Spends.amul h ho fun lr2 hlr2 _ => ?_)
  refine Spends.bind (Spends.module hR fun os' hos' => ?_)
  refine Spends.bind (Spends.afrom (ic := { ic with cref := s }) fun o' ho' _ _ => ?_)
  refine Spends.bind (Spends.aoutput ho' (Spends.pure ⟨rfl, ?_⟩))
  have hos : os.length = n := hos
  have hos' : os'.length = n := hos'
  rw [hos, hos']
  unfold fieldMulCost
  clear * - hp
  generalize mulCost n = m
  generalize redCost n rExp = m'
  sumup

theorem makes_field (hn : 1 ≤ n) : Makes E lo r (fieldOver r n p rExp) fun cfg E' => cfg.cref = r ∧ cfg.intConfig.cref = r ∧
    FieldEnv E' n rExp cfg := by
  unfold fieldOver
  refine Makes.bind (makes_int hn) ?_
  rintro ic E1 _ ⟨hc, hi⟩
  unfold Fp.FpConfig.new
  simp only []
  split
  · intro w a w' _ _ hx; cases hx
  refine Makes.one (sized_fieldAdd hi) fun addMid => ?_
  have hi := hi.mono fun m k hk => Table.with_old (m' := addMid) (k' := fieldAddCost n) hk
  refine Makes.one (sized_fieldSub hi (by intab)) fun subMid => ?_
  have hi := hi.mono fun m k hk => Table.with_old (m' := subMid) (k' := fieldSubCost n) hk
  refine Makes.one (sized_red hi) fun redMid => ?_
  have hi := hi.mono fun m k hk => Table.with_old (m' := redMid) (k' := redCost n rExp) hk
  refine Makes.one (sized_fieldMul hi (by intab)) fun mulMid => ?_
  have hi := hi.mono fun m k hk => Table.with_old (m' := mulMid) (k' := fieldMulCost n rExp) hk
  refine Makes.pure ⟨rfl, hc, hi, ?_, ?_, ?_, ?_⟩ <;> intab

end

/-! ### later heaps -/

theorem envFor_start {w : World} {r : Ref} {c : Circuit} (hw : WFw w) (hc : w.circs[r]? = some c) :
    EnvFor (fun _ _ => False) w.circs.length r w := by
  have hs := hw.store r c hc
  refine ⟨c, hc, ⟨⟨_, List.getElem?_eq_getElem hs, fun m q hq => ⟨?_, ?_⟩⟩, fun _ _ h => h.elim⟩, fun _ _ h => h.elim⟩
  · exact (hw.mods _ _ (List.getElem?_eq_getElem hs) m).mp (by rw [hq]; rfl)
  · exact hw.mods_ref _ _ (List.getElem?_eq_getElem hs) m q hq

theorem envFor_since {E : Table} {w0 w1 w : World} {r : Ref} (hr : r < w0.circs.length) (hw1 : WFw w1) (hs : Since w0 w1 w)
    (h : EnvFor E w0.circs.length r w1) : EnvFor E w0.circs.length r w := by
  obtain ⟨c, hc, he, hne⟩ := h
  have hx := ext_of_later hw1 hs.later
  have hk := hs.keeps hw1
  obtain ⟨c', hc', hec⟩ := hx.2.circs _ _ hc
  have hsl := hx.1.store r c' hc'
  have hmod : ∀ mid k, E mid k → ∃ q m st, w.stores[c.storage]? = some st ∧ st.moduleMap mid = some q ∧ w0.circs.length ≤ q ∧
      w.circs[q]? = some m ∧ counts m = k := by
    intro mid k hk'
    obtain ⟨st, q, m, h1, h2, h3, h4, h5⟩ := he.mods mid k hk'
    obtain ⟨st', k1, k2⟩ := hk.stores _ _ h1
    exact ⟨q, m, st', k1, k2 _ _ h2, h3, hk.circ _ _ h3 h4, h5⟩
  rw [← hec.storage] at hmod
  refine ⟨c', hc', ⟨⟨_, List.getElem?_eq_getElem hsl, fun m q hq => ⟨?_, ?_⟩⟩, ?_⟩, ?_⟩
  · exact (hx.1.mods _ _ (List.getElem?_eq_getElem hsl) m).mp (by rw [hq]; rfl)
  · exact hx.1.mods_ref _ _ (List.getElem?_eq_getElem hsl) m q hq
  · intro mid k hk'
    obtain ⟨q, m, st, h1, h2, h3, h4, h5⟩ := hmod mid k hk'
    exact ⟨st, q, m, h1, h2, h3, h4, h5⟩
  · intro mid k hk' hm
    obtain ⟨q, m, st, h1, h2, h3, _⟩ := hmod mid k hk'
    unfold World.module? at hm
    rw [h1] at hm
    have hm : st.moduleMap mid = some r := hm
    rw [h2] at hm
    cases hm
    omega

/-- a program that makes modules, then any calls, then a program that uses them -/
theorem made_spends {κ α : Type} {new : M κ} {cfg : κ} {w0 w1 w w' : World} {r : Ref} {P : κ → Table → Prop} {x : M α} {a : α}
    {Q : α → Cost → Prop} (hm : Made new cfg w0 w1 w) (hp : Plays new) (hr : r < w0.circs.length)
    (hmk : ∀ lo, Makes (fun _ _ => False) lo r new P) (hsp : ∀ E lo, P cfg E → Spends E lo r x Q) (hx : x w = (.ok a, w')) :
    ∃ k, Added r w w' k ∧ Q a k := by
  have hw0 := WFw.of_reachable hm.reachable
  obtain ⟨E, h1, _, _, h4⟩ := hmk _ _ _ _ (envFor_start hw0 (List.getElem?_eq_getElem hr)) (Nat.le_refl _) hm.made
  have hl : Later w0 w1 := by have := hp w0; rw [hm.made] at this; exact this
  have hw1 := (ext_of_later hw0 hl).1
  exact hsp E _ h4 w a w' (envFor_since hr hw1 hm.since h1) hx

end CC
