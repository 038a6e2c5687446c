import Verif.Proofs.FieldProgram
import Verif.Props.Fp

/-!
# C76: programs over field elements
-/

namespace CC.Props
open CC Spec Spec.FieldProgram

/-- What every program computes, on all inputs, as words: the program builds without error, and evaluating the circuit returns
the bits of the chosen values as computed by `exec`. Products are zero. -/
theorem C76_words {w : World} (hw : Reachable w) {st : StoreRef} (hst : st < w.stores.length) {n p rExp : Nat}
    (hf : FieldFits n p rExp) (hp : 1 ≤ p) (hroom : p ≤ 2 ^ (n - 1))
    {prog : List Cmd} {outs : List Nat} (hty : (kinds prog []).isSome) (hfit : ∀ c ∈ prog, c.Fits p)
    (houts : ∀ i ∈ outs, i < prog.length) (hord : FieldProgram.Ordered prog outs) :
    ∃ r w', FieldProgram.compile st n p rExp prog outs w = (.ok r, w') ∧ ∃ F, ∀ fuel ≥ F, ∀ ins : List Bool,
      ins.length = FieldProgram.inputs n prog → ∃ env vs, FieldProgram.exec (BitVec.ofNat n p) prog ins [] = some env ∧
        outs.mapM (fun i => env[i]?) = some vs ∧ evalOutput w' fuel r ins = .ok (vs.flatMap Value.out) := by
  obtain ⟨r, w', e, _, _, _, h⟩ := FProg.field_ok hw hst hf hp hroom hty hfit houts
  exact ⟨r, w', e, h hord⟩

/-- sums, differences, constants, a negation, comparisons and gates; two arguments -/
def fieldProgram : List Cmd :=
  [.new, .new, .add 0 1, .const 7, .sub 2 3, .neg 4, .add 5 5, .one, .sub 6 7, .eq 8 0, .neq 4 1, .and 9 10, .zero, .add 12 8]

example : FieldFits 8 11 4 ∧ (kinds fieldProgram []).isSome ∧ (∀ c ∈ fieldProgram, c.Fits 11) ∧ (∀ c ∈ fieldProgram, c.isMul = false) ∧
    FieldProgram.Ordered fieldProgram [0, 2, 3, 4, 12, 6, 8, 11, 13] ∧ FieldProgram.inputs 8 fieldProgram = 16 ∧ arity fieldProgram = 2 := by
  refine ⟨fits11, by decide, ?_, by decide, by simp [fieldProgram, FieldProgram.Ordered, Cmd.source], by decide, by decide⟩
  intro s hs
  simp only [fieldProgram, List.mem_cons, List.not_mem_nil, or_false] at hs
  rcases hs with rfl | rfl | rfl | rfl | rfl | rfl | rfl | rfl | rfl | rfl | rfl | rfl | rfl | rfl <;>
    first | trivial | (show 7 ≤ 11; decide)

theorem mapM_some {α β} {f : α → Option β} : ∀ {xs : List α} {ys : List β}, xs.mapM f = some ys →
    ys.length = xs.length ∧ ∀ (k : Nat) x y, xs[k]? = some x → ys[k]? = some y → f x = some y
  | [], ys, h => by
    simp at h; subst h; simp
  | x :: xs, ys, h => by
    simp only [List.mapM_cons, Option.bind_eq_bind, Option.bind_eq_some_iff] at h
    obtain ⟨y, h1, ys', h2, h3⟩ := h
    cases h3
    obtain ⟨k1, k2⟩ := mapM_some h2
    refine ⟨by simp [k1], fun k a b ha hb => ?_⟩
    cases k with
    | zero => simp at ha hb; subst ha; subst hb; exact h1
    | succ k => exact k2 k a b (by simpa using ha) (by simpa using hb)

theorem elems_encode {n : Nat} : ∀ vs : List (Value n), (∀ v ∈ vs, ∃ x, v = .elem x) →
    ∃ ns : List (BitVec n), vs = ns.map .elem ∧ vs.flatMap Value.out = encode n (ns.map (·.toNat))
  | [], _ => ⟨[], rfl, rfl⟩
  | v :: vs, h => by
    obtain ⟨x, rfl⟩ := h v (by simp)
    obtain ⟨ns, h1, h2⟩ := elems_encode vs fun v hv => h v (by simp [hv])
    refine ⟨x :: ns, by simp [h1], ?_⟩
    rw [List.flatMap_cons, h2]
    simp [encode, Value.out]

/-- C76 for programs without multiplication, arguments and constants between 0 and `p`, and enough room for sums: every
returned number is at most `p` and congruent modulo `p` to the meaning of its statement. Zero may come out as `p`. -/
theorem C76_modulo_partial {w : World} (hw : Reachable w) {st : StoreRef} (hst : st < w.stores.length) {n p rExp : Nat}
    (hf : FieldFits n p rExp) (hp : 1 ≤ p) (hroom : 2 * p < 2 ^ (n - 1))
    {prog : List Cmd} {outs : List Nat} {ks : List Kind} (hty : kinds prog [] = some ks) (hfit : ∀ c ∈ prog, c.Fits p)
    (hmul : ∀ c ∈ prog, c.isMul = false) (houts : ∀ i ∈ outs, ks[i]? = some .elem) (hord : FieldProgram.Ordered prog outs) :
    ∃ r w', FieldProgram.compile st n p rExp prog outs w = (.ok r, w') ∧ ∃ F, ∀ fuel ≥ F, ∀ xs : List Nat,
      xs.length = arity prog → (∀ x ∈ xs, x ≤ p) →
      ∃ (env : List FValue) (vs : List Nat), meaning p prog xs [] = some env ∧ evalOutput w' fuel r (encode n xs) = .ok (encode n vs) ∧
        vs.length = outs.length ∧ ∀ (k i v : Nat), outs[k]? = some i → vs[k]? = some v → v ≤ p ∧ env[i]? = some (.elem ((v : Int) % p)) := by
  have hn : 1 ≤ n := by have := hf.width; omega
  have hsim := fun xs h1 h2 => FProg.sim (n := n) hn hp hroom prog [] [] xs (ks := ks) hty hfit hmul trivial h1 h2
  have hlen : ks.length = prog.length := by
    obtain ⟨vals, _, h1, _, _, h2⟩ := hsim (List.replicate (arity prog) 0) (fun x hx => by
      rw [(List.mem_replicate.mp hx).2]; omega) (by simp)
    obtain ⟨vals', h3, h4⟩ := FProg.exec_total (BitVec.ofNat n p) prog [] (encode n (List.replicate (arity prog) 0)) hty
    rw [h1] at h3; cases h3
    rw [← h2]; simpa using h4
  obtain ⟨r, w', e, F, h⟩ := C76_words hw hst hf hp (by omega) (prog := prog) (outs := outs) (by rw [hty]; rfl) hfit
    (fun i hi => by rw [← hlen]; exact lt_of_getElem? (houts i hi)) hord
  refine ⟨r, w', e, F, fun fuel hF xs hxl hx => ?_⟩
  obtain ⟨vals, fenv, k1, k2, k3, k4⟩ := hsim xs hx hxl
  obtain ⟨vals', vs, q1, q2, q3⟩ := h fuel hF (encode n xs) (by rw [FProg.encode_length, FProg.inputs_arity, hxl])
  rw [k1] at q1; cases q1
  obtain ⟨l1, l2⟩ := mapM_some q2
  have hget : ∀ (k i : Nat) v, outs[k]? = some i → vs[k]? = some v → ∃ u : BitVec n, v = .elem u ∧ u.toNat ≤ p ∧
      fenv[i]? = some (.elem ((u.toNat : Int) % p)) := by
    intro k i v h1 h2
    have h3 := l2 k i v h1 h2
    have h4 := houts i (List.mem_of_getElem? h1)
    obtain ⟨v', x, e1, e2, e3⟩ := k3.get (lt_of_getElem? h3)
    rw [h3] at e1; cases e1
    rw [← k4, List.getElem?_map, h3] at h4
    cases v with
    | bit b => simp [FProg.vkind] at h4
    | elem u =>
      cases x with
      | bit b => exact e3.elim
      | elem x => exact ⟨u, rfl, e3.1, by rw [e2, e3.2]⟩
  obtain ⟨ns, n1, n2⟩ := elems_encode vs fun v hv => by
    obtain ⟨k, hk⟩ := List.getElem?_of_mem hv
    have : k < outs.length := by rw [← l1]; exact lt_of_getElem? hk
    obtain ⟨u, hu, _⟩ := hget k _ v (List.getElem?_eq_getElem this) hk
    exact ⟨u, hu⟩
  refine ⟨fenv, ns.map (·.toNat), k2, by rw [q3, n2], by rw [← l1, n1]; simp, ?_⟩
  intro k i v h1 h2
  simp only [List.getElem?_map, Option.map_eq_some_iff] at h2
  obtain ⟨u, h2, rfl⟩ := h2
  obtain ⟨u', e1, e2, e3⟩ := hget k i (.elem u) h1 (by rw [n1]; simp [h2])
  cases e1
  exact ⟨e2, e3⟩

example : (∀ i ∈ [0, 2, 3, 4, 12, 6, 8, 13], ((kinds fieldProgram []).getD [])[i]? = some .elem) ∧
    meaning 11 fieldProgram [9, 5] [] = some [.elem 9, .elem 5, .elem 3, .elem 7, .elem 7, .elem 4, .elem 8, .elem 1, .elem 7,
      .bit false, .bit true, .bit false, .elem 0, .elem 7] ∧ 2 * 11 < 2 ^ (8 - 1) := by decide

/-- C76 for comparisons in programs without multiplication: different numbers compare as different, and equal numbers compare
as equal unless they are zero modulo `p`. -/
theorem C76_compare_partial {w : World} (hw : Reachable w) {st : StoreRef} (hst : st < w.stores.length) {n p rExp : Nat}
    (hf : FieldFits n p rExp) (hp : 1 ≤ p) (hroom : 2 * p < 2 ^ (n - 1))
    {prog : List Cmd} {ks : List Kind} (hty : kinds prog [] = some ks) (hfit : ∀ c ∈ prog, c.Fits p)
    (hmul : ∀ c ∈ prog, c.isMul = false) {i j : Nat} (hi : ks[i]? = some .elem) (hj : ks[j]? = some .elem) :
    ∃ r w', FieldProgram.compile st n p rExp (prog ++ [.eq i j]) [prog.length] w = (.ok r, w') ∧ ∃ F, ∀ fuel ≥ F, ∀ xs : List Nat,
      xs.length = arity prog → (∀ x ∈ xs, x ≤ p) →
      ∃ (env : List FValue) (x y : Int) (b : Bool), meaning p prog xs [] = some env ∧ fElem env i = some x ∧ fElem env j = some y ∧
        evalOutput w' fuel r (encode n xs) = .ok [b] ∧ (x ≠ y → b = false) ∧ (x = y → x ≠ 0 → b = true) := by
  have hn : 1 ≤ n := by have := hf.width; omega
  have hkinds : ∀ (a b : List Cmd) (ks : List Kind), kinds (a ++ b) ks = (kinds a ks).bind fun k => kinds b k := by
    intro a
    induction a with
    | nil => intro b ks; rfl
    | cons s a ih =>
      intro b ks
      simp only [List.cons_append, kinds]
      cases s.kind ks with
      | none => rfl
      | some k => simp only [Option.bind_eq_bind, Option.bind_some]; rw [ih]
  have hty' : kinds (prog ++ [.eq i j]) [] = some (ks ++ [.bit]) := by
    rw [hkinds, hty]
    simp [kinds, Cmd.kind, hi, hj]
  obtain ⟨r, w', e, F, h⟩ := C76_words hw hst hf hp (by omega) (prog := prog ++ [.eq i j]) (outs := [prog.length]) (by rw [hty']; rfl)
    (fun c hc => by
      rcases List.mem_append.mp hc with hc | hc
      · exact hfit c hc
      · simp at hc; subst hc; trivial) (by simp) (by simp [FieldProgram.Ordered])
  refine ⟨r, w', e, F, fun fuel hF xs hxl hx => ?_⟩
  obtain ⟨vals, fenv, k1, k2, k3, k4⟩ := FProg.sim (n := n) hn hp hroom prog [] [] xs (ks := ks) hty hfit hmul trivial hx hxl
  obtain ⟨a, a1, a2, a3⟩ := FProg.rep_elem (i := i) k3 (by rw [k4]; exact hi)
  obtain ⟨b, b1, b2, b3⟩ := FProg.rep_elem (i := j) k3 (by rw [k4]; exact hj)
  have har : FieldProgram.inputs n (prog ++ [.eq i j]) = arity prog * n := by
    rw [FProg.inputs_arity]
    congr 1
    clear hkinds hty hfit hmul h e hty' k1 k2 hxl
    induction prog with
    | nil => rfl
    | cons s p ih => simp [arity, ih]
  obtain ⟨vals', vs, q1, q2, q3⟩ := h fuel hF (encode n xs) (by rw [FProg.encode_length, har, hxl])
  have hvl : vals.length = prog.length := by
    obtain ⟨v2, h3, h4⟩ := FProg.exec_total (BitVec.ofNat n p) prog [] (encode n xs) hty
    rw [k1] at h3; cases h3
    simpa using h4
  rw [FProg.exec_append, k1] at q1
  simp only [Option.bind_some, FieldProgram.exec, Cmd.value, a1, b1, Option.bind_eq_bind, Option.pure_def, Option.some.injEq] at q1
  subst q1
  simp [← hvl] at q2
  subst q2
  refine ⟨fenv, _, _, a == b, k2, a3, b3, by simpa [Value.out] using q3, ?_, ?_⟩
  · intro hne
    cases hab : (a == b) with
    | false => rfl
    | true => rw [beq_iff_eq] at hab; subst hab; exact absurd rfl hne
  · intro heq hne
    rw [beq_iff_eq]
    apply BitVec.eq_of_toNat_eq
    have ha : a.toNat < p := by
      rcases Nat.lt_or_eq_of_le a2 with h | h
      · exact h
      · rw [h] at hne; simp at hne
    have hb : b.toNat < p := by
      rcases Nat.lt_or_eq_of_le b2 with h | h
      · exact h
      · rw [heq, h] at hne; simp at hne
    have h1 : ((a.toNat % p : Nat) : Int) = ((b.toNat % p : Nat) : Int) := by exact_mod_cast heq
    rw [Nat.mod_eq_of_lt ha, Nat.mod_eq_of_lt hb] at h1
    exact_mod_cast h1

example : (kinds fieldProgram []).isSome ∧ ((kinds fieldProgram []).getD [])[4]? = some .elem ∧
    ((kinds fieldProgram []).getD [])[13]? = some .elem ∧ fElem ((meaning 11 fieldProgram [9, 5] []).getD []) 4 = some 7 ∧
    fElem ((meaning 11 fieldProgram [9, 5] []).getD []) 13 = some 7 := by decide

/-- Results need not be reduced, and comparisons see that: 5 + 6 modulo 11 is returned as 11, and `5 + 6 == 0` is false. -/
theorem C76_false_zero {w : World} (hw : Reachable w) {st : StoreRef} (hst : st < w.stores.length) :
    meaning 11 [.new, .new, .add 0 1, .zero, .eq 2 3] [5, 6] [] = some [.elem 5, .elem 6, .elem 0, .elem 0, .bit true] ∧
    ∃ r w', FieldProgram.compile st 8 11 4 [.new, .new, .add 0 1, .zero, .eq 2 3] [2, 4] w = (.ok r, w') ∧ ∃ F, ∀ fuel ≥ F,
      evalOutput w' fuel r (encode 8 [5, 6]) = .ok (bitsOf 8 11 ++ [false]) := by
  refine ⟨by decide, ?_⟩
  obtain ⟨r, w', e, F, h⟩ := C76_words hw hst fits11 (by decide) (by decide) (prog := [.new, .new, .add 0 1, .zero, .eq 2 3])
    (outs := [2, 4]) (by decide) (by simp [Cmd.Fits]) (by decide) (by simp [FieldProgram.Ordered])
  refine ⟨r, w', e, F, fun fuel hF => ?_⟩
  obtain ⟨env, vs, h1, h2, h3⟩ := h fuel hF (encode 8 [5, 6]) (by decide)
  rw [show FieldProgram.exec (BitVec.ofNat 8 11) [.new, .new, .add 0 1, .zero, .eq 2 3] (encode 8 [5, 6]) [] =
    some [.elem 5#8, .elem 6#8, .elem 11#8, .elem 0#8, .bit false] from rfl] at h1
  cases h1
  simp at h2
  subst h2
  rw [h3]; rfl

/-- With multiplication the claim fails: the circuit for 2 · 3 modulo 11 returns 0. In fact every product is 0. -/
theorem C76_false_mul {w : World} (hw : Reachable w) {st : StoreRef} (hst : st < w.stores.length) :
    meaning 11 [.new, .new, .mul 0 1] [2, 3] [] = some [.elem 2, .elem 3, .elem 6] ∧
    ∃ r w', FieldProgram.compile st 8 11 4 [.new, .new, .mul 0 1] [2] w = (.ok r, w') ∧ ∃ F, ∀ fuel ≥ F, ∀ ins : List Bool,
      ins.length = 16 → evalOutput w' fuel r ins = .ok (bitsOf 8 0) := by
  refine ⟨by decide, ?_⟩
  obtain ⟨r, w', e, F, h⟩ := C76_words hw hst fits11 (by decide) (by decide) (prog := [.new, .new, .mul 0 1])
    (outs := [2]) (by decide) (by simp [Cmd.Fits]) (by decide) (by simp [FieldProgram.Ordered])
  refine ⟨r, w', e, F, fun fuel hF ins hins => ?_⟩
  obtain ⟨env, vs, h1, h2, h3⟩ := h fuel hF ins hins
  simp [FieldProgram.exec, Cmd.value, FieldProgram.getElem] at h1
  subst h1
  simp at h2
  subst h2
  rw [h3]; rfl

example : Reachable (run [.newStorage]) ∧ 0 < (run [.newStorage]).stores.length := ⟨run_reachable _, by decide⟩

end CC.Props
