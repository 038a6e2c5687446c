import Verif.Model.Div64
import Verif.Proofs.Div64Cert

/-!
# `divide64.txt` divides

A non-restoring divider for the absolute values. Each row shifts the next bit of the dividend into the remainder and then adds
or subtracts the divisor, depending on the sign of the remainder. The sign of the quotient is set at the end.
-/

namespace CC.Bundled

noncomputable section
open CC Spec Spec.Bristol CC.Bristol

section checker
variable (d : List Nat) (n : Nat)

/-- the complements of some wires -/
def invs : List Nat → Nat → (List (Nat × Nat) → Nat → Bool) → Bool
  | [], c, k => k [] c
  | x :: xs, c, k => invCell d n x c fun nx c => invs xs c fun ps c => k ((x, nx) :: ps) c

def condTab (x nx s ns : Nat) : Tables := [(x, 0xAA), (nx, 0x55), (s, 0xCC), (ns, 0x33)]
def condTab' (x nx s ns z : Nat) : Tables := [(x, 0xAA), (nx, 0x55), (s, 0xCC), (ns, 0x33), (z, 0xF0)]

/-- negation, if `s` is set, of a number given by wires and their complements; `z` is the carry -/
def condRow (s ns : Nat) : List (Nat × Nat) → Nat → Nat → (List Nat → Nat → Bool) → Bool
  | [], _, _, _ => false
  | [p], z, c, k => cell d n 0xFF 5 (condTab' p.1 p.2 s ns z) (cond (Nat.beq p.1 s) 0xA0 0xA6) c
      fun o c => k [o] c
  | p :: p' :: ps, z, c, k => cell2 d n 0xFF 8 (condTab' p.1 p.2 s ns z) 0xA6 0x50 c fun o z c =>
      condRow s ns (p' :: ps) z c fun os c => k (o :: os) c

def condNeg (s ns : Nat) : List (Nat × Nat) → Nat → (List Nat → Nat → Bool) → Bool
  | [], _, _ => false
  | p :: ps, c, k => cell d n 0xFF 3 (condTab p.1 p.2 s ns) 0xAA c fun o c => condRow d n s ns ps p.2 c fun os c => k (o :: os) c

/-- negation; `z` is set if a lower bit is -/
def negRow : List Nat → Nat → Nat → (List Nat → Nat → Nat → Bool) → Bool
  | [], _, _, _ => false
  | [y], z, c, k => cell d n 0xFF 1 (tab2 y z) 0x66 c fun o c => k [] o c
  | y :: y' :: ys, z, c, k => cell2 d n 0xFF 4 (tab2 y z) 0x66 0xEE c fun o z c =>
      negRow (y' :: ys) z c fun os sg c => k (o :: os) sg c

/-- truth tables for wire `x` of the remainder, `b` of the divisor, `s` (subtract) and the carry -/
def divTab (x b s : Nat) : Option Nat → Tables
  | none => [(x, 0xAAAA), (b, 0xCCCC), (s, 0xF0F0)]
  | some z => [(x, 0xAAAA), (b, 0xCCCC), (s, 0xF0F0), (z, 0xFF00)]

def divRes : Option Nat → Nat
  | none => 0x6666
  | some _ => 0x9966

def divCarry : Option Nat → Nat
  | none => 0x4848
  | some _ => 0xDE48

/-- add to, or subtract from, the remainder -/
def fullRow (s : Nat) : List Nat → List Nat → Option Nat → Nat → (List Nat → Nat → Nat → Bool) → Bool
  | [x], [b], z, c, k => cell d n 0xFFFF 2 (divTab x b s z) (divRes z) c fun o c => k [] o c
  | x :: x' :: xs, b :: bs, z, c, k => cell2 d n 0xFFFF (match z with | none => 3 | some _ => 7) (divTab x b s z) (divRes z)
      (divCarry z) c fun o z c => fullRow s (x' :: xs) bs (some z) c fun os sg c => k (o :: os) sg c
  | _, _, _, _, _ => false

/-- only the sign of the result -/
def signRow (s : Nat) : List Nat → List Nat → Option Nat → Nat → (Nat → Nat → Bool) → Bool
  | [x], [b], z, c, k => cell d n 0xFFFF 2 (divTab x b s z) (divRes z) c k
  | x :: x' :: xs, b :: bs, z, c, k => cell d n 0xFFFF (match z with | none => 2 | some _ => 5) (divTab x b s z)
      (divCarry z) c fun z c => signRow s (x' :: xs) bs (some z) c k
  | _, _, _, _, _ => false

/-- the rows; `qs` are the bits of the quotient so far and their complements, lowest first -/
def sdivRows (bs : List Nat) : List Nat → List Nat → List Nat → Nat → List (Nat × Nat) → (List (Nat × Nat) → Bool) → Bool
  | [c], [a], lows, s, qs, k => signRow d n s (a :: lows) bs none c fun sg c => invCell d n sg c fun q _ => k ((q, sg) :: qs)
  | c :: c' :: cs, a :: a' :: as, lows, s, qs, k => fullRow d n s (a :: lows) bs none c fun lows sg c => invCell d n sg c fun q _ =>
      sdivRows bs (c' :: cs) (a' :: as) lows q ((q, sg) :: qs) k
  | _, _, _, _, _, _ => false

/-- absolute value of a number of 64 bits -/
def absRow (i c : Nat) (k : List Nat → Bool) : Bool :=
  invs d n (List.range' i 64) c fun ps c =>
    match ps.getLast? with
    | none => false
    | some p => Nat.beq p.1 (i + 63) && condNeg d n p.1 p.2 ps c fun os _ => k os

def sdiv? (out cA cB cN : Nat) (cs : List Nat) (cF : Nat) : Bool :=
  Nat.beq cs.length 64 && absRow d n 0 cA fun as => absRow d n 64 cB fun bs =>
    match bs with
    | [] => false
    | b :: bs' => negRow d n bs' b cN fun lows sg c => invCell d n sg c fun s _ =>
        sdivRows d n bs cs as.reverse (b :: lows) s [] fun qs =>
          cell d n 0xFF 1 (tab2 63 127) 0x66 cF fun sg c => invCell d n sg c fun nsg c =>
            condNeg d n sg nsg qs c fun os _ => os == List.range' out 64

end checker

section
variable {W : Nat → Bool} {d : List Nat} {n : Nat}

/-- pairs of a wire and its complement -/
def Compl (W : Nat → Bool) (ps : List (Nat × Nat)) : Prop := ∀ p ∈ ps, W p.2 = !W p.1

theorem invs_sound (hd : SatAll W d n) : ∀ {xs : List Nat} {c : Nat} {k : List (Nat × Nat) → Nat → Bool},
    invs d n xs c k = true → ∃ ps c', k ps c' = true ∧ ps.map Prod.fst = xs ∧ Compl W ps
  | [], c, k, h => ⟨[], c, h, rfl, fun _ h => by cases h⟩
  | x :: xs, c, k, h => by
    obtain ⟨nx, c1, h, h1⟩ := invCell_sound hd h
    obtain ⟨ps, c2, h, h2, h3⟩ := invs_sound hd h
    refine ⟨_, c2, h, by simp [h2], fun p hp => ?_⟩
    rcases List.mem_cons.mp hp with rfl | hp
    · exact h1
    · exact h3 p hp

theorem right_cond {x nx s ns : Nat} (hx : W nx = !W x) (hs : W ns = !W s) :
    Right W (idx (W x) (W s) false) (condTab x nx s ns) := by
  intro e he
  simp only [condTab, List.mem_cons, List.not_mem_nil, or_false] at he
  rcases he with rfl | rfl | rfl | rfl <;> simp only [hx, hs] <;> cases W x <;> cases W s <;> decide

theorem right_cond' {x nx s ns z : Nat} (hx : W nx = !W x) (hs : W ns = !W s) :
    Right W (idx (W x) (W s) (W z)) (condTab' x nx s ns z) := by
  intro e he
  simp only [condTab', List.mem_cons, List.not_mem_nil, or_false] at he
  rcases he with rfl | rfl | rfl | rfl | rfl <;> simp only [hx, hs] <;> cases W x <;> cases W s <;> cases W z <;> decide

/-- `o` is `x`, or `2^m - 1 - x + z` if `s` is set -/
def Negated (s : Bool) (x z m o : Nat) : Prop := (s = false → o = x) ∧ (s = true → ∃ e, o + x + 2 ^ m * e + 1 = 2 ^ m + z)

theorem condRow_sound (hd : SatAll W d n) {s ns : Nat} (hs : W ns = !W s) : ∀ {ps : List (Nat × Nat)} {z c : Nat}
    {k : List Nat → Nat → Bool}, condRow d n s ns ps z c k = true → Compl W ps →
    ∃ os c', k os c' = true ∧ os.length = ps.length ∧ Negated (W s) (wnum W (ps.map Prod.fst)) (W z).toNat ps.length (wnum W os)
  | [], _, _, _, h, _ => by cases h
  | [p], z, c, k, h, hp => by
    obtain ⟨o, c1, h, ho⟩ := cell_sound hd h (idx_full _ _ _) (right_cond' (z := z) (hp p (by simp)) hs)
    refine ⟨[o], c1, h, rfl, ?_⟩
    have ho' : W o = Nat.testBit 0xA6 (idx (W p.1) (W s) (W z)) := by
      rw [ho]
      cases hb : Nat.beq p.1 s with
      | false => rfl
      | true =>
        rw [Nat.eq_of_beq_eq_true hb]
        cases W s <;> cases W z <;> rfl
    simp only [Negated, wnum, List.map_cons, List.map_nil, ho', List.length_cons, List.length_nil]
    cases W p.1 <;> cases W s <;> cases W z <;> simp <;> first | decide | exact ⟨0, by decide⟩ | exact ⟨1, by decide⟩
  | p :: p' :: ps, z, c, k, h, hp => by
    obtain ⟨o, z', c1, h, ho, hz⟩ := cell2_sound hd h (idx_full _ _ _) (right_cond' (z := z) (hp p (by simp)) hs)
    obtain ⟨os, c2, h, hl, h1, h2⟩ := condRow_sound hd hs h fun q hq => hp q (List.mem_cons_of_mem _ hq)
    refine ⟨o :: os, c2, h, by simp [hl], fun hf => ?_, fun ht => ?_⟩
    · have h3 := h1 hf
      rw [List.map_cons]
      simp only [wnum, h3] at h3 ⊢
      congr 1
      rw [ho, hf]
      cases W p.1 <;> cases W z <;> rfl
    · obtain ⟨e, h3⟩ := h2 ht
      refine ⟨e, ?_⟩
      rw [List.map_cons]
      simp only [wnum] at h3 ⊢
      have h4 : (W o).toNat + (W p.1).toNat + 2 * (W z').toNat = 1 + (W z).toNat := by
        rw [ho, hz, ht]
        cases W p.1 <;> cases W z <;> rfl
      rw [List.length_cons, Nat.pow_succ]
      generalize 2 ^ (p' :: ps).length = P at *
      have : P * 2 * e = 2 * (P * e) := by rw [Nat.mul_right_comm, Nat.mul_comm]
      omega

theorem condNeg_sound (hd : SatAll W d n) {s ns : Nat} (hs : W ns = !W s) {ps : List (Nat × Nat)} {c : Nat}
    {k : List Nat → Nat → Bool} (h : condNeg d n s ns ps c k = true) (hp : Compl W ps) :
    ∃ os c', k os c' = true ∧ os.length = ps.length ∧ (W s = false → wnum W os = wnum W (ps.map Prod.fst)) ∧
      (W s = true → wnum W os = (2 ^ ps.length - wnum W (ps.map Prod.fst)) % 2 ^ ps.length) := by
  cases ps with
  | nil => cases h
  | cons p ps =>
    obtain ⟨o, c1, h, ho⟩ := cell_sound hd h (idx_full _ _ _) (right_cond (hp p (by simp)) hs)
    obtain ⟨os, c2, h, hl, h1, h2⟩ := condRow_sound hd hs h fun q hq => hp q (List.mem_cons_of_mem _ hq)
    have ho' : W o = W p.1 := by rw [ho]; cases W p.1 <;> cases W s <;> rfl
    refine ⟨o :: os, c2, h, by simp [hl], fun hf => ?_, fun ht => ?_⟩
    · rw [List.map_cons]
      simp only [wnum, h1 hf, ho']
    · obtain ⟨e, h3⟩ := h2 ht
      rw [List.map_cons]
      simp only [wnum, ho']
      have h4 := hp p (by simp)
      have hlt := wnum_lt W os
      rw [hl] at hlt
      rw [List.length_cons, Nat.pow_succ]
      generalize 2 ^ ps.length = P at *
      generalize wnum W (ps.map Prod.fst) = X at *
      rw [h4] at h3
      cases hb : W p.1 with
      | true =>
        simp only [hb, Bool.not_true, Bool.toNat_false, Bool.toNat_true] at h3 ⊢
        cases e with
        | zero => rw [Nat.mod_eq_of_lt (by omega)]; omega
        | succ e => rw [Nat.mul_add] at h3; omega
      | false =>
        simp only [hb, Bool.not_false, Bool.toNat_false, Bool.toNat_true] at h3 ⊢
        cases e with
        | zero =>
          by_cases hx : X = 0
          · omega
          · rw [Nat.mod_eq_of_lt (by omega)]; omega
        | succ e =>
          rw [Nat.mul_add] at h3
          have : wnum W os = 0 := by omega
          have : X = 0 := by omega
          subst this
          simp; omega

theorem negRow_sound (hd : SatAll W d n) : ∀ {ys : List Nat} {z c : Nat} {k : List Nat → Nat → Nat → Bool},
    negRow d n ys z c k = true → ∃ os sg c', k os sg c' = true ∧ os.length + 1 = ys.length ∧
      ∃ e, wnum W (os ++ [sg]) + wnum W ys + (W z).toNat = 2 ^ ys.length * e
  | [], _, _, _, h => by cases h
  | [y], z, c, k, h => by
    obtain ⟨o, c1, h, ho⟩ := cell_sound hd h (idx_full _ _ _) (right2 W y z)
    refine ⟨[], o, c1, h, rfl, ?_⟩
    simp only [wnum, List.nil_append, ho, List.length_cons, List.length_nil]
    cases W y <;> cases W z <;> first | exact ⟨0, by decide⟩ | exact ⟨1, by decide⟩
  | y :: y' :: ys, z, c, k, h => by
    obtain ⟨o, z', c1, h, ho, hz⟩ := cell2_sound hd h (idx_full _ _ _) (right2 W y z)
    obtain ⟨os, sg, c2, h, hl, e, h1⟩ := negRow_sound hd h
    refine ⟨o :: os, sg, c2, h, by simp at hl ⊢; omega, e, ?_⟩
    have h4 : (W o).toNat + (W y).toNat + (W z).toNat = 2 * (W z').toNat := by
      rw [ho, hz]
      cases W y <;> cases W z <;> rfl
    rw [List.cons_append]
    simp only [wnum] at h1 ⊢
    rw [List.length_cons, Nat.pow_succ]
    generalize 2 ^ (y' :: ys).length = P at *
    have : P * 2 * e = 2 * (P * e) := by rw [Nat.mul_right_comm, Nat.mul_comm]
    omega

/-! ### rows of the divider -/

def idx4 (x b s z : Bool) : Nat := x.toNat + 2 * b.toNat + 4 * s.toNat + 8 * z.toNat

theorem idx4_full (x b s z : Bool) : Nat.testBit 0xFFFF (idx4 x b s z) = true := by
  cases x <;> cases b <;> cases s <;> cases z <;> decide

/-- value of an optional wire -/
def oval (W : Nat → Bool) : Option Nat → Bool
  | none => false
  | some z => W z

theorem right_div (x b s : Nat) (z : Option Nat) : Right W (idx4 (W x) (W b) (W s) (oval W z)) (divTab x b s z) := by
  intro e he
  cases z with
  | none =>
    simp only [divTab, List.mem_cons, List.not_mem_nil, or_false] at he
    rcases he with rfl | rfl | rfl <;> simp only [oval] <;> cases W x <;> cases W b <;> cases W s <;> decide
  | some z =>
    simp only [divTab, List.mem_cons, List.not_mem_nil, or_false] at he
    rcases he with rfl | rfl | rfl | rfl <;> simp only [oval] <;> cases W x <;> cases W b <;> cases W s <;> cases W z <;> decide

/-- `r` is `x + b + z`, or `x - b - z` if `s` is set, modulo `p` -/
def AddSub (s : Bool) (x b z r p : Nat) : Prop :=
  (s = false → ∃ e, x + b + z = r + p * e) ∧ (s = true → ∃ e, r + b + z = x + p * e)

theorem div_bits (x b s : Nat) (z : Option Nat) :
    let i := idx4 (W x) (W b) (W s) (oval W z)
    (W s = false → (W x).toNat + (W b).toNat + (oval W z).toNat = ((divRes z).testBit i).toNat + 2 * ((divCarry z).testBit i).toNat) ∧
    (W s = true → ((divRes z).testBit i).toNat + (W b).toNat + (oval W z).toNat = (W x).toNat + 2 * ((divCarry z).testBit i).toNat) := by
  cases z with
  | none => simp only [oval, divRes, divCarry]; cases W x <;> cases W b <;> cases W s <;> decide
  | some z => simp only [oval, divRes, divCarry]; cases W x <;> cases W b <;> cases W s <;> cases W z <;> decide

theorem addSub_cons {s : Bool} {x b z r z' X B R P : Nat} (h1 : s = false → x + b + z = r + 2 * z')
    (h2 : s = true → r + b + z = x + 2 * z') (h : AddSub s X B z' R P) :
    AddSub s (x + 2 * X) (b + 2 * B) z (r + 2 * R) (P * 2) := by
  constructor
  · intro hs
    obtain ⟨e, he⟩ := h.1 hs
    have := h1 hs
    have e2 : P * 2 * e = 2 * (P * e) := by rw [Nat.mul_right_comm, Nat.mul_comm]
    exact ⟨e, by omega⟩
  · intro hs
    obtain ⟨e, he⟩ := h.2 hs
    have := h2 hs
    have e2 : P * 2 * e = 2 * (P * e) := by rw [Nat.mul_right_comm, Nat.mul_comm]
    exact ⟨e, by omega⟩

theorem addSub_one {s : Bool} {x b z r z' : Nat} (h1 : s = false → x + b + z = r + 2 * z')
    (h2 : s = true → r + b + z = x + 2 * z') : AddSub s x b z r 2 := ⟨fun h => ⟨z', h1 h⟩, fun h => ⟨z', h2 h⟩⟩

theorem fullRow_sound (hd : SatAll W d n) {s : Nat} : ∀ {xs bs : List Nat} {z : Option Nat} {c : Nat}
    {k : List Nat → Nat → Nat → Bool}, fullRow d n s xs bs z c k = true → ∃ os sg c', k os sg c' = true ∧
      os.length + 1 = xs.length ∧ AddSub (W s) (wnum W xs) (wnum W bs) (oval W z).toNat (wnum W (os ++ [sg])) (2 ^ xs.length)
  | [], _, _, _, _, h => by cases h
  | [_], [], _, _, _, h => by cases h
  | [_], _ :: _ :: _, _, _, _, h => by cases h
  | _ :: _ :: _, [], _, _, _, h => by cases h
  | [x], [b], z, c, k, h => by
    unfold fullRow at h
    obtain ⟨o, c1, h, ho⟩ := cell_sound hd h (idx4_full _ _ _ _) (right_div x b s z)
    obtain ⟨h1, h2⟩ := div_bits (W := W) x b s z
    refine ⟨[], o, c1, h, rfl, ?_⟩
    simp only [wnum, List.nil_append, ho]
    exact addSub_one h1 h2
  | x :: x' :: xs, b :: bs, z, c, k, h => by
    unfold fullRow at h
    obtain ⟨o, z', c1, h, ho, hz⟩ := cell2_sound hd h (idx4_full _ _ _ _) (right_div x b s z)
    obtain ⟨h1, h2⟩ := div_bits (W := W) x b s z
    obtain ⟨os, sg, c2, h, hl, ha⟩ := fullRow_sound hd h
    refine ⟨o :: os, sg, c2, h, by simp at hl ⊢; omega, ?_⟩
    rw [← ho, ← hz] at h1 h2
    exact addSub_cons h1 h2 ha

theorem signRow_sound (hd : SatAll W d n) {s : Nat} : ∀ {xs bs : List Nat} {z : Option Nat} {c : Nat}
    {k : Nat → Nat → Bool}, signRow d n s xs bs z c k = true → ∃ sg c', k sg c' = true ∧ ∃ v, v < 2 ^ (xs.length - 1) ∧
      AddSub (W s) (wnum W xs) (wnum W bs) (oval W z).toNat (v + 2 ^ (xs.length - 1) * (W sg).toNat) (2 ^ xs.length)
  | [], _, _, _, _, h => by cases h
  | [_], [], _, _, _, h => by cases h
  | [_], _ :: _ :: _, _, _, _, h => by cases h
  | _ :: _ :: _, [], _, _, _, h => by cases h
  | [x], [b], z, c, k, h => by
    unfold signRow at h
    obtain ⟨o, c1, h, ho⟩ := cell_sound hd h (idx4_full _ _ _ _) (right_div x b s z)
    obtain ⟨h1, h2⟩ := div_bits (W := W) x b s z
    refine ⟨o, c1, h, 0, by simp, ?_⟩
    simp only [wnum, List.length_cons, List.length_nil, Nat.zero_add, Nat.sub_self, Nat.pow_zero, Nat.one_mul, ho]
    exact addSub_one h1 h2
  | x :: x' :: xs, b :: bs, z, c, k, h => by
    unfold signRow at h
    obtain ⟨z', c1, h, hz⟩ := cell_sound hd h (idx4_full _ _ _ _) (right_div x b s z)
    obtain ⟨h1, h2⟩ := div_bits (W := W) x b s z
    obtain ⟨sg, c2, h, v, hv, ha⟩ := signRow_sound hd h
    rw [← hz] at h1 h2
    refine ⟨sg, c2, h, ((divRes z).testBit (idx4 (W x) (W b) (W s) (oval W z))).toNat + 2 * v, ?_, ?_⟩
    rotate_left
    · have := addSub_cons h1 h2 ha
      rw [Nat.mul_add, ← Nat.add_assoc] at this
      simp only [List.length_cons, Nat.add_sub_cancel] at this ⊢
      have e : 2 ^ (xs.length + 1) * (W sg).toNat = 2 * (2 ^ xs.length * (W sg).toNat) := by
        rw [Nat.pow_succ, Nat.mul_comm _ 2, Nat.mul_assoc]
      rw [e]
      exact this
    · simp only [List.length_cons, Nat.add_sub_cancel] at hv ⊢
      rw [Nat.pow_succ]
      have := Bool.toNat_lt ((divRes z).testBit (idx4 (W x) (W b) (W s) (oval W z)))
      omega

/-- the remainders (modulo `2^64`), with the bits `xs` of the dividend and `qs` of the quotient -/
inductive Trace (W : Nat → Bool) (B : Nat) : Nat → List Nat → List Nat → Prop
  | nil (R : Nat) : Trace W B R [] []
  | step {R R' x q : Nat} {xs qs : List Nat} (lt : R' < 2 ^ 64)
      (row : AddSub (decide (R < 2 ^ 63)) ((W x).toNat + 2 * (R % 2 ^ 63)) B 0 R' (2 ^ 64))
      (bit : W q = decide (R' < 2 ^ 63)) (rest : Trace W B R' xs qs) : Trace W B R (x :: xs) (qs ++ [q])

theorem top_bit {v : Nat} {t : Bool} (h : v < 2 ^ 63) : (v + 2 ^ 63 * t.toNat) % 2 ^ 63 = v ∧
    decide (v + 2 ^ 63 * t.toNat < 2 ^ 63) = !t ∧ v + 2 ^ 63 * t.toNat < 2 ^ 64 := by
  cases t
  · simp only [Bool.toNat_false, Bool.not_false, decide_eq_true_eq]; omega
  · simp only [Bool.toNat_true, Bool.not_true, decide_eq_false_iff_not]; omega

theorem wnum_top {os : List Nat} {sg : Nat} (hl : os.length = 63) : wnum W (os ++ [sg]) = wnum W os + 2 ^ 63 * (W sg).toNat := by
  rw [wnum_append, hl]; simp [wnum]

theorem sdivRows_sound (hd : SatAll W d n) {bs : List Nat} : ∀ {cs as lows : List Nat} {s sg : Nat} {qs : List (Nat × Nat)}
    {k : List (Nat × Nat) → Bool}, sdivRows d n bs cs as lows s qs k = true → lows.length = 63 → W s = !W sg →
    ∃ qs', k (qs' ++ qs) = true ∧ qs'.length = cs.length ∧ as.length = cs.length ∧ Compl W qs' ∧
      Trace W (wnum W bs) (wnum W (lows ++ [sg])) as (qs'.map Prod.fst)
  | [], _, _, _, _, _, _, h, _, _ => by cases h
  | [_], [], _, _, _, _, _, h, _, _ => by cases h
  | [_], _ :: _ :: _, _, _, _, _, _, h, _, _ => by cases h
  | _ :: _ :: _, [], _, _, _, _, _, h, _, _ => by cases h
  | _ :: _ :: _, [_], _, _, _, _, _, h, _, _ => by cases h
  | [c], [a], lows, s, sg, qs, k, h, hl, hs => by
    unfold sdivRows at h
    obtain ⟨sg', c1, h, v, hv, ha⟩ := signRow_sound hd h
    obtain ⟨q, c2, h, hq⟩ := invCell_sound hd h
    refine ⟨[(q, sg')], h, rfl, rfl, fun p hp => ?_, ?_⟩
    · rw [List.mem_singleton] at hp; subst hp; simp [hq]
    · have e := top_bit (t := W sg') (v := v) (by simpa [hl] using hv)
      have e' := top_bit (t := W sg) (v := wnum W lows) (by have := wnum_lt W lows; rwa [hl] at this)
      rw [List.length_cons, hl] at ha
      refine Trace.step (qs := []) (R' := v + 2 ^ 63 * (W sg').toNat) e.2.2 ?_ (by rw [hq, e.2.1]) (Trace.nil _)
      rw [wnum_top hl, e'.1, e'.2.1, ← hs]
      exact ha
  | c :: c' :: cs, a :: a' :: as, lows, s, sg, qs, k, h, hl, hs => by
    unfold sdivRows at h
    obtain ⟨lows', sg', c1, h, hl', ha⟩ := fullRow_sound hd h
    obtain ⟨q, c2, h, hq⟩ := invCell_sound hd h
    have hl' : lows'.length = 63 := by simp at hl'; omega
    obtain ⟨qs', h, h1, h2, h3, h4⟩ := sdivRows_sound hd h hl' hq
    have e := top_bit (t := W sg') (v := wnum W lows') (by have := wnum_lt W lows'; rwa [hl'] at this)
    have e' := top_bit (t := W sg) (v := wnum W lows) (by have := wnum_lt W lows; rwa [hl] at this)
    refine ⟨qs' ++ [(q, sg')], by simpa using h, by simp [h1], by simp at h2 ⊢; omega, fun p hp => ?_, ?_⟩
    · rcases List.mem_append.mp hp with hp | hp
      · exact h3 p hp
      · rw [List.mem_singleton] at hp; subst hp; simp [hq]
    · rw [List.map_append]
      refine Trace.step (R' := wnum W (lows' ++ [sg'])) ?_ ?_ ?_ h4
      · rw [wnum_top hl']; exact e.2.2
      · rw [List.length_cons, hl] at ha
        rw [wnum_top hl, e'.1, e'.2.1, ← hs]
        exact ha
      · rw [hq, wnum_top hl', e.2.1]

/-! ### quotients -/

/-- the remainder `R` modulo `2^64` stands for `r`, or for `r - B` -/
def Stands (B R r : Nat) : Prop := r < B ∧ ((R < 2 ^ 63 ∧ R = r) ∨ (2 ^ 63 ≤ R ∧ R + B = r + 2 ^ 64))

theorem stands_step {B R R' r x : Nat} (hB : B ≤ 2 ^ 63) (h : Stands B R r) (hx : x < 2) (lt : R' < 2 ^ 64)
    (row : AddSub (decide (R < 2 ^ 63)) (x + 2 * (R % 2 ^ 63)) B 0 R' (2 ^ 64)) :
    ∃ r', Stands B R' r' ∧ (decide (R' < 2 ^ 63)).toNat * B + r' = 2 * r + x := by
  obtain ⟨h1, h2⟩ := h
  have h3 : (R' < 2 ^ 63 ∧ R' + B = 2 * r + x) ∨ (2 ^ 63 ≤ R' ∧ R' + B = 2 * r + x + 2 ^ 64 ∧ 2 * r + x < B) := by
    rcases h2 with ⟨h2, rfl⟩ | ⟨h2, h3⟩
    · obtain ⟨e, he⟩ := row.2 (decide_eq_true h2)
      omega
    · obtain ⟨e, he⟩ := row.1 (decide_eq_false (by omega))
      omega
  rcases h3 with ⟨h3, h4⟩ | ⟨h3, h4, h5⟩
  · refine ⟨R', ⟨by omega, Or.inl ⟨h3, rfl⟩⟩, ?_⟩
    rw [decide_eq_true h3]
    simp only [Bool.toNat_true]; omega
  · refine ⟨2 * r + x, ⟨h5, Or.inr ⟨h3, by omega⟩⟩, ?_⟩
    rw [decide_eq_false (by omega)]
    simp

theorem trace_length {B R : Nat} {xs qs : List Nat} (h : Trace W B R xs qs) : qs.length = xs.length := by
  induction h with
  | nil => rfl
  | step _ _ _ _ ih => simp [ih]

theorem trace_quot {B R : Nat} {xs qs : List Nat} (hB : B ≤ 2 ^ 63) (h : Trace W B R xs qs) : ∀ r, Stands B R r →
    ∃ r', r' < B ∧ r * 2 ^ xs.length + wnum W xs.reverse = wnum W qs * B + r' := by
  induction h with
  | nil => exact fun r h => ⟨r, h.1, by simp [wnum]⟩
  | @step R R' x q xs qs lt row bit rest ih =>
    intro r hr
    obtain ⟨r1, h1, h2⟩ := stands_step hB hr (Bool.toNat_lt _) lt row
    obtain ⟨r', h3, h4⟩ := ih r1 h1
    refine ⟨r', h3, ?_⟩
    rw [List.reverse_cons, wnum_append, wnum_append, List.length_reverse, List.length_cons, trace_length rest]
    simp only [wnum, bit, Nat.mul_zero, Nat.add_zero]
    generalize (decide (R' < 2 ^ 63)).toNat = t at *
    generalize wnum W xs.reverse = A at *
    generalize wnum W qs = Q at *
    generalize (W x).toNat = y at *
    rw [Nat.pow_succ]
    generalize 2 ^ xs.length = P at *
    have e1 : r * (P * 2) + P * y = P * (2 * r + y) := by grind
    have e2 : P * (t * B + r1) = P * t * B + r1 * P := by grind
    rw [Nat.add_mul]
    rw [← h2] at e1
    omega

theorem trace_zero {R : Nat} {xs qs : List Nat} (h : Trace W 0 R xs qs) : R < 2 ^ 63 → xs ≠ [] →
    R * 2 ^ xs.length + wnum W xs.reverse ≤ 2 ^ 63 →
    wnum W qs = 2 ^ xs.length - (if R * 2 ^ xs.length + wnum W xs.reverse = 2 ^ 63 then 2 else 1) := by
  induction h with
  | nil => intro _ h; simp at h
  | @step R R' x q xs qs lt row bit rest ih =>
    intro hR _ hT
    obtain ⟨e, he⟩ := row.2 (decide_eq_true hR)
    have hx := Bool.toNat_lt (W x)
    have hR' : R' = 2 * R + (W x).toNat := by omega
    have hT' : R * 2 ^ (x :: xs).length + wnum W (x :: xs).reverse = R' * 2 ^ xs.length + wnum W xs.reverse := by
      rw [List.reverse_cons, wnum_append, List.length_reverse, List.length_cons, hR', Nat.pow_succ]
      simp only [wnum, Nat.mul_zero, Nat.add_zero]
      grind
    rw [hT'] at hT ⊢
    rw [wnum_append, trace_length rest, List.length_cons]
    simp only [wnum, bit, Nat.mul_zero, Nat.add_zero]
    cases xs with
    | nil =>
      cases rest
      simp only [List.reverse_nil, wnum, List.length_nil, Nat.pow_zero, Nat.mul_one, Nat.add_zero, Nat.one_mul, Nat.zero_add,
        Nat.pow_one] at hT ⊢
      by_cases h : R' = 2 ^ 63
      · rw [if_pos h, decide_eq_false (by omega)]; rfl
      · rw [if_neg h, decide_eq_true (by omega)]; rfl
    | cons y ys =>
      have hp : 2 ≤ 2 ^ (y :: ys).length := by
        rw [List.length_cons, Nat.pow_succ]
        have := Nat.pow_pos (n := ys.length) (show 0 < 2 by decide)
        omega
      have hR2 : R' < 2 ^ 63 := by
        have := Nat.mul_le_mul_left R' hp
        omega
      rw [ih hR2 (by simp) hT, decide_eq_true hR2, Nat.pow_succ]
      simp only [Bool.toNat_true, Nat.mul_one]
      split <;> omega

/-- absolute value of a number below `2^64` read as a signed number -/
def mag (a : Nat) : Nat := if a < 2 ^ 63 then a else 2 ^ 64 - a

theorem absRow_sound (hd : SatAll W d n) {i c : Nat} {k : List Nat → Bool} (h : absRow d n i c k = true) :
    ∃ os, k os = true ∧ os.length = 64 ∧ wnum W os = mag (wnum W (List.range' i 64)) ∧
      W (i + 63) = decide (2 ^ 63 ≤ wnum W (List.range' i 64)) := by
  unfold absRow at h
  obtain ⟨ps, c1, h, h1, h2⟩ := invs_sound hd h
  cases hp : ps.getLast? with
  | none => rw [hp] at h; cases h
  | some p =>
    rw [hp] at h
    simp only [Bool.and_eq_true, Nat.beq_eq] at h
    obtain ⟨h3, h⟩ := h
    have hlen : ps.length = 64 := by
      have := congrArg List.length h1
      simpa using this
    obtain ⟨os, c2, h, hl, h4, h5⟩ := condNeg_sound hd (h2 p (List.mem_of_getLast? hp)) h h2
    rw [h1, hlen] at h5
    rw [h1] at h4
    have htop : W (i + 63) = decide (2 ^ 63 ≤ wnum W (List.range' i 64)) := by
      have e := wnum_range'_succ W i 63
      have hlt := wnum_lt W (List.range' i 63)
      rw [List.length_range'] at hlt
      rw [show 64 = 63 + 1 from rfl, e]
      have := (top_bit (t := W (i + 63)) hlt).2.1
      cases ht : W (i + 63) <;> rw [ht] at this <;> simp only [Bool.not_false, Bool.not_true, decide_eq_true_eq,
        decide_eq_false_iff_not] at this <;> symm
      · rw [decide_eq_false_iff_not]; omega
      · rw [decide_eq_true_eq]; omega
    refine ⟨os, h, by rw [hl, hlen], ?_, htop⟩
    rw [h3] at h4 h5
    have hlt := wnum_lt W (List.range' i 64)
    rw [List.length_range'] at hlt
    generalize wnum W (List.range' i 64) = a at *
    unfold mag
    cases ht : W (i + 63) with
    | true =>
      rw [h5 ht]
      rw [ht] at htop
      have := of_decide_eq_true htop.symm
      rw [if_neg (by omega)]
      exact Nat.mod_eq_of_lt (by omega)
    | false =>
      rw [h4 ht]
      rw [ht] at htop
      have := of_decide_eq_false htop.symm
      rw [if_pos (by omega)]

/-- quotient of the absolute values -/
def uquot (a b : Nat) : Nat := if b = 0 then 2 ^ 64 - (if a = 2 ^ 63 then 2 else 1) else a / b

theorem sdiv_sound (hd : SatAll W d n) {out cA cB cN cF : Nat} {cs : List Nat} (h : sdiv? d n out cA cB cN cs cF = true) :
    let a := wnum W (List.range' 0 64)
    let b := wnum W (List.range' 64 64)
    wnum W (List.range' out 64) = if decide (2 ^ 63 ≤ a) = decide (2 ^ 63 ≤ b) then uquot (mag a) (mag b)
      else (2 ^ 64 - uquot (mag a) (mag b)) % 2 ^ 64 := by
  intro a b
  unfold sdiv? at h
  rw [Bool.and_eq_true, Nat.beq_eq] at h
  obtain ⟨hcs, h⟩ := h
  obtain ⟨as, h, hla, hA, sA⟩ := absRow_sound hd h
  obtain ⟨bs, h, hlb, hB, sB⟩ := absRow_sound hd h
  cases bs with
  | nil => cases h
  | cons b0 bs =>
    obtain ⟨lows, sg, c1, h, hl, e, hneg⟩ := negRow_sound hd h
    obtain ⟨s, c2, h, hs⟩ := invCell_sound hd h
    have hlb' : bs.length = 63 := by simp at hlb; omega
    obtain ⟨qs, h, hlq, _, hc, ht⟩ := sdivRows_sound hd h (by simp; omega) hs
    rw [List.append_nil] at h
    obtain ⟨sq, c3, h, hsq⟩ := cell_sound hd h (idx_full _ _ _) (right2 W 63 127)
    obtain ⟨nsq, c4, h, hnsq⟩ := invCell_sound hd h
    obtain ⟨os, c5, h, hlo, h1, h2⟩ := condNeg_sound hd hnsq h hc
    rw [beq_iff_eq] at h
    subst h
    have hsq' : W sq = (W 63 ^^ W 127) := by rw [hsq]; cases W 63 <;> cases W 127 <;> rfl
    have sA' : W 63 = decide (2 ^ 63 ≤ a) := sA
    have sB' : W 127 = decide (2 ^ 63 ≤ b) := sB
    rw [sA', sB'] at hsq'
    have hR0 : wnum W (b0 :: lows ++ [sg]) + wnum W (b0 :: bs) = 2 ^ 64 * e := by
      rw [List.cons_append]
      simp only [wnum]
      rw [hlb'] at hneg
      omega
    have hRlt : wnum W (b0 :: lows ++ [sg]) < 2 ^ 64 := by
      have := wnum_lt W (b0 :: lows ++ [sg])
      rwa [show (b0 :: lows ++ [sg]).length = 64 by simp; omega] at this
    have ha : a < 2 ^ 64 := by have := wnum_lt W (List.range' 0 64); rwa [List.length_range'] at this
    have hb : b < 2 ^ 64 := by have := wnum_lt W (List.range' 64 64); rwa [List.length_range'] at this
    have hma : mag a ≤ 2 ^ 63 := by unfold mag; split <;> omega
    have hmb : mag b ≤ 2 ^ 63 := by unfold mag; split <;> omega
    have hA' : wnum W as = mag a := hA
    have hB' : wnum W (b0 :: bs) = mag b := hB
    rw [hB'] at ht hR0
    rw [hlq, hcs] at h2
    have hq : wnum W (qs.map Prod.fst) = uquot (mag a) (mag b) := by
      unfold uquot
      split
      · rename_i h0
        rw [h0] at ht hR0
        have hR : wnum W (b0 :: lows ++ [sg]) = 0 := by omega
        rw [hR] at ht
        have := trace_zero ht (by decide) (by intro h; rw [List.reverse_eq_nil_iff] at h; subst h; simp at hla)
          (by rw [List.reverse_reverse, hA', Nat.zero_mul, Nat.zero_add]; exact hma)
        rw [List.reverse_reverse, hA', Nat.zero_mul, Nat.zero_add, List.length_reverse, hla] at this
        exact this
      · rename_i h0
        obtain ⟨r', hr', h3⟩ := trace_quot hmb ht 0 ⟨by omega, Or.inr ⟨by omega, by omega⟩⟩
        rw [List.reverse_reverse, hA', Nat.zero_mul, Nat.zero_add] at h3
        rw [h3, Nat.mul_comm, Nat.mul_add_div (by omega), Nat.div_eq_of_lt hr', Nat.add_zero]
    rw [hq] at h1 h2
    by_cases hsn : decide (2 ^ 63 ≤ a) = decide (2 ^ 63 ≤ b)
    · rw [if_pos hsn]
      exact h1 (by rw [hsq', hsn]; simp)
    · rw [if_neg hsn]
      refine h2 ?_
      rw [hsq']
      cases h3 : decide (2 ^ 63 ≤ a) <;> cases h4 : decide (2 ^ 63 ≤ b) <;> simp_all

end

/-! ### the file -/

def div64File : File :=
  { numGate := 29926, numWire := 30054, ins := [64, 64], outs := [64], gates := (packed 29926 div64Data).map gline }

set_option maxRecDepth 1000000 in
theorem div64_packed : IsPacked div64File 29926 div64Data := ⟨rfl, by decide, by decide, by decide +kernel⟩

set_option maxRecDepth 1000000 in
theorem div64_sdiv : sdiv? div64Data 29926 29990 div64AbsA div64AbsB div64Neg div64Rows div64Sign = true := by decide +kernel

theorem div64_text : Text div64File div64Text := by
  unfold div64Text
  exact packed_text (k := 2) (f := div64File) (by decide +kernel) div64_packed.gates

end

end CC.Bundled
