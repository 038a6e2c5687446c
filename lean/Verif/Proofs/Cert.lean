import Verif.Proofs.Packed

/-!
# Certificates for packed files

A block of lines is checked by computing the truth tables of its wires over at most eight variables (`runLines`). A row of
full and half adders is checked adder by adder (`row`). The certificate says where in the file the lines are. The checkers
are written in continuation passing style, in the form `f x fun y => …`; `f x k = true` means that `f` succeeds and `k`
accepts its result.
-/

namespace CC.Bundled

noncomputable section
open CC Spec Spec.Bristol CC.Bristol

/-! ### lines by position -/

/-- element `i`; written with the recursors because the kernel evaluates this faster -/
def nth (l : List Nat) : Nat → Nat :=
  List.rec (fun _ => 0) (fun b _ rest i => Nat.rec b (fun j _ => rest j) i) l

theorem nth_eq : ∀ (l : List Nat) (i : Nat), nth l i = l[i]?.getD 0
  | [], _ => rfl
  | b :: bs, 0 => rfl
  | b :: bs, i + 1 => by
    show nth bs i = _
    rw [nth_eq bs i]; simp

/-- bits `0` to `15` of the certificate, and the rest -/
def field (c : Nat) (k : Nat → Nat → Bool) : Bool :=
  force (Nat.land c 65535) fun p => force (Nat.shiftRight c 16) fun c' => k p c'

/-- line `p` of a file with `n` lines -/
def withLine (d : List Nat) (n p : Nat) (k : Nat → Bool) : Bool :=
  Nat.blt p n && force (Nat.land (Nat.shiftRight (nth d (Nat.div p 256)) (Nat.mul 64 (Nat.mod p 256))) 18446744073709551615) k

theorem field_sound {c : Nat} {k : Nat → Nat → Bool} (h : field c k = true) : ∃ p c', k p c' = true := by
  simp only [field, force_eq] at h
  exact ⟨_, _, h⟩

theorem withLine_sound {d : List Nat} {n p : Nat} {k : Nat → Bool} (h : withLine d n p k = true) :
    p < n ∧ k (lineAt d p) = true := by
  simp only [withLine, Bool.and_eq_true, force_eq] at h
  refine ⟨Nat.le_of_ble_eq_true h.1, ?_⟩
  have e : Nat.land (Nat.shiftRight (nth d (Nat.div p 256)) (Nat.mul 64 (Nat.mod p 256))) 18446744073709551615 = lineAt d p := by
    show (nth d (p / 256)) >>> (64 * (p % 256)) &&& (2 ^ 64 - 1) = _
    rw [Nat.and_two_pow_sub_one_eq_mod, nth_eq]
    rfl
  rw [e] at h
  exact h.2

/-- operation and wires of a line -/
def parts (x : Nat) (k : Nat → Nat → Nat → Nat → Bool) : Bool :=
  force (Nat.shiftRight x 60) fun op => force (Nat.land (Nat.shiftRight x 40) 1048575) fun a =>
    force (Nat.land (Nat.shiftRight x 20) 1048575) fun b => force (Nat.land x 1048575) fun o => k op a b o

theorem parts_eq (x : Nat) (k : Nat → Nat → Nat → Nat → Bool) :
    parts x k = k (x >>> 60) (lineA x) (lineB x) (lineO x) := by
  have e : ∀ y : Nat, Nat.land y 1048575 = y % 2 ^ 20 := fun y => Nat.and_two_pow_sub_one_eq_mod y 20
  simp only [parts, force_eq, e]
  rfl

/-! ### truth tables -/

/-- wires and their truth tables -/
abbrev Tables := List (Nat × Nat)

def table (m : Tables) (x : Nat) (k : Nat → Bool) : Bool :=
  List.rec false (fun e _ rest => Bool.rec rest (k e.2) (Nat.beq e.1 x)) m

/-- truth table of the output of a line -/
def runLine (full : Nat) (m : Tables) (x : Nat) (k : Tables → Bool) : Bool :=
  parts x fun op a b o => table m a fun s =>
    match op with
    | 0 => table m b fun t => force (Nat.xor s t) fun u => k ((o, u) :: m)
    | 1 => table m b fun t => force (Nat.land s t) fun u => k ((o, u) :: m)
    | _ + 2 => force (Nat.xor s full) fun u => k ((o, u) :: m)

/-- truth tables of the outputs of `l` lines -/
def runLines (d : List Nat) (n full : Nat) : Nat → Nat → Tables → (Tables → Nat → Bool) → Bool
  | 0, c, m, k => k m c
  | l + 1, c, m, k => field c fun p c' => withLine d n p fun x => runLine full m x fun m' => runLines d n full l c' m' k

/-- under the assignment with number `i`, the tables give the values of the wires -/
def Right (W : Nat → Bool) (i : Nat) (m : Tables) : Prop := ∀ e ∈ m, W e.1 = e.2.testBit i

theorem table_sound {W : Nat → Bool} {i x : Nat} {k : Nat → Bool} : ∀ {m : Tables}, table m x k = true → Right W i m →
    ∃ t, W x = t.testBit i ∧ k t = true
  | [], h, _ => by cases h
  | (w, t) :: m, h, hm => by
    change Bool.rec (table m x k) (k t) (Nat.beq w x) = true at h
    cases hw : Nat.beq w x with
    | true =>
      rw [hw] at h
      have := Nat.eq_of_beq_eq_true hw
      subst this
      exact ⟨t, hm (w, t) (by simp), h⟩
    | false =>
      rw [hw] at h
      exact table_sound h fun e he => hm e (by simp [he])

theorem Right.cons {W : Nat → Bool} {i o u : Nat} {m : Tables} (h : Right W i m) (ho : W o = u.testBit i) : Right W i ((o, u) :: m) := by
  intro e he
  rcases List.mem_cons.mp he with rfl | he
  · exact ho
  · exact h e he

theorem runLine_sound {W : Nat → Bool} {i x full : Nat} {m : Tables} {k : Tables → Bool} (h : runLine full m x k = true)
    (hf : full.testBit i = true) (hm : Right W i m) (hx : Sat W x) : ∃ m', k m' = true ∧ Right W i m' := by
  unfold runLine at h
  rw [parts_eq] at h
  obtain ⟨s, hs, h⟩ := table_sound h hm
  unfold Sat at hx
  rcases op_cases x with hop | hop | ⟨j, hop⟩ <;> simp only [hop] at h hx
  · obtain ⟨t, ht, h⟩ := table_sound h hm
    rw [force_eq] at h
    refine ⟨_, h, hm.cons ?_⟩
    show _ = (s ^^^ t).testBit i
    rw [hx, hs, ht, Nat.testBit_xor]
  · obtain ⟨t, ht, h⟩ := table_sound h hm
    rw [force_eq] at h
    refine ⟨_, h, hm.cons ?_⟩
    show _ = (s &&& t).testBit i
    rw [hx, hs, ht, Nat.testBit_and]
  · rw [force_eq] at h
    refine ⟨_, h, hm.cons ?_⟩
    show _ = (s ^^^ full).testBit i
    rw [hx, hs, Nat.testBit_xor, hf]
    cases s.testBit i <;> rfl

/-- the wire values satisfy the lines of a file -/
def SatAll (W : Nat → Bool) (d : List Nat) (n : Nat) : Prop := ∀ p, p < n → Sat W (lineAt d p)

theorem runLines_sound {W : Nat → Bool} {d : List Nat} {n i full : Nat} (hd : SatAll W d n) (hf : full.testBit i = true) :
    ∀ {l c : Nat} {m : Tables} {k : Tables → Nat → Bool}, runLines d n full l c m k = true → Right W i m →
    ∃ m' c', k m' c' = true ∧ Right W i m'
  | 0, c, m, k, h, hm => ⟨m, c, h, hm⟩
  | l + 1, c, m, k, h, hm => by
    obtain ⟨p, c', h⟩ := field_sound h
    obtain ⟨hp, h⟩ := withLine_sound h
    obtain ⟨m', h, hm'⟩ := runLine_sound h hf hm (hd p hp)
    exact runLines_sound hd hf h hm'

/-! ### numbers carried by wires -/

/-- the number carried by wires, least significant first -/
def wnum (W : Nat → Bool) : List Nat → Nat
  | [] => 0
  | x :: xs => (W x).toNat + 2 * wnum W xs

/-- the bit carried by an optional wire -/
def obit (W : Nat → Bool) : Option Nat → Nat
  | none => 0
  | some x => (W x).toNat

def onum (W : Nat → Bool) : List (Option Nat) → Nat
  | [] => 0
  | x :: xs => obit W x + 2 * onum W xs

theorem onum_some (W : Nat → Bool) : ∀ xs : List Nat, onum W (xs.map some) = wnum W xs
  | [] => rfl
  | x :: xs => by
    show (W x).toNat + 2 * onum W (xs.map some) = _
    rw [onum_some W xs]; rfl

theorem onum_append (W : Nat → Bool) (ys : List (Option Nat)) : ∀ xs : List (Option Nat),
    onum W (xs ++ ys) = onum W xs + 2 ^ xs.length * onum W ys
  | [] => by simp [onum]
  | x :: xs => by
    show obit W x + 2 * onum W (xs ++ ys) = obit W x + 2 * onum W xs + 2 ^ (xs.length + 1) * onum W ys
    rw [onum_append W ys xs, Nat.pow_succ, Nat.mul_add, Nat.mul_comm _ 2, Nat.mul_assoc]
    omega

theorem wnum_append (W : Nat → Bool) (ys : List Nat) : ∀ xs : List Nat, wnum W (xs ++ ys) = wnum W xs + 2 ^ xs.length * wnum W ys
  | [] => by simp [wnum]
  | x :: xs => by
    show (W x).toNat + 2 * wnum W (xs ++ ys) = (W x).toNat + 2 * wnum W xs + 2 ^ (xs.length + 1) * wnum W ys
    rw [wnum_append W ys xs, Nat.pow_succ, Nat.mul_add, Nat.mul_comm _ 2, Nat.mul_assoc]
    omega

theorem wnum_lt (W : Nat → Bool) : ∀ xs : List Nat, wnum W xs < 2 ^ xs.length
  | [] => Nat.one_pos
  | x :: xs => by
    have := wnum_lt W xs
    have hb : (W x).toNat ≤ 1 := by cases W x <;> decide
    simp only [wnum, List.length_cons, Nat.pow_succ]
    omega

theorem wnum_testBit (W : Nat → Bool) : ∀ (xs : List Nat) (i : Nat), (wnum W xs).testBit i = (xs[i]?.map W).getD false
  | [], i => by simp [wnum]
  | x :: xs, 0 => by
    simp only [wnum, Nat.testBit_zero, List.getElem?_cons_zero, Option.map_some, Option.getD_some]
    cases W x <;> simp [Nat.add_mod]
  | x :: xs, i + 1 => by
    rw [Nat.testBit_succ, List.getElem?_cons_succ, ← wnum_testBit W xs i]
    congr 1
    simp only [wnum]
    cases W x <;> simp only [Bool.toNat_true, Bool.toNat_false] <;> omega

theorem wnum_range' (W : Nat → Bool) {s n i : Nat} (hi : i < n) : (wnum W (List.range' s n)).testBit i = W (s + i) := by
  rw [wnum_testBit, List.getElem?_range' hi]
  simp

theorem wnum_range'_eq (W : Nat → Bool) {s n v : Nat} (hv : v < 2 ^ n) (h : ∀ i, i < n → W (s + i) = v.testBit i) :
    wnum W (List.range' s n) = v := by
  apply Nat.eq_of_testBit_eq
  intro i
  by_cases hi : i < n
  · rw [wnum_range' W hi, h i hi]
  · have h1 := wnum_lt W (List.range' s n)
    rw [List.length_range'] at h1
    have h2 : 2 ^ n ≤ 2 ^ i := Nat.pow_le_pow_right (by decide) (by omega)
    rw [Nat.testBit_lt_two_pow (by omega), Nat.testBit_lt_two_pow (by omega)]

/-! ### adders -/

/-- the tables of the wires that are present -/
def inTables : Option Nat → Option Nat → Option Nat → Tables
  | x, y, z => (match x with | some x => [(x, 0xAA)] | none => []) ++ (match y with | some y => [(y, 0xCC)] | none => []) ++
      (match z with | some z => [(z, 0xF0)] | none => [])

/-- tables of sum and carry -/
def sumTables : Option Nat → Option Nat → Option Nat → Nat × Nat
  | some _, some _, some _ => (0x96, 0xE8)
  | some _, some _, none => (0x66, 0x88)
  | some _, none, some _ => (0x5A, 0xA0)
  | none, some _, some _ => (0x3C, 0xC0)
  | some _, none, none => (0xAA, 0)
  | none, some _, none => (0xCC, 0)
  | none, none, some _ => (0xF0, 0)
  | none, none, none => (0, 0)

/-- an adder: the certificate gives the wires of sum and carry and six lines -/
def adder (d : List Nat) (n : Nat) (x y z : Option Nat) (c : Nat) (k : Nat → Nat → Nat → Bool) : Bool :=
  field c fun s c => field c fun o c => runLines d n 0xFF 6 c (inTables x y z) fun m c =>
    table m s fun t => Nat.beq t (sumTables x y z).1 && table m o fun u => Nat.beq u (sumTables x y z).2 && k s o c

theorem adder_sound {W : Nat → Bool} {d : List Nat} {n : Nat} (hd : SatAll W d n) {x y z : Option Nat} {c : Nat}
    {k : Nat → Nat → Nat → Bool} (h : adder d n x y z c k = true) :
    ∃ s o c', k s o c' = true ∧ (W s).toNat + 2 * (W o).toNat = obit W x + obit W y + obit W z := by
  unfold adder at h
  obtain ⟨s, c1, h⟩ := field_sound h
  obtain ⟨o, c2, h⟩ := field_sound h
  have hi : obit W x + 2 * obit W y + 4 * obit W z < 8 ∧
      Right W (obit W x + 2 * obit W y + 4 * obit W z) (inTables x y z) := by
    have hb : ∀ x, obit W x = 0 ∨ obit W x = 1 := by
      intro x
      cases x with
      | none => exact .inl rfl
      | some x => unfold obit; cases W x <;> simp
    refine ⟨by rcases hb x with e | e <;> rcases hb y with f | f <;> rcases hb z with g | g <;> omega, ?_⟩
    intro e he
    unfold inTables at he
    rcases List.mem_append.mp he with he | he
    · rcases List.mem_append.mp he with he | he
      · cases x with
        | none => cases he
        | some x =>
          simp only [List.mem_cons, List.not_mem_nil, or_false] at he
          subst he
          rcases hb y with f | f <;> rcases hb z with g | g <;> simp only [f, g] <;> simp only [obit] <;> cases W x <;> decide
      · cases y with
        | none => cases he
        | some y =>
          simp only [List.mem_cons, List.not_mem_nil, or_false] at he
          subst he
          rcases hb x with f | f <;> rcases hb z with g | g <;> simp only [f, g] <;> simp only [obit] <;> cases W y <;> decide
    · cases z with
      | none => cases he
      | some z =>
        simp only [List.mem_cons, List.not_mem_nil, or_false] at he
        subst he
        rcases hb x with f | f <;> rcases hb y with g | g <;> simp only [f, g] <;> simp only [obit] <;> cases W z <;> decide
  obtain ⟨m, c3, h, hm⟩ := runLines_sound hd (i := obit W x + 2 * obit W y + 4 * obit W z) (by
    have : ∀ i, i < 8 → Nat.testBit 0xFF i = true := by decide
    exact this _ hi.1) h hi.2
  obtain ⟨t, ht, h⟩ := table_sound h hm
  rw [Bool.and_eq_true] at h
  obtain ⟨h1, h⟩ := h
  obtain ⟨u, hu, h⟩ := table_sound h hm
  rw [Bool.and_eq_true] at h
  obtain ⟨h2, h⟩ := h
  have h1 := Nat.eq_of_beq_eq_true h1
  have h2 := Nat.eq_of_beq_eq_true h2
  subst h1; subst h2
  refine ⟨s, o, c3, h, ?_⟩
  rw [ht, hu]
  cases x with
  | none =>
    cases y with
    | none =>
      cases z with
      | none => simp only [obit, sumTables]; decide
      | some z => simp only [obit, sumTables]; cases W z <;> decide
    | some y =>
      cases z with
      | none => simp only [obit, sumTables]; cases W y <;> decide
      | some z => simp only [obit, sumTables]; cases W y <;> cases W z <;> decide
  | some x =>
    cases y with
    | none =>
      cases z with
      | none => simp only [obit, sumTables]; cases W x <;> decide
      | some z => simp only [obit, sumTables]; cases W x <;> cases W z <;> decide
    | some y =>
      cases z with
      | none => simp only [obit, sumTables]; cases W x <;> cases W y <;> decide
      | some z => simp only [obit, sumTables]; cases W x <;> cases W y <;> cases W z <;> decide

/-- a row of adders: `k` gets the wires of the sum, the last carry, and the rest of the certificate -/
def row (d : List Nat) (n : Nat) : List (Option Nat) → List (Option Nat) → Option Nat → Nat →
    (List Nat → Option Nat → Nat → Bool) → Bool
  | x :: xs, y :: ys, z, c, k => adder d n x y z c fun s o c => row d n xs ys (some o) c fun ss o c => k (s :: ss) o c
  | [], [], z, c, k => k [] z c
  | _, _, _, _, _ => false

theorem row_sound {W : Nat → Bool} {d : List Nat} {n : Nat} (hd : SatAll W d n) : ∀ {xs ys : List (Option Nat)} {z : Option Nat} {c : Nat}
    {k : List Nat → Option Nat → Nat → Bool}, row d n xs ys z c k = true → ∃ ss o c', k ss o c' = true ∧ ss.length = xs.length ∧
      wnum W ss + 2 ^ xs.length * obit W o = onum W xs + onum W ys + obit W z
  | x :: xs, y :: ys, z, c, k, h => by
    unfold row at h
    obtain ⟨s, o, c1, h, h1⟩ := adder_sound hd h
    obtain ⟨ss, o', c2, h, hl, h2⟩ := row_sound hd h
    refine ⟨s :: ss, o', c2, h, by simp [hl], ?_⟩
    simp only [wnum, onum, List.length_cons, Nat.pow_succ, Nat.mul_assoc, Nat.mul_left_comm _ 2]
    have e : obit W (some o) = (W o).toNat := rfl
    rw [e] at h2
    omega
  | [], [], z, c, k, h => ⟨[], z, c, h, rfl, by simp [wnum, onum]⟩
  | [], _ :: _, _, _, _, h => by cases h
  | _ :: _, [], _, _, _, h => by cases h

/-! ### cells -/

/-- number of an assignment of three bits -/
def idx (x y z : Bool) : Nat := x.toNat + 2 * y.toNat + 4 * z.toNat

def tab2 (x y : Nat) : Tables := [(x, 0xAA), (y, 0xCC)]
def tab3 (x y z : Nat) : Tables := [(x, 0xAA), (y, 0xCC), (z, 0xF0)]

theorem idx_lt (x y z : Bool) : idx x y z < 8 := by cases x <;> cases y <;> cases z <;> decide

theorem idx_full (x y z : Bool) : Nat.testBit 0xFF (idx x y z) = true := by cases x <;> cases y <;> cases z <;> decide

theorem right3 (W : Nat → Bool) (x y z : Nat) : Right W (idx (W x) (W y) (W z)) (tab3 x y z) := by
  intro e he
  simp only [tab3, List.mem_cons, List.not_mem_nil, or_false] at he
  rcases he with rfl | rfl | rfl <;> simp only [] <;> cases W x <;> cases W y <;> cases W z <;> decide

theorem right2 (W : Nat → Bool) (x y : Nat) : Right W (idx (W x) (W y) false) (tab2 x y) := by
  intro e he
  simp only [tab2, List.mem_cons, List.not_mem_nil, or_false] at he
  rcases he with rfl | rfl <;> simp only [] <;> cases W x <;> cases W y <;> decide

/-- `l` lines compute a wire with truth table `t` -/
def cell (d : List Nat) (n full l : Nat) (ins : Tables) (t c : Nat) (k : Nat → Nat → Bool) : Bool :=
  field c fun o c => runLines d n full l c ins fun m c => table m o fun u => Nat.beq u t && k o c

/-- `l` lines compute wires with truth tables `t` and `u` -/
def cell2 (d : List Nat) (n full l : Nat) (ins : Tables) (t u c : Nat) (k : Nat → Nat → Nat → Bool) : Bool :=
  field c fun s c => field c fun o c => runLines d n full l c ins fun m c => table m s fun t' => Nat.beq t' t &&
    table m o fun u' => Nat.beq u' u && k s o c

theorem cell_sound {W : Nat → Bool} {d : List Nat} {n full l i : Nat} (hd : SatAll W d n) {ins : Tables} {t c : Nat}
    {k : Nat → Nat → Bool} (h : cell d n full l ins t c k = true) (hi : full.testBit i = true) (hr : Right W i ins) :
    ∃ o c', k o c' = true ∧ W o = t.testBit i := by
  obtain ⟨o, c1, h⟩ := field_sound h
  obtain ⟨m, c2, h, hm⟩ := runLines_sound hd hi h hr
  obtain ⟨u, hu, h⟩ := table_sound h hm
  rw [Bool.and_eq_true, Nat.beq_eq] at h
  exact ⟨o, c2, h.2, h.1 ▸ hu⟩

theorem cell2_sound {W : Nat → Bool} {d : List Nat} {n full l i : Nat} (hd : SatAll W d n) {ins : Tables} {t u c : Nat}
    {k : Nat → Nat → Nat → Bool} (h : cell2 d n full l ins t u c k = true) (hi : full.testBit i = true) (hr : Right W i ins) :
    ∃ s o c', k s o c' = true ∧ W s = t.testBit i ∧ W o = u.testBit i := by
  obtain ⟨s, c1, h⟩ := field_sound h
  obtain ⟨o, c1, h⟩ := field_sound h
  obtain ⟨m, c2, h, hm⟩ := runLines_sound hd hi h hr
  obtain ⟨t', ht, h⟩ := table_sound h hm
  rw [Bool.and_eq_true, Nat.beq_eq] at h
  obtain ⟨e1, h⟩ := h
  obtain ⟨u', hu, h⟩ := table_sound h hm
  rw [Bool.and_eq_true, Nat.beq_eq] at h
  exact ⟨s, o, c2, h.2, e1 ▸ ht, h.1 ▸ hu⟩

/-- the lines compute the disjunction of `x` and `y` -/
def orCell (d : List Nat) (n x y c : Nat) (k : Nat → Nat → Bool) : Bool := cell d n 0xFF 3 (tab2 x y) 0xEE c k

theorem orCell_sound {W : Nat → Bool} {d : List Nat} {n : Nat} (hd : SatAll W d n) {x y c : Nat} {k : Nat → Nat → Bool}
    (h : orCell d n x y c k = true) : ∃ o c', k o c' = true ∧ W o = (W x || W y) := by
  obtain ⟨o, c', h, ho⟩ := cell_sound hd h (idx_full _ _ _) (right2 W x y)
  refine ⟨o, c', h, ?_⟩
  rw [ho]
  cases W x <;> cases W y <;> decide

/-- the lines compute `y` if `s` is set and `z` otherwise -/
def muxCell (d : List Nat) (n s y z c : Nat) (k : Nat → Nat → Bool) : Bool := cell d n 0xFF 3 (tab3 s y z) 0xD8 c k

theorem muxCell_sound {W : Nat → Bool} {d : List Nat} {n : Nat} (hd : SatAll W d n) {s y z c : Nat} {k : Nat → Nat → Bool}
    (h : muxCell d n s y z c k = true) : ∃ o c', k o c' = true ∧ W o = if W s then W y else W z := by
  obtain ⟨o, c', h, ho⟩ := cell_sound hd h (idx_full _ _ _) (right3 W s y z)
  refine ⟨o, c', h, ?_⟩
  rw [ho]
  cases W s <;> cases W y <;> cases W z <;> decide

/-- choose between two lists of wires -/
def muxRow (d : List Nat) (n s : Nat) : List Nat → List Nat → Nat → (List Nat → Nat → Bool) → Bool
  | y :: ys, z :: zs, c, k => muxCell d n s y z c fun o c => muxRow d n s ys zs c fun os c => k (o :: os) c
  | [], [], c, k => k [] c
  | _, _, _, _ => false

theorem muxRow_sound {W : Nat → Bool} {d : List Nat} {n : Nat} (hd : SatAll W d n) {s : Nat} : ∀ {ys zs : List Nat} {c : Nat}
    {k : List Nat → Nat → Bool}, muxRow d n s ys zs c k = true → ∃ os c', k os c' = true ∧ os.length = ys.length ∧
      wnum W os = if W s then wnum W ys else wnum W zs
  | y :: ys, z :: zs, c, k, h => by
    unfold muxRow at h
    obtain ⟨o, c1, h, h1⟩ := muxCell_sound hd h
    obtain ⟨os, c2, h, hl, h2⟩ := muxRow_sound hd h
    refine ⟨o :: os, c2, h, by simp [hl], ?_⟩
    simp only [wnum, h1, h2]
    cases W s <;> rfl
  | [], [], c, k, h => ⟨[], c, h, rfl, by simp [wnum]⟩
  | [], _ :: _, _, _, h => by cases h
  | _ :: _, [], _, _, h => by cases h

/-- a subtractor: difference and borrow of `x - y - z` -/
def subCell (d : List Nat) (n x y : Nat) (z : Option Nat) (c : Nat) (k : Nat → Nat → Nat → Bool) : Bool :=
  match z with
  | none => cell2 d n 0xFF 5 (tab2 x y) 0x66 0x44 c k
  | some z => cell2 d n 0xFF 5 (tab3 x y z) 0x96 0xD4 c k

theorem subCell_sound {W : Nat → Bool} {d : List Nat} {n : Nat} (hd : SatAll W d n) {x y : Nat} {z : Option Nat} {c : Nat}
    {k : Nat → Nat → Nat → Bool} (h : subCell d n x y z c k = true) : ∃ s o c', k s o c' = true ∧
      (W s).toNat + (W y).toNat + obit W z = (W x).toNat + 2 * (W o).toNat := by
  cases z with
  | none =>
    obtain ⟨s, o, c', h, hs, ho⟩ := cell2_sound hd h (idx_full _ _ _) (right2 W x y)
    refine ⟨s, o, c', h, ?_⟩
    rw [hs, ho]
    simp only [obit]
    cases W x <;> cases W y <;> decide
  | some z =>
    obtain ⟨s, o, c', h, hs, ho⟩ := cell2_sound hd h (idx_full _ _ _) (right3 W x y z)
    refine ⟨s, o, c', h, ?_⟩
    rw [hs, ho]
    simp only [obit]
    cases W x <;> cases W y <;> cases W z <;> decide

/-- a row of subtractors -/
def subRow (d : List Nat) (n : Nat) : List Nat → List Nat → Option Nat → Nat → (List Nat → Option Nat → Nat → Bool) → Bool
  | x :: xs, y :: ys, z, c, k => subCell d n x y z c fun s o c => subRow d n xs ys (some o) c fun ss o c => k (s :: ss) o c
  | [], [], z, c, k => k [] z c
  | _, _, _, _, _ => false

theorem subRow_sound {W : Nat → Bool} {d : List Nat} {n : Nat} (hd : SatAll W d n) : ∀ {xs ys : List Nat} {z : Option Nat} {c : Nat}
    {k : List Nat → Option Nat → Nat → Bool}, subRow d n xs ys z c k = true → ∃ ss o c', k ss o c' = true ∧ ss.length = xs.length ∧
      wnum W ss + wnum W ys + obit W z = wnum W xs + 2 ^ xs.length * obit W o
  | x :: xs, y :: ys, z, c, k, h => by
    unfold subRow at h
    obtain ⟨s, o, c1, h, h1⟩ := subCell_sound hd h
    obtain ⟨ss, o', c2, h, hl, h2⟩ := subRow_sound hd h
    refine ⟨s :: ss, o', c2, h, by simp [hl], ?_⟩
    simp only [wnum, List.length_cons, Nat.pow_succ, Nat.mul_assoc, Nat.mul_left_comm _ 2]
    have e : obit W (some o) = (W o).toNat := rfl
    rw [e] at h2
    omega
  | [], [], z, c, k, h => ⟨[], z, c, h, rfl, by simp [wnum]⟩
  | [], _ :: _, _, _, _, h => by cases h
  | _ :: _, [], _, _, _, h => by cases h

theorem wnum_range'_succ (W : Nat → Bool) (s n : Nat) :
    wnum W (List.range' s (n + 1)) = wnum W (List.range' s n) + 2 ^ n * (W (s + n)).toNat := by
  induction n generalizing s with
  | zero => simp [wnum]
  | succ n ih =>
    rw [List.range'_succ, wnum, ih (s + 1), List.range'_succ, wnum, Nat.pow_succ, show s + 1 + n = s + (n + 1) by omega]
    rw [Nat.mul_add, Nat.mul_comm (2 ^ n) 2, Nat.mul_assoc]
    omega

def invCell (d : List Nat) (n x c : Nat) (k : Nat → Nat → Bool) : Bool := cell d n 0xFF 1 (tab2 x x) 0x55 c k

theorem invCell_sound {W : Nat → Bool} {d : List Nat} {n : Nat} (hd : SatAll W d n) {x c : Nat} {k : Nat → Nat → Bool}
    (h : invCell d n x c k = true) : ∃ q c', k q c' = true ∧ W q = !W x := by
  obtain ⟨q, c', h, hq⟩ := cell_sound hd h (idx_full _ _ _) (right2 W x x)
  refine ⟨q, c', h, ?_⟩
  rw [hq]
  cases W x <;> decide

end

end CC.Bundled
