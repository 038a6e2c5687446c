import Verif.Spec.Aes

/-!
# AES-128 on bits

The linear steps of the cipher are written for an arbitrary type of bits with an operation `f` in the place of exclusive or. With
`Bool` they compute the cipher; with numbers that stand for sums of variables they compute the cipher symbolically. `pack`
connects the bits with the bytes of `Spec.Aes`.
-/

namespace CC.Aes
open CC CC.Spec CC.Spec.Aes

/-- the bits of a byte -/
structure B (α : Type) where
  b7 : α
  b6 : α
  b5 : α
  b4 : α
  b3 : α
  b2 : α
  b1 : α
  b0 : α
deriving DecidableEq

/-- four bytes -/
structure Col (α : Type) where
  r0 : B α
  r1 : B α
  r2 : B α
  r3 : B α

/-- 16 bytes -/
structure St (α : Type) where
  c0 : Col α
  c1 : Col α
  c2 : Col α
  c3 : Col α

section
variable {α β : Type}

def B.map (g : α → β) (x : B α) : B β := ⟨g x.b7, g x.b6, g x.b5, g x.b4, g x.b3, g x.b2, g x.b1, g x.b0⟩
def Col.map (g : α → β) (x : Col α) : Col β := ⟨x.r0.map g, x.r1.map g, x.r2.map g, x.r3.map g⟩
def St.map (g : α → β) (x : St α) : St β := ⟨x.c0.map g, x.c1.map g, x.c2.map g, x.c3.map g⟩

/-- bits, most significant first -/
def B.list (x : B α) : List α := [x.b7, x.b6, x.b5, x.b4, x.b3, x.b2, x.b1, x.b0]
def Col.list (x : Col α) : List α := x.r0.list ++ x.r1.list ++ x.r2.list ++ x.r3.list
def St.list (x : St α) : List α := x.c0.list ++ x.c1.list ++ x.c2.list ++ x.c3.list

variable (f : α → α → α)

def B.add (x y : B α) : B α :=
  ⟨f x.b7 y.b7, f x.b6 y.b6, f x.b5 y.b5, f x.b4 y.b4, f x.b3 y.b3, f x.b2 y.b2, f x.b1 y.b1, f x.b0 y.b0⟩
def Col.add (x y : Col α) : Col α := ⟨x.r0.add f y.r0, x.r1.add f y.r1, x.r2.add f y.r2, x.r3.add f y.r3⟩
def St.add (x y : St α) : St α := ⟨x.c0.add f y.c0, x.c1.add f y.c1, x.c2.add f y.c2, x.c3.add f y.c3⟩

def B.xtime (x : B α) : B α := ⟨x.b6, x.b5, x.b4, f x.b3 x.b7, f x.b2 x.b7, x.b1, f x.b0 x.b7, x.b7⟩

/-- 2x + 3y + z + w -/
def mix1 (x y z w : B α) : B α := (((x.xtime f).add f ((y.xtime f).add f y)).add f z).add f w
def Col.mix (x : Col α) : Col α :=
  ⟨mix1 f x.r0 x.r1 x.r2 x.r3, mix1 f x.r1 x.r2 x.r3 x.r0, mix1 f x.r2 x.r3 x.r0 x.r1, mix1 f x.r3 x.r0 x.r1 x.r2⟩
def St.mix (x : St α) : St α := ⟨x.c0.mix f, x.c1.mix f, x.c2.mix f, x.c3.mix f⟩

def St.shift (x : St α) : St α :=
  ⟨⟨x.c0.r0, x.c1.r1, x.c2.r2, x.c3.r3⟩, ⟨x.c1.r0, x.c2.r1, x.c3.r2, x.c0.r3⟩,
    ⟨x.c2.r0, x.c3.r1, x.c0.r2, x.c1.r3⟩, ⟨x.c3.r0, x.c0.r1, x.c1.r2, x.c2.r3⟩⟩

/-- the next round key; `t` is the substituted word, `rc` the round constant -/
def St.next (k : St α) (t : Col α) (rc : B α) : St α :=
  let w4 := k.c0.add f ⟨t.r0.add f rc, t.r1, t.r2, t.r3⟩
  let w5 := k.c1.add f w4
  let w6 := k.c2.add f w5
  let w7 := k.c3.add f w6
  ⟨w4, w5, w6, w7⟩

end

/-! ### homomorphisms -/

section
variable {α β : Type} {f : α → α → α} {f' : β → β → β} {g : α → β} (h : ∀ x y, g (f x y) = f' (g x) (g y))
include h

theorem B.map_add (x y : B α) : (x.add f y).map g = (x.map g).add f' (y.map g) := by
  simp only [B.map, B.add, h]

theorem Col.map_add (x y : Col α) : (x.add f y).map g = (x.map g).add f' (y.map g) := by
  simp only [Col.map, Col.add, B.map_add h]

theorem St.map_add (x y : St α) : (x.add f y).map g = (x.map g).add f' (y.map g) := by
  simp only [St.map, St.add, Col.map_add h]

theorem B.map_xtime (x : B α) : (x.xtime f).map g = (x.map g).xtime f' := by
  simp only [B.map, B.xtime, h]

theorem map_mix1 (x y z w : B α) : (mix1 f x y z w).map g = mix1 f' (x.map g) (y.map g) (z.map g) (w.map g) := by
  simp only [mix1, B.map_add h, B.map_xtime h]

theorem St.map_mix (x : St α) : (x.mix f).map g = (x.map g).mix f' := by
  simp only [St.map, St.mix, Col.mix, Col.map, map_mix1 h]

omit h in
theorem St.map_shift (x : St α) : x.shift.map g = (x.map g).shift := rfl

theorem St.map_next (k : St α) (t : Col α) (rc : B α) : (k.next f t rc).map g = (k.map g).next f' (t.map g) (rc.map g) := by
  simp only [St.map, St.next, Col.map_add h]
  simp only [Col.map, B.map_add h]

end

/-! ### bytes -/

/-- the bits of a number -/
def B.of (x : Nat) : B Bool :=
  ⟨x.testBit 7, x.testBit 6, x.testBit 5, x.testBit 4, x.testBit 3, x.testBit 2, x.testBit 1, x.testBit 0⟩

def B.num (x : B Bool) : Nat := x.b0.toNat + 2 * x.b1.toNat + 4 * x.b2.toNat + 8 * x.b3.toNat + 16 * x.b4.toNat +
  32 * x.b5.toNat + 64 * x.b6.toNat + 128 * x.b7.toNat

theorem B.num_lt (x : B Bool) : x.num < 256 := by
  unfold B.num
  have h : ∀ b : Bool, b.toNat ≤ 1 := by decide
  have h7 := h x.b7
  have h6 := h x.b6
  have h5 := h x.b5
  have h4 := h x.b4
  have h3 := h x.b3
  have h2 := h x.b2
  have h1 := h x.b1
  have h0 := h x.b0
  omega

theorem B.num_of : ∀ x < 256, (B.of x).num = x := by decide +kernel

/-- truth tables of the bits of a byte -/
def base0 : Nat := 0xaaaaaaaaaaaaaaaaaaaaaaaaaaaaaaaaaaaaaaaaaaaaaaaaaaaaaaaaaaaaaaaa
def base1 : Nat := 0xcccccccccccccccccccccccccccccccccccccccccccccccccccccccccccccccc
def base2 : Nat := 0xf0f0f0f0f0f0f0f0f0f0f0f0f0f0f0f0f0f0f0f0f0f0f0f0f0f0f0f0f0f0f0f0
def base3 : Nat := 0xff00ff00ff00ff00ff00ff00ff00ff00ff00ff00ff00ff00ff00ff00ff00ff00
def base4 : Nat := 0xffff0000ffff0000ffff0000ffff0000ffff0000ffff0000ffff0000ffff0000
def base5 : Nat := 0xffffffff00000000ffffffff00000000ffffffff00000000ffffffff00000000
def base6 : Nat := 0xffffffffffffffff0000000000000000ffffffffffffffff0000000000000000
def base7 : Nat := 0xffffffffffffffffffffffffffffffff00000000000000000000000000000000

/-- truth tables of the bits of the substitution box -/
def sub0 : Nat := 0x4f1ead396f247a0410bdb210c006eab568ab4bfa8acb7a13b14ede67096c6eed
def sub1 : Nat := 0xc870974094ead8a96a450b2ef33486b4e61a4c5e97816f7a7bae007d4c53fc7d
def sub2 : Nat := 0xac39b6c0d6ce2efc577d64e03b0c3ffb23a869a2a428c424a16387fb3b48b4c6
def sub3 : Nat := 0x4e9ddb76c892fb1be9da849cf6ac6c1b2568ea2effa8527d109020a2193d586a
def sub4 : Nat := 0xf210a3aece472e532624b286bc48ecb4f7f17a494ce30f58c2b0f97752b8b11e
def sub5 : Nat := 0x54b248130b4f256f7d8dcc4706319e086bc2aa4e0d787aa4f8045f7b6d98dd7f
def sub6 : Nat := 0x21e0b833255917823f6bcb91b30db559e4851b3bf3ab2560980a3cc2c2fdb4ff
def sub7 : Nat := 0x52379de7b844e3e14cb3770196ca0329e7bac28f866aac825caa2ec7bf977090

theorem B.base (x : B Bool) : base7.testBit x.num = x.b7 ∧ base6.testBit x.num = x.b6 ∧ base5.testBit x.num = x.b5 ∧ base4.testBit x.num = x.b4 ∧ base3.testBit x.num = x.b3 ∧ base2.testBit x.num = x.b2 ∧ base1.testBit x.num = x.b1 ∧ base0.testBit x.num = x.b0 := by
  have h : ∀ b7 b6 b5 b4 b3 b2 b1 b0 : Bool, base7.testBit (B.num ⟨b7, b6, b5, b4, b3, b2, b1, b0⟩) = b7 ∧ base6.testBit (B.num ⟨b7, b6, b5, b4, b3, b2, b1, b0⟩) = b6 ∧ base5.testBit (B.num ⟨b7, b6, b5, b4, b3, b2, b1, b0⟩) = b5 ∧ base4.testBit (B.num ⟨b7, b6, b5, b4, b3, b2, b1, b0⟩) = b4 ∧ base3.testBit (B.num ⟨b7, b6, b5, b4, b3, b2, b1, b0⟩) = b3 ∧ base2.testBit (B.num ⟨b7, b6, b5, b4, b3, b2, b1, b0⟩) = b2 ∧ base1.testBit (B.num ⟨b7, b6, b5, b4, b3, b2, b1, b0⟩) = b1 ∧ base0.testBit (B.num ⟨b7, b6, b5, b4, b3, b2, b1, b0⟩) = b0 := by
    decide +kernel
  exact h x.b7 x.b6 x.b5 x.b4 x.b3 x.b2 x.b1 x.b0

/-- the substitution box on bits -/
def B.sub (x : B Bool) : B Bool :=
  ⟨sub7.testBit x.num, sub6.testBit x.num, sub5.testBit x.num, sub4.testBit x.num, sub3.testBit x.num, sub2.testBit x.num, sub1.testBit x.num, sub0.testBit x.num⟩

theorem B.of_sbox {x : Nat} (hx : x < 256) : B.of (sbox x) = (B.of x).sub := by
  have h : ∀ x < 256, (sbox x).testBit 7 = sub7.testBit x ∧ (sbox x).testBit 6 = sub6.testBit x ∧ (sbox x).testBit 5 = sub5.testBit x ∧ (sbox x).testBit 4 = sub4.testBit x ∧ (sbox x).testBit 3 = sub3.testBit x ∧ (sbox x).testBit 2 = sub2.testBit x ∧ (sbox x).testBit 1 = sub1.testBit x ∧ (sbox x).testBit 0 = sub0.testBit x := by
    decide +kernel
  obtain ⟨h7, h6, h5, h4, h3, h2, h1, h0⟩ := h x hx
  simp only [B.of, B.sub] at *
  have e := B.num_of x hx
  simp only [B.of] at e
  rw [e, h7, h6, h5, h4, h3, h2, h1, h0]

theorem sbox_lt : ∀ x < 256, sbox x < 256 := by decide +kernel

theorem B.of_add (x y : Nat) : B.of (x ^^^ y) = (B.of x).add xor (B.of y) := by
  simp only [B.of, B.add, Nat.testBit_xor]

theorem of_mul2 : ∀ x < 256, B.of (mul 2 x) = (B.of x).xtime xor := by decide +kernel
theorem of_mul3 : ∀ x < 256, B.of (mul 3 x) = ((B.of x).xtime xor).add xor (B.of x) := by decide +kernel
theorem mul2_lt : ∀ x < 256, mul 2 x < 256 := by decide +kernel
theorem mul3_lt : ∀ x < 256, mul 3 x < 256 := by decide +kernel

theorem of_mix {x y z w : Nat} (hx : x < 256) (hy : y < 256) :
    B.of (mul 2 x ^^^ mul 3 y ^^^ z ^^^ w) = mix1 xor (B.of x) (B.of y) (B.of z) (B.of w) := by
  simp only [mix1, B.of_add, of_mul2 x hx, of_mul3 y hy]

/-! ### blocks -/

/-- 16 bytes -/
def Block (s : List Nat) : Prop := s.length = 16 ∧ ∀ b ∈ s, b < 256

def Col.of (s : List Nat) (i : Nat) : Col Bool :=
  ⟨B.of (byte s i), B.of (byte s (i + 1)), B.of (byte s (i + 2)), B.of (byte s (i + 3))⟩

def St.of (s : List Nat) : St Bool := ⟨Col.of s 0, Col.of s 4, Col.of s 8, Col.of s 12⟩

def Col.sub (x : Col Bool) : Col Bool := ⟨x.r0.sub, x.r1.sub, x.r2.sub, x.r3.sub⟩
def St.sub (x : St Bool) : St Bool := ⟨x.c0.sub, x.c1.sub, x.c2.sub, x.c3.sub⟩

theorem byte_lt {s : List Nat} (h : ∀ b ∈ s, b < 256) (i : Nat) : byte s i < 256 := by
  unfold byte
  cases e : s[i]? with
  | none => decide
  | some b => exact h b (List.mem_of_getElem? e)

theorem block_range {g : Nat → Nat} (h : ∀ i, g i < 256) : Block ((List.range 16).map g) := by
  refine ⟨by simp, ?_⟩
  intro b hb
  obtain ⟨i, _, rfl⟩ := List.mem_map.mp hb
  exact h i

theorem xor_lt {x y : Nat} (hx : x < 256) (hy : y < 256) : x ^^^ y < 256 := Nat.xor_lt_two_pow (n := 8) hx hy

theorem byte_zipWith {s k : List Nat} (h : s.length = k.length) (i : Nat) : byte (add s k) i = byte s i ^^^ byte k i := by
  unfold byte add
  rw [List.getElem?_zipWith]
  by_cases hi : i < s.length
  · rw [List.getElem?_eq_getElem hi, List.getElem?_eq_getElem (h ▸ hi)]; rfl
  · rw [List.getElem?_eq_none (by omega), List.getElem?_eq_none (l := k) (by omega)]; rfl

theorem add_lt {s k : List Nat} (hs : ∀ b ∈ s, b < 256) (hk : ∀ b ∈ k, b < 256) : ∀ b ∈ add s k, b < 256 := by
  intro b hb
  unfold add at hb
  rw [List.mem_iff_getElem] at hb
  obtain ⟨i, hi, rfl⟩ := hb
  rw [List.getElem_zipWith]
  exact xor_lt (hs _ (List.getElem_mem _)) (hk _ (List.getElem_mem _))

theorem Block.add {s k : List Nat} (hs : Block s) (hk : Block k) : Block (add s k) :=
  ⟨by simp [Spec.Aes.add, hs.1, hk.1], add_lt hs.2 hk.2⟩

theorem of_add {s k : List Nat} (h : s.length = k.length) : St.of (add s k) = (St.of s).add xor (St.of k) := by
  simp only [St.of, Col.of, byte_zipWith h, B.of_add]
  rfl

theorem sub_lt {s : List Nat} (hs : ∀ b ∈ s, b < 256) : ∀ b ∈ subBytes s, b < 256 := by
  intro b hb
  obtain ⟨x, hx, rfl⟩ := List.mem_map.mp hb
  exact sbox_lt x (hs x hx)

theorem Block.sub {s : List Nat} (hs : Block s) : Block (subBytes s) := ⟨by simp [subBytes, hs.1], sub_lt hs.2⟩

theorem byte_sub {s : List Nat} (hs : Block s) {i : Nat} (hi : i < 16) : B.of (byte (subBytes s) i) = (B.of (byte s i)).sub := by
  rw [← B.of_sbox (byte_lt hs.2 i)]
  unfold byte subBytes
  rw [List.getElem?_map, List.getElem?_eq_getElem (by rw [hs.1]; exact hi)]
  rfl

theorem of_sub {s : List Nat} (hs : Block s) : St.of (subBytes s) = (St.of s).sub := by
  simp only [St.of, Col.of]
  rw [byte_sub hs (i := 0) (by decide), byte_sub hs (i := 0 + 1) (by decide), byte_sub hs (i := 0 + 2) (by decide),
    byte_sub hs (i := 0 + 3) (by decide), byte_sub hs (i := 4) (by decide), byte_sub hs (i := 4 + 1) (by decide),
    byte_sub hs (i := 4 + 2) (by decide), byte_sub hs (i := 4 + 3) (by decide), byte_sub hs (i := 8) (by decide),
    byte_sub hs (i := 8 + 1) (by decide), byte_sub hs (i := 8 + 2) (by decide), byte_sub hs (i := 8 + 3) (by decide),
    byte_sub hs (i := 12) (by decide), byte_sub hs (i := 12 + 1) (by decide), byte_sub hs (i := 12 + 2) (by decide),
    byte_sub hs (i := 12 + 3) (by decide)]
  rfl

theorem Block.shift {s : List Nat} (hs : Block s) : Block (shiftRows s) := block_range fun _ => byte_lt hs.2 _

theorem of_shift (s : List Nat) : St.of (shiftRows s) = (St.of s).shift := rfl

theorem Block.mix {s : List Nat} (hs : Block s) : Block (mixColumns s) := by
  refine block_range fun i => ?_
  exact xor_lt (xor_lt (xor_lt (mul2_lt _ (byte_lt hs.2 _)) (mul3_lt _ (byte_lt hs.2 _))) (byte_lt hs.2 _)) (byte_lt hs.2 _)

theorem byte_range {g : Nat → Nat} {i : Nat} (hi : i < 16) : byte ((List.range 16).map g) i = g i := by
  unfold byte
  rw [List.getElem?_map, List.getElem?_range hi]
  rfl

theorem byte_mix {s : List Nat} (hs : Block s) {i : Nat} (hi : i < 16) : B.of (byte (mixColumns s) i) =
    mix1 xor (B.of (byte s ((i % 4 + 0) % 4 + 4 * (i / 4)))) (B.of (byte s ((i % 4 + 1) % 4 + 4 * (i / 4))))
      (B.of (byte s ((i % 4 + 2) % 4 + 4 * (i / 4)))) (B.of (byte s ((i % 4 + 3) % 4 + 4 * (i / 4)))) := by
  unfold mixColumns
  rw [byte_range hi]
  exact of_mix (byte_lt hs.2 _) (byte_lt hs.2 _)

theorem of_mixColumns {s : List Nat} (hs : Block s) : St.of (mixColumns s) = (St.of s).mix xor := by
  simp only [St.of, Col.of]
  rw [byte_mix hs (i := 0) (by decide), byte_mix hs (i := 0 + 1) (by decide), byte_mix hs (i := 0 + 2) (by decide),
    byte_mix hs (i := 0 + 3) (by decide), byte_mix hs (i := 4) (by decide), byte_mix hs (i := 4 + 1) (by decide),
    byte_mix hs (i := 4 + 2) (by decide), byte_mix hs (i := 4 + 3) (by decide), byte_mix hs (i := 8) (by decide),
    byte_mix hs (i := 8 + 1) (by decide), byte_mix hs (i := 8 + 2) (by decide), byte_mix hs (i := 8 + 3) (by decide),
    byte_mix hs (i := 12) (by decide), byte_mix hs (i := 12 + 1) (by decide), byte_mix hs (i := 12 + 2) (by decide),
    byte_mix hs (i := 12 + 3) (by decide)]
  rfl

theorem xtime_lt : ∀ x < 256, xtime x < 256 := by decide +kernel

theorem rcon_lt : ∀ r, rcon r < 256
  | 0 => by decide
  | r + 1 => xtime_lt _ (rcon_lt r)

theorem nextKey_eq (r : Nat) (k : List Nat) : nextKey r k =
    let t i := sbox (byte k i)
    let w4 := [byte k 0 ^^^ (t 13 ^^^ rcon r), byte k 1 ^^^ (t 14 ^^^ 0), byte k 2 ^^^ (t 15 ^^^ 0), byte k 3 ^^^ (t 12 ^^^ 0)]
    let w5 := add [byte k 4, byte k 5, byte k 6, byte k 7] w4
    let w6 := add [byte k 8, byte k 9, byte k 10, byte k 11] w5
    let w7 := add [byte k 12, byte k 13, byte k 14, byte k 15] w6
    w4 ++ w5 ++ w6 ++ w7 := rfl

/-- the word that is substituted in the key schedule -/
def St.rot (k : St Bool) : Col Bool := ⟨k.c3.r1, k.c3.r2, k.c3.r3, k.c3.r0⟩

theorem of_nextKey {r : Nat} {k : List Nat} (hk : Block k) :
    St.of (nextKey r k) = (St.of k).next xor (St.of k).rot.sub (B.of (rcon r)) := by
  rw [nextKey_eq]
  simp only [Nat.xor_zero]
  simp only [St.of, Col.of, byte, Spec.Aes.add, List.zipWith, List.cons_append, List.nil_append, List.getElem?_cons_succ,
    List.getElem?_cons_zero, Option.getD_some, B.of_add]
  simp only [← byte.eq_def]
  simp only [B.of_sbox (byte_lt hk.2 _)]
  rfl

theorem Block.next {r : Nat} {k : List Nat} (hk : Block k) : Block (nextKey r k) := by
  refine ⟨rfl, ?_⟩
  have hw : ∀ i, ∀ b ∈ word k i, b < 256 := by
    intro i b hb
    simp only [word, List.mem_cons, List.not_mem_nil, or_false] at hb
    rcases hb with rfl | rfl | rfl | rfl <;> exact byte_lt hk.2 _
  have h4 : ∀ b ∈ Spec.Aes.add (word k 0) (Spec.Aes.add (subBytes (rotWord (word k 3))) [rcon r, 0, 0, 0]), b < 256 := by
    refine add_lt (hw 0) (add_lt (sub_lt ?_) ?_)
    · intro b hb
      simp only [rotWord, List.mem_cons, List.not_mem_nil, or_false] at hb
      rcases hb with rfl | rfl | rfl | rfl <;> exact byte_lt (hw 3) _
    · intro b hb
      simp only [List.mem_cons, List.not_mem_nil, or_false] at hb
      rcases hb with rfl | rfl | rfl | rfl
      · exact rcon_lt r
      all_goals decide
  have h5 := add_lt (hw 1) h4
  have h6 := add_lt (hw 2) h5
  have h7 := add_lt (hw 3) h6
  intro b hb
  unfold nextKey at hb
  simp only [List.mem_append] at hb
  rcases hb with ((hb | hb) | hb) | hb
  · exact h4 b hb
  · exact h5 b hb
  · exact h6 b hb
  · exact h7 b hb

theorem bits_of {s : List Nat} (hs : s.length = 16) : bits s = (St.of s).list := by
  match s, hs with
  | [a0, a1, a2, a3, a4, a5, a6, a7, a8, a9, a10, a11, a12, a13, a14, a15], _ => rfl

theorem Block.roundKey {key : List Nat} (h : Block key) : ∀ r, Block (roundKey key r)
  | 0 => h
  | r + 1 => (Block.roundKey h r).next

theorem Block.state {key pt : List Nat} (h : Block key) (hp : Block pt) : ∀ r, Block (state key pt r)
  | 0 => hp.add h
  | r + 1 => (Block.state h hp r).sub.shift.mix.add (h.roundKey (r + 1))

theorem Block.encrypt {key pt : List Nat} (h : Block key) (hp : Block pt) : Block (encrypt key pt) :=
  (Block.state h hp 9).sub.shift.add (h.roundKey 10)

theorem of_state {key pt : List Nat} (h : Block key) (hp : Block pt) (r : Nat) : St.of (Spec.Aes.state key pt (r + 1)) =
    ((St.of (Spec.Aes.state key pt r)).sub.shift.mix xor).add xor (St.of (Spec.Aes.roundKey key (r + 1))) := by
  have hs := (Block.state h hp r).sub.shift
  rw [Spec.Aes.state, of_add (by rw [hs.mix.1, (h.roundKey _).1]), of_mixColumns hs, of_shift, of_sub (Block.state h hp r)]

theorem of_encrypt {key pt : List Nat} (h : Block key) (hp : Block pt) : St.of (Spec.Aes.encrypt key pt) =
    ((St.of (Spec.Aes.state key pt 9)).sub.shift).add xor (St.of (Spec.Aes.roundKey key 10)) := by
  have hs := (Block.state h hp 9).sub.shift
  rw [Spec.Aes.encrypt, of_add (by rw [hs.1, (h.roundKey _).1]), of_shift, of_sub (Block.state h hp 9)]

theorem of_roundKey {key : List Nat} (h : Block key) (r : Nat) : St.of (Spec.Aes.roundKey key (r + 1)) =
    (St.of (Spec.Aes.roundKey key r)).next xor (St.of (Spec.Aes.roundKey key r)).rot.sub (B.of (rcon r)) :=
  of_nextKey (h.roundKey r)

end CC.Aes
