/-!
# Spec: AES-128 (FIPS 197)

Bytes are numbers below 256. The state and the key are lists of 16 bytes; byte `r + 4 * c` is in row `r` and column `c`. Section numbers are those of FIPS 197.
-/

namespace CC.Spec.Aes

/-! ### the field with 256 elements -/

/-- multiplication by `x` modulo `x^8 + x^4 + x^3 + x + 1` (section 4.3) -/
def xtime (a : Nat) : Nat := if a < 128 then 2 * a else 2 * a ^^^ 0x11b

/-- multiplication (section 4.3) -/
def mul (a b : Nat) : Nat := (List.range 8).foldr (fun i s => xtime s ^^^ if b.testBit i then a else 0) 0

/-- the multiplicative inverse, `a^254`; zero for zero (section 4.4) -/
def inv (a : Nat) : Nat :=
  let a2 := mul a a
  let a3 := mul a2 a
  let a6 := mul a3 a3
  let a12 := mul a6 a6
  let a15 := mul a12 a3
  let a30 := mul a15 a15
  let a60 := mul a30 a30
  let a120 := mul a60 a60
  let a240 := mul a120 a120
  mul (mul a240 a12) a2

/-! ### the transformations -/

/-- bit `i` of the affine transformation of `b` (section 5.1.1) -/
def affineBit (b i : Nat) : Bool :=
  b.testBit i ^^ b.testBit ((i + 4) % 8) ^^ b.testBit ((i + 5) % 8) ^^ b.testBit ((i + 6) % 8) ^^ b.testBit ((i + 7) % 8) ^^
    Nat.testBit 0x63 i

def affine (b : Nat) : Nat := (List.range 8).foldr (fun i s => 2 * s + (affineBit b i).toNat) 0

/-- the substitution box (section 5.1.1) -/
def sbox (a : Nat) : Nat := affine (inv a)

def byte (s : List Nat) (i : Nat) : Nat := s[i]?.getD 0

def subBytes (s : List Nat) : List Nat := s.map sbox

/-- row `r` is rotated by `r` (section 5.1.2) -/
def shiftRows (s : List Nat) : List Nat := (List.range 16).map fun i => byte s (i % 4 + 4 * ((i / 4 + i % 4) % 4))

/-- section 5.1.3 -/
def mixColumns (s : List Nat) : List Nat := (List.range 16).map fun i =>
  let a r := byte s ((i % 4 + r) % 4 + 4 * (i / 4))
  mul 2 (a 0) ^^^ mul 3 (a 1) ^^^ a 2 ^^^ a 3

/-- section 5.1.4; also the sum of two words -/
def add (s k : List Nat) : List Nat := List.zipWith (· ^^^ ·) s k

/-! ### the key schedule and the cipher -/

def rcon : Nat → Nat
  | 0 => 1
  | r + 1 => xtime (rcon r)

/-- word `i` -/
def word (k : List Nat) (i : Nat) : List Nat := [byte k (4 * i), byte k (4 * i + 1), byte k (4 * i + 2), byte k (4 * i + 3)]

def rotWord (w : List Nat) : List Nat := [byte w 1, byte w 2, byte w 3, byte w 0]

/-- the four words of round key `r + 1` from those of round key `r` (section 5.2) -/
def nextKey (r : Nat) (k : List Nat) : List Nat :=
  let w4 := add (word k 0) (add (subBytes (rotWord (word k 3))) [rcon r, 0, 0, 0])
  let w5 := add (word k 1) w4
  let w6 := add (word k 2) w5
  let w7 := add (word k 3) w6
  w4 ++ w5 ++ w6 ++ w7

def roundKey (key : List Nat) : Nat → List Nat
  | 0 => key
  | r + 1 => nextKey r (roundKey key r)

/-- the state after round `r` -/
def state (key pt : List Nat) : Nat → List Nat
  | 0 => add pt (roundKey key 0)
  | r + 1 => add (mixColumns (shiftRows (subBytes (state key pt r)))) (roundKey key (r + 1))

/-- the ciphertext of the block `pt` (section 5.1) -/
def encrypt (key pt : List Nat) : List Nat := add (shiftRows (subBytes (state key pt 9))) (roundKey key 10)

/-- the bits of some bytes, the most significant bit of each byte first -/
def bits (bs : List Nat) : List Bool := bs.flatMap fun b => (List.range 8).map fun i => b.testBit (7 - i)

/-! ### checks -/

/-- `inv` is the inverse -/
theorem mul_inv : ∀ a < 256, a ≠ 0 → mul a (inv a) = 1 := by decide +kernel

example : inv 0 = 0 := by decide +kernel

/-- sections 4.2, 4.3 and 5.1.1: {57}·{83} = {c1}, {57}·{13} = {fe}, S({53}) = {ed} -/
example : mul 0x57 0x83 = 0xc1 ∧ mul 0x57 0x13 = 0xfe ∧ sbox 0x53 = 0xed := by decide +kernel

/-- appendix C.1 -/
theorem appendixC1 : encrypt [0x00, 0x01, 0x02, 0x03, 0x04, 0x05, 0x06, 0x07, 0x08, 0x09, 0x0a, 0x0b, 0x0c, 0x0d, 0x0e, 0x0f]
    [0x00, 0x11, 0x22, 0x33, 0x44, 0x55, 0x66, 0x77, 0x88, 0x99, 0xaa, 0xbb, 0xcc, 0xdd, 0xee, 0xff] =
    [0x69, 0xc4, 0xe0, 0xd8, 0x6a, 0x7b, 0x04, 0x30, 0xd8, 0xcd, 0xb7, 0x80, 0x70, 0xb4, 0xc5, 0x5a] := by
  have k1 : nextKey 0 [0x00, 0x01, 0x02, 0x03, 0x04, 0x05, 0x06, 0x07, 0x08, 0x09, 0x0a, 0x0b, 0x0c, 0x0d, 0x0e, 0x0f] =
      [0xd6, 0xaa, 0x74, 0xfd, 0xd2, 0xaf, 0x72, 0xfa, 0xda, 0xa6, 0x78, 0xf1, 0xd6, 0xab, 0x76, 0xfe] := by decide +kernel
  have k2 : nextKey 1 [0xd6, 0xaa, 0x74, 0xfd, 0xd2, 0xaf, 0x72, 0xfa, 0xda, 0xa6, 0x78, 0xf1, 0xd6, 0xab, 0x76, 0xfe] =
      [0xb6, 0x92, 0xcf, 0x0b, 0x64, 0x3d, 0xbd, 0xf1, 0xbe, 0x9b, 0xc5, 0x00, 0x68, 0x30, 0xb3, 0xfe] := by decide +kernel
  have k3 : nextKey 2 [0xb6, 0x92, 0xcf, 0x0b, 0x64, 0x3d, 0xbd, 0xf1, 0xbe, 0x9b, 0xc5, 0x00, 0x68, 0x30, 0xb3, 0xfe] =
      [0xb6, 0xff, 0x74, 0x4e, 0xd2, 0xc2, 0xc9, 0xbf, 0x6c, 0x59, 0x0c, 0xbf, 0x04, 0x69, 0xbf, 0x41] := by decide +kernel
  have k4 : nextKey 3 [0xb6, 0xff, 0x74, 0x4e, 0xd2, 0xc2, 0xc9, 0xbf, 0x6c, 0x59, 0x0c, 0xbf, 0x04, 0x69, 0xbf, 0x41] =
      [0x47, 0xf7, 0xf7, 0xbc, 0x95, 0x35, 0x3e, 0x03, 0xf9, 0x6c, 0x32, 0xbc, 0xfd, 0x05, 0x8d, 0xfd] := by decide +kernel
  have k5 : nextKey 4 [0x47, 0xf7, 0xf7, 0xbc, 0x95, 0x35, 0x3e, 0x03, 0xf9, 0x6c, 0x32, 0xbc, 0xfd, 0x05, 0x8d, 0xfd] =
      [0x3c, 0xaa, 0xa3, 0xe8, 0xa9, 0x9f, 0x9d, 0xeb, 0x50, 0xf3, 0xaf, 0x57, 0xad, 0xf6, 0x22, 0xaa] := by decide +kernel
  have k6 : nextKey 5 [0x3c, 0xaa, 0xa3, 0xe8, 0xa9, 0x9f, 0x9d, 0xeb, 0x50, 0xf3, 0xaf, 0x57, 0xad, 0xf6, 0x22, 0xaa] =
      [0x5e, 0x39, 0x0f, 0x7d, 0xf7, 0xa6, 0x92, 0x96, 0xa7, 0x55, 0x3d, 0xc1, 0x0a, 0xa3, 0x1f, 0x6b] := by decide +kernel
  have k7 : nextKey 6 [0x5e, 0x39, 0x0f, 0x7d, 0xf7, 0xa6, 0x92, 0x96, 0xa7, 0x55, 0x3d, 0xc1, 0x0a, 0xa3, 0x1f, 0x6b] =
      [0x14, 0xf9, 0x70, 0x1a, 0xe3, 0x5f, 0xe2, 0x8c, 0x44, 0x0a, 0xdf, 0x4d, 0x4e, 0xa9, 0xc0, 0x26] := by decide +kernel
  have k8 : nextKey 7 [0x14, 0xf9, 0x70, 0x1a, 0xe3, 0x5f, 0xe2, 0x8c, 0x44, 0x0a, 0xdf, 0x4d, 0x4e, 0xa9, 0xc0, 0x26] =
      [0x47, 0x43, 0x87, 0x35, 0xa4, 0x1c, 0x65, 0xb9, 0xe0, 0x16, 0xba, 0xf4, 0xae, 0xbf, 0x7a, 0xd2] := by decide +kernel
  have k9 : nextKey 8 [0x47, 0x43, 0x87, 0x35, 0xa4, 0x1c, 0x65, 0xb9, 0xe0, 0x16, 0xba, 0xf4, 0xae, 0xbf, 0x7a, 0xd2] =
      [0x54, 0x99, 0x32, 0xd1, 0xf0, 0x85, 0x57, 0x68, 0x10, 0x93, 0xed, 0x9c, 0xbe, 0x2c, 0x97, 0x4e] := by decide +kernel
  have k10 : nextKey 9 [0x54, 0x99, 0x32, 0xd1, 0xf0, 0x85, 0x57, 0x68, 0x10, 0x93, 0xed, 0x9c, 0xbe, 0x2c, 0x97, 0x4e] =
      [0x13, 0x11, 0x1d, 0x7f, 0xe3, 0x94, 0x4a, 0x17, 0xf3, 0x07, 0xa7, 0x8b, 0x4d, 0x2b, 0x30, 0xc5] := by decide +kernel
  have s0 : add [0x00, 0x11, 0x22, 0x33, 0x44, 0x55, 0x66, 0x77, 0x88, 0x99, 0xaa, 0xbb, 0xcc, 0xdd, 0xee, 0xff]
      [0x00, 0x01, 0x02, 0x03, 0x04, 0x05, 0x06, 0x07, 0x08, 0x09, 0x0a, 0x0b, 0x0c, 0x0d, 0x0e, 0x0f] =
      [0x00, 0x10, 0x20, 0x30, 0x40, 0x50, 0x60, 0x70, 0x80, 0x90, 0xa0, 0xb0, 0xc0, 0xd0, 0xe0, 0xf0] := by decide +kernel
  have s1 : add (mixColumns (shiftRows (subBytes [0x00, 0x10, 0x20, 0x30, 0x40, 0x50, 0x60, 0x70, 0x80, 0x90, 0xa0, 0xb0, 0xc0, 0xd0, 0xe0, 0xf0])))
      [0xd6, 0xaa, 0x74, 0xfd, 0xd2, 0xaf, 0x72, 0xfa, 0xda, 0xa6, 0x78, 0xf1, 0xd6, 0xab, 0x76, 0xfe] =
      [0x89, 0xd8, 0x10, 0xe8, 0x85, 0x5a, 0xce, 0x68, 0x2d, 0x18, 0x43, 0xd8, 0xcb, 0x12, 0x8f, 0xe4] := by decide +kernel
  have s2 : add (mixColumns (shiftRows (subBytes [0x89, 0xd8, 0x10, 0xe8, 0x85, 0x5a, 0xce, 0x68, 0x2d, 0x18, 0x43, 0xd8, 0xcb, 0x12, 0x8f, 0xe4])))
      [0xb6, 0x92, 0xcf, 0x0b, 0x64, 0x3d, 0xbd, 0xf1, 0xbe, 0x9b, 0xc5, 0x00, 0x68, 0x30, 0xb3, 0xfe] =
      [0x49, 0x15, 0x59, 0x8f, 0x55, 0xe5, 0xd7, 0xa0, 0xda, 0xca, 0x94, 0xfa, 0x1f, 0x0a, 0x63, 0xf7] := by decide +kernel
  have s3 : add (mixColumns (shiftRows (subBytes [0x49, 0x15, 0x59, 0x8f, 0x55, 0xe5, 0xd7, 0xa0, 0xda, 0xca, 0x94, 0xfa, 0x1f, 0x0a, 0x63, 0xf7])))
      [0xb6, 0xff, 0x74, 0x4e, 0xd2, 0xc2, 0xc9, 0xbf, 0x6c, 0x59, 0x0c, 0xbf, 0x04, 0x69, 0xbf, 0x41] =
      [0xfa, 0x63, 0x6a, 0x28, 0x25, 0xb3, 0x39, 0xc9, 0x40, 0x66, 0x8a, 0x31, 0x57, 0x24, 0x4d, 0x17] := by decide +kernel
  have s4 : add (mixColumns (shiftRows (subBytes [0xfa, 0x63, 0x6a, 0x28, 0x25, 0xb3, 0x39, 0xc9, 0x40, 0x66, 0x8a, 0x31, 0x57, 0x24, 0x4d, 0x17])))
      [0x47, 0xf7, 0xf7, 0xbc, 0x95, 0x35, 0x3e, 0x03, 0xf9, 0x6c, 0x32, 0xbc, 0xfd, 0x05, 0x8d, 0xfd] =
      [0x24, 0x72, 0x40, 0x23, 0x69, 0x66, 0xb3, 0xfa, 0x6e, 0xd2, 0x75, 0x32, 0x88, 0x42, 0x5b, 0x6c] := by decide +kernel
  have s5 : add (mixColumns (shiftRows (subBytes [0x24, 0x72, 0x40, 0x23, 0x69, 0x66, 0xb3, 0xfa, 0x6e, 0xd2, 0x75, 0x32, 0x88, 0x42, 0x5b, 0x6c])))
      [0x3c, 0xaa, 0xa3, 0xe8, 0xa9, 0x9f, 0x9d, 0xeb, 0x50, 0xf3, 0xaf, 0x57, 0xad, 0xf6, 0x22, 0xaa] =
      [0xc8, 0x16, 0x77, 0xbc, 0x9b, 0x7a, 0xc9, 0x3b, 0x25, 0x02, 0x79, 0x92, 0xb0, 0x26, 0x19, 0x96] := by decide +kernel
  have s6 : add (mixColumns (shiftRows (subBytes [0xc8, 0x16, 0x77, 0xbc, 0x9b, 0x7a, 0xc9, 0x3b, 0x25, 0x02, 0x79, 0x92, 0xb0, 0x26, 0x19, 0x96])))
      [0x5e, 0x39, 0x0f, 0x7d, 0xf7, 0xa6, 0x92, 0x96, 0xa7, 0x55, 0x3d, 0xc1, 0x0a, 0xa3, 0x1f, 0x6b] =
      [0xc6, 0x2f, 0xe1, 0x09, 0xf7, 0x5e, 0xed, 0xc3, 0xcc, 0x79, 0x39, 0x5d, 0x84, 0xf9, 0xcf, 0x5d] := by decide +kernel
  have s7 : add (mixColumns (shiftRows (subBytes [0xc6, 0x2f, 0xe1, 0x09, 0xf7, 0x5e, 0xed, 0xc3, 0xcc, 0x79, 0x39, 0x5d, 0x84, 0xf9, 0xcf, 0x5d])))
      [0x14, 0xf9, 0x70, 0x1a, 0xe3, 0x5f, 0xe2, 0x8c, 0x44, 0x0a, 0xdf, 0x4d, 0x4e, 0xa9, 0xc0, 0x26] =
      [0xd1, 0x87, 0x6c, 0x0f, 0x79, 0xc4, 0x30, 0x0a, 0xb4, 0x55, 0x94, 0xad, 0xd6, 0x6f, 0xf4, 0x1f] := by decide +kernel
  have s8 : add (mixColumns (shiftRows (subBytes [0xd1, 0x87, 0x6c, 0x0f, 0x79, 0xc4, 0x30, 0x0a, 0xb4, 0x55, 0x94, 0xad, 0xd6, 0x6f, 0xf4, 0x1f])))
      [0x47, 0x43, 0x87, 0x35, 0xa4, 0x1c, 0x65, 0xb9, 0xe0, 0x16, 0xba, 0xf4, 0xae, 0xbf, 0x7a, 0xd2] =
      [0xfd, 0xe3, 0xba, 0xd2, 0x05, 0xe5, 0xd0, 0xd7, 0x35, 0x47, 0x96, 0x4e, 0xf1, 0xfe, 0x37, 0xf1] := by decide +kernel
  have s9 : add (mixColumns (shiftRows (subBytes [0xfd, 0xe3, 0xba, 0xd2, 0x05, 0xe5, 0xd0, 0xd7, 0x35, 0x47, 0x96, 0x4e, 0xf1, 0xfe, 0x37, 0xf1])))
      [0x54, 0x99, 0x32, 0xd1, 0xf0, 0x85, 0x57, 0x68, 0x10, 0x93, 0xed, 0x9c, 0xbe, 0x2c, 0x97, 0x4e] =
      [0xbd, 0x6e, 0x7c, 0x3d, 0xf2, 0xb5, 0x77, 0x9e, 0x0b, 0x61, 0x21, 0x6e, 0x8b, 0x10, 0xb6, 0x89] := by decide +kernel
  simp only [encrypt, state, roundKey, k1, k2, k3, k4, k5, k6, k7, k8, k9, k10, s0, s1, s2, s3, s4, s5, s6, s7, s8, s9]
  decide +kernel

end CC.Spec.Aes
