import Verif.Model.Bundled

/-!
# Texts of the large bundled circuits

The gate lines of `mult2_64.txt`, `udivide64.txt`, `divide64.txt` and `AES-non-expanded.txt` all have the form
`2 1 a b o XOR`, `2 1 a b o AND` or `1 1 a o INV`. A line is written as a number of 64 bits: 4 bits for the operation and 20
bits for each of `a`, `b` and `o`.
-/

namespace CC.Bundled
open CC.Bristol

/-- the gate line written as `x` -/
def lineText (x : Nat) : List Char :=
  let a := dec (x >>> 40 % 2 ^ 20)
  let b := dec (x >>> 20 % 2 ^ 20)
  let o := dec (x % 2 ^ 20)
  match x >>> 60 with
  | 0 => chars! "2 1 " ++ a ++ [' '] ++ b ++ [' '] ++ o ++ chars! " XOR"
  | 1 => chars! "2 1 " ++ a ++ [' '] ++ b ++ [' '] ++ o ++ chars! " AND"
  | _ => chars! "1 1 " ++ a ++ [' '] ++ o ++ chars! " INV"

/-- line `p` of the lines written in `b` -/
def packedAt (b p : Nat) : Nat := b >>> (64 * p) % 2 ^ 64

/-- line `p` of a list of blocks of 256 lines -/
def lineAt (bs : List Nat) (p : Nat) : Nat := packedAt (bs[p / 256]?.getD 0) (p % 256)

/-- the first `n` lines of a list of blocks -/
def packed (n : Nat) (bs : List Nat) : List Nat := (List.range n).map (lineAt bs)

end CC.Bundled
