/-!
# Notation for texts

`chars! "ab"` is `['a', 'b']`: a list of character literals, which the kernel handles faster than `"ab".toList`.
-/

open Lean in
/-- a string literal as list of character literals -/
macro "chars!" s:str : term => do
  let cs := s.getString.toList.map fun c => Syntax.mkCharLit c
  `([$(cs.toArray),*])
