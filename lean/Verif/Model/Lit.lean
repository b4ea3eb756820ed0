/-
`c!"abc"` is `['a', 'b', 'c']`: string literals of the C code as lists of characters.
-/
import Lean

open Lean in
/-- The characters of a string literal. -/
macro:max "c!" s:str : term => do
  let mut l ← `(([] : List Char))
  for c in s.getString.toList.reverse do
    l ← `(List.cons $(Syntax.mkCharLit c) $l)
  return l
