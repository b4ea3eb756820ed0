/-
What the functions that print with a format are expected to give.
-/
import Verif.Model.Printf

namespace Axl.Printf.Spec
open Str

/-- The memory holds the text and the mark of its end. -/
def Holds (b text : List Char) : Prop := text ++ [NUL] <+: b

/-- The array has these strings and then NULL. -/
def ArrayOf (arr : List (Option Nat)) (strings : List Nat) : Prop := ∃ rest, arr = strings.map some ++ none :: rest

end Axl.Printf.Spec
