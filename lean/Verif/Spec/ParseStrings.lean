/-
A text given in pieces, and what is left in memory after it is parsed.
-/
import Verif.Model.ParseStrings

namespace Axl
open Str Blocks ParseStrings

/-- The arguments are these strings, each in memory that ends it, and then NULL. -/
def Pieces (args : List (Option (List Char))) (strings : List (List Char)) : Prop :=
  ∃ (mems : List (List Char)) (rest : List (Option (List Char))), args = mems.map some ++ none :: rest ∧ mems.length = strings.length ∧
    ∀ (i : Nat) (m s : List Char), mems[i]? = some m → strings[i]? = some s → NUL ∉ s ∧ ∃ junk, m = s ++ NUL :: junk

/-- What a parse gave, with the strings of the caller: none is left. -/
def alsoFreed {α : Type} : Out α → Out (α × List (Nat × List Char))
  | .ret a w => .ret (a, []) w
  | .ub => .ub
  | .loop => .loop

/-- What a parse gave, and the strings that are left. -/
def left {α : Type} : Out (α × Strings) → Out (α × List (Nat × List Char))
  | .ret (a, h) w => .ret (a, h.live) w
  | .ub => .ub
  | .loop => .loop

end Axl
