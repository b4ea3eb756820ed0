/-
What a user of axl_doc_get relies on.
-/
import Verif.Spec.Tree

namespace Axl.Spec.Path
open Spec.Tree Spec.Tree.Forest

/-- The node reached from `n` by taking, for each name, the first child with that name. -/
def follow (f : Forest) : Nat → List (List Char) → Option Nat
  | n, [] => some n
  | n, name :: names => ((nodesOf (f.kids n)).find? fun c => f.name c == name).bind fun c => follow f c names

/-- `/name/name/…`: each name preceded by a slash. -/
def path : List (List Char) → List Char
  | [] => []
  | name :: names => '/' :: name ++ path names

end Axl.Spec.Path
