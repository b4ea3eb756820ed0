/-
What a user of axl_doc_get_content_at relies on.
-/
import Verif.Spec.Path

namespace Axl.Spec.Path
open Spec.Tree

/-- The texts among the children, in order: contents and CDATA sections, not comments. -/
def texts : List Child → List (List Char)
  | [] => []
  | .text .content s :: l => s :: texts l
  | .text .cdata s :: l => s :: texts l
  | .text .comment _ :: l => texts l
  | .text .pi _ :: l => texts l
  | .node _ :: l => texts l

/-- The first text of a node, or an empty string if it has none. -/
def firstText (f : Forest) (n : Nat) : List Char := (texts (f.kids n)).headD []

end Axl.Spec.Path
