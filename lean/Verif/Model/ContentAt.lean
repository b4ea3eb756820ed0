/-
`axl_node_get_content` through the pointers of the tree, and `axl_doc_get_content_at` (src/axl_doc.c:2459-2473).

Simplification: the size that is reported is not represented: it is that of the text (see C51 for texts given
with another size).
-/
import Verif.Model.Path

namespace Axl.Heap

/-- `axl_node_get_content` (src/axl_node.c:2715-2750): the text of the first item that has one, or an empty
string. -/
def nodeContent (h : Heap) (n : Nat) : Option (List Char) := do
  let c ← h.nodes n
  let a ← h.seekNext (fun d => some (isContent d)) h.nextItem c.first
  match a with
  | none => some []
  | some a =>
    let i ← h.items a
    match i.data.data with
    | .text _ s => some s
    | .node _ => none

/-- `axl_doc_get_content_at` (src/axl_doc.c:2459-2473): `some none` is the answer NULL. -/
def docContentAt (h : Heap) (root : Option Nat) (path : List Char) : Option (Option (List Char)) := do
  let node ← h.docGet root path
  match node with
  | none => some none
  | some n =>
    let s ← h.nodeContent n
    some (some s)

end Axl.Heap
