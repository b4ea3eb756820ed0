/-
Model of the functions that move along the items of a node (src/axl_node.c), on the memory of `Model/Tree.lean`.
As there, `none` is the read of something that is not allocated.
-/
import Verif.Model.Tree

namespace Axl.Heap

/-- `axl_item_get_data` with `axl_item_get_type` (src/axl_node.c:6220-6224, 6241-6247). -/
def itemData (h : Heap) (a : Nat) : Option Child := (h.items a).map (·.data.data)

/-- `axl_item_get_parent` (src/axl_node.c:6044-6052). -/
def itemParent (h : Heap) (a : Nat) : Option (Option Nat) := (h.items a).map (·.data.parent)

/-- `axl_item_node_holder` (src/axl_node.c:6142-6148). -/
def nodeHolder (h : Heap) (n : Nat) : Option (Option Nat) := (h.nodes n).map (·.holder)

/-- `axl_item_node_next` (src/axl_node.c:6080-6092). -/
def nodeItemNext (h : Heap) (n : Nat) : Option (Option Nat) :=
  match h.nodes n with
  | none => none
  | some c =>
    match c.holder with
    | none => some none
    | some a => h.itemNext a

/-- `axl_item_node_previous` (src/axl_node.c:6121-6132). -/
def nodeItemPrev (h : Heap) (n : Nat) : Option (Option Nat) :=
  match h.nodes n with
  | none => none
  | some c =>
    match c.holder with
    | none => some none
    | some a => h.itemPrev a

end Axl.Heap
