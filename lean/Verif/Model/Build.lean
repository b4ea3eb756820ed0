/-
A program that works on nodes and on their attributes: the memory of the nodes (`Model/Tree.lean`) together with the attributes of
each of them (`Model/Attr.lean`), and the functions that escape a text before it is made a child.
-/
import Verif.Model.TreeDump
import Verif.Model.Load
import Verif.Model.Attr
import Verif.Model.Compare
import Verif.Model.Escape
import Verif.Spec.TreeApi
import Verif.Spec.AttrApi

namespace Axl

/-- The nodes with their items, and `node->attributes`, `node->attr_num` of each node (src/axl_node.c:245-295). -/
structure Work where
  heap  : Heap
  attrs : Nat → Attrs

namespace Work
open Str

/-- Nothing was created; a node that is created has no attributes (src/axl_node.c:573, memory cleared by axl_new). -/
def empty : Work := ⟨Heap.empty, fun _ => Attrs.empty⟩

/-- A call that makes, moves, replaces or frees nodes and items (`Model/Tree.lean`).  A copy is not among them: it takes the
attributes of the nodes with it (`copy`). -/
def tree (w : Work) (op : Spec.Tree.Op) : Option Work := (w.heap.exec op).map fun h => { w with heap := h }

/-- `axl_node_set_content (p, s, -1)` (src/axl_node.c:2788-2830): the content is escaped and made the last child. -/
def setContent (w : Work) (p : Nat) (s : List Char) : Option Work := do
  let c ← Escape.setContent (s ++ [NUL]) (-1)
  let t ← Escape.copyOut c
  let h ← w.heap.setChild p (.text .content t)
  some { w with heap := h }

/-- `axl_node_set_cdata_content (p, s, -1)` (src/axl_node.c:2973-3004). -/
def setCdata (w : Work) (p : Nat) (s : List Char) : Option Work := do
  let c ← Escape.setCdataContent (s ++ [NUL]) (-1)
  let t ← Escape.copyOut c
  let h ← w.heap.setChild p (.text .cdata t)
  some { w with heap := h }

/-- A call on the attributes of a node (src/axl_node.c:1154-1266, 1331-1408): the node must be allocated. -/
def attr (w : Work) (n : Nat) (op : Spec.Attr.Op) : Option Work :=
  match w.heap.nodes n with
  | none => none
  | some _ => ((w.attrs n).exec op).map fun a => { w with attrs := fun m => if m = n then a else w.attrs m }

/-- `axl_node_get_attribute_value_trimmed (n, k)` (src/axl_node.c:1581-1595), for what it does to the attributes. -/
def trimAttr (w : Work) (n : Nat) (k : List Char) : Option Work :=
  match w.heap.nodes n with
  | none => none
  | some _ => ((w.attrs n).getValueTrimmed k).map fun r => { w with attrs := fun m => if m = n then r.2 else w.attrs m }

/-- `axl_item_copy` (src/axl_node.c:6452-6499), as in `Heap.itemCopyWith`, given how to copy a node. -/
def copyItem (copy : Work → Nat → Option (Work × Nat)) (w : Work) (a parent : Nat) : Option (Work × Nat) :=
  match w.heap.items a with
  | none => none
  | some c =>
    match c.data.data with
    | .text k s =>
      ((w.heap.newItem (.text k s)).1.setParent w.heap.nextItem (some parent)).map fun h => ({ w with heap := h }, w.heap.nextItem)
    | .node n => do
      let h1 ← (w.heap.newItem (.text .content [])).1.setParent w.heap.nextItem (some parent)
      let r ← copy { w with heap := h1 } n
      let h2 ← r.1.heap.setHolder r.2 (some w.heap.nextItem)
      let h3 ← h2.setData w.heap.nextItem (.node r.2)
      some ({ r.1 with heap := h3 }, w.heap.nextItem)

/-- The loop of `axl_node_copy` over the children (src/axl_node.c:938-954).  The number bounds the iterations. -/
def copyLoop (copy : Work → Nat → Option (Work × Nat)) (result : Nat) : Nat → Work → Option Nat → Option Work
  | _, w, none => some w
  | 0, _, some _ => none
  | k + 1, w, some a =>
    match copyItem copy w a result with
    | none => none
    | some (w, b) =>
      match w.heap.setChildRef result b with
      | none => none
      | some h =>
        match h.items a with
        | none => none
        | some c => copyLoop copy result k { w with heap := h } c.next

/-- `axl_node_copy` (src/axl_node.c:894-960): the name, the attributes if they are asked for (src/axl_node.c:912-932), and the
children if they are asked for, which are copied with their attributes and their children (src/axl_node.c:6468).  The first number
bounds the depth. -/
def copyDepth : Nat → Work → Nat → Bool → Bool → Option (Work × Nat)
  | 0, _, _, _, _ => none
  | d + 1, w, n, attributes, childs =>
    match w.heap.nodes n with
    | none => none
    | some c =>
      match (w.attrs n).copy attributes with
      | none => none
      | some a =>
        let r := w.heap.create c.name
        let w1 : Work := ⟨r.1, fun m => if m = r.2 then a else w.attrs m⟩
        if childs then (copyLoop (fun w n => copyDepth d w n true true) r.2 w.heap.nextItem w1 c.first).map fun w => (w, r.2)
        else some (w1, r.2)

/-- `axl_node_copy (n, attributes, childs)` (src/axl_node.c:894-960). -/
def copy (w : Work) (n : Nat) (attributes childs : Bool) : Option (Work × Nat) :=
  copyDepth w.heap.nextNode w n attributes childs

/-- The nodes with their attributes after a document was read: the calls of the parser on nodes (`Load.root`) and the attributes that it
sets in each of them (src/axl_doc.c:842-1000). -/
def load (d : Doc) : Option Work := (Heap.empty.run (Load.root d)).map fun h => ⟨h, Load.attrs d.root⟩

end Work
end Axl
