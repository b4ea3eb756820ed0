/-
Size, dump and comparison of nodes in memory, through the pointers: the functions of `Model/Dump.lean` and
`Model/Compare.lean` (which take the chain of items as a list) as they walk `node->first` and `item->next`.

What the heap of `Model/Tree.lean` leaves out is given beside it: the attributes of every node, and the record of a processing
instruction.  The numbers bound the iterations of a loop and the depth of a recursion, as there.
-/
import Verif.Model.Tree
import Verif.Model.Dump
import Verif.Model.Compare

namespace Axl

/-- What the heap does not have: `node->attributes` and `node->attr_num` of the node at an address (src/axl_node.c:245-295), and
the `axlPI` that a text stands for (src/axl_doc.c:407-420). -/
structure Extra where
  attrs : Nat → Attrs
  pi    : List Char → PI

/-- The data of an item that is not a node (src/axl_node.c:297-337). -/
def Extra.leaf (x : Extra) : TextKind → List Char → Leaf
  | .content, s => .content s
  | .cdata, s => .cdata s
  | .comment, s => .comment s
  | .pi, s => .pi (x.pi s)

namespace Heap
open Dump Str

/-- The test of `axl_node_have_childs_aux` (src/axl_node.c:3651-3653). -/
def isBlock : Child → Option Bool
  | .node _ => some true
  | .text .pi _ => some true
  | .text .comment _ => some true
  | .text _ _ => some false

/-- `axl_node_have_childs_aux` (src/axl_node.c:3642-3664). -/
def haveChildsAux (h : Heap) (n : Nat) : Option Bool := do
  let c ← h.nodes n
  let a ← h.seekNext isBlock h.nextItem c.first
  some a.isSome

/-- The loop of `axl_node_get_flat_size` (src/axl_node.c:4668-4726), given the size of a node. -/
def sizeLoop (x : Extra) (pretty : Bool) (tabular level : Int) (size : Nat → Option Int) (h : Heap) : Nat → Option Nat → Option Int
  | _, none => some 0
  | 0, some _ => none
  | k + 1, some a =>
    match h.items a with
    | none => none
    | some c =>
      match (match c.data.data with
        | .node m => size m
        | .text t s => leafSize pretty level tabular (x.leaf t s)), sizeLoop x pretty tabular level size h k c.next with
      | some a, some b => some (a + b)
      | _, _ => none

/-- `axl_node_get_flat_size` (src/axl_node.c:4609-4732). -/
def sizeDepth (x : Extra) (h : Heap) (pretty : Bool) (tabular : Int) : Nat → Int → Nat → Option Int
  | 0, _, _ => none
  | d + 1, level, n => do
    let c ← h.nodes n
    let empty ← h.isEmpty n
    let childs ← h.haveChildsAux n
    let na ← attrsSize (x.attrs n)
    if childs || (!childs && !empty) then
      let ni ← sizeLoop x pretty tabular level (sizeDepth x h pretty tabular d (level + 1)) h h.nextItem c.first
      if pretty then
        if childs then some (5 + 2 * c.name.length + na + (level * tabular * 2 + 2) + ni)
        else some (5 + 2 * c.name.length + na + (level * tabular + 1) + ni)
      else some (5 + 2 * c.name.length + na + ni)
    else if pretty then some (c.name.length + 4 + na + (level * tabular + 1))
    else some (c.name.length + 4 + na)

/-- `__axl_node_dump_items` (src/axl_node.c:4857-4992), given the dump of a node. -/
def dumpLoop (x : Extra) (pretty : Bool) (tabular level : Int) (dump : Out → Nat → Option Out) (h : Heap) : Nat → Option Nat → Out → Option Out
  | _, none, o => some o
  | 0, some _, _ => none
  | k + 1, some a, o =>
    match h.items a with
    | none => none
    | some c =>
      match (match c.data.data with
        | .node m => dump o m
        | .text t s => dumpLeaf pretty tabular level o (x.leaf t s)) with
      | none => none
      | some o => dumpLoop x pretty tabular level dump h k c.next o

/-- `axl_node_dump_at` (src/axl_node.c:5009-5142). -/
def dumpDepth (x : Extra) (h : Heap) (pretty : Bool) (tabular : Int) : Nat → Int → Out → Nat → Option Out
  | 0, _, _, _ => none
  | d + 1, level, o, n => do
    let c ← h.nodes n
    let childs ← h.haveChildsAux n
    let o ← indentIf pretty tabular level o
    let empty ← h.isEmpty n
    let o ← dumpOpen o c.name (x.attrs n)
    if empty && !childs then
      let o ← emit o [' ', '/', '>'] 3 3
      newlineIf pretty o
    else
      let o ← emit o ['>'] 1 1
      if childs then
        let o ← newlineIf pretty o
        let o ← dumpLoop x pretty tabular level (dumpDepth x h pretty tabular d (level + 1)) h h.nextItem c.first o
        let o ← indentIf pretty tabular level o
        dumpClose pretty o c.name
      else
        let o ← dumpLoop x pretty tabular level (dumpDepth x h pretty tabular d (level + 1)) h h.nextItem c.first o
        dumpClose pretty o c.name

/-- `__axl_node_dump_common` (src/axl_node.c:4254-4293). -/
def dumpNode (x : Extra) (h : Heap) (n : Nat) (pretty : Bool) (level tabular : Int) : Option (Option (List Char × Int)) := do
  let size ← sizeDepth x h pretty tabular h.nextNode level n
  let mem ← alloc size
  let o ← dumpDepth x h pretty tabular h.nextNode level ⟨mem, 0⟩ n
  if (o.desp : Int) ≠ size then some none else some (some (o.mem, size))

/-- `__axl_doc_dump_common` (src/axl_doc.c:1449-1561), with `__axl_doc_get_flat_size_common` (src/axl_doc.c:1400-1443), for a
document with that root, encoding and value of standalone. -/
def dumpDoc (x : Extra) (h : Heap) (root : Nat) (encoding : Option (List Char)) (standalone : Bool) (pretty : Bool) (tabular : Int) :
    Option (Option (List Char × Int)) := do
  let n ← sizeDepth x h pretty tabular h.nextNode 0 root
  let size := 22 + (if pretty then 1 else 0) + (if standalone then 17 else 0) + encodingSize encoding + n
  let mem ← alloc size
  let o ← emit ⟨mem, 0⟩ c!"<?xml version='1.0' " 20 20
  let o ← dumpEncoding o encoding
  let o ← dumpStandalone o standalone
  let o ← emit o c!"?>" 2 2
  let o ← newlineIf pretty o
  let o ← dumpDepth x h pretty tabular h.nextNode 0 o root
  if (o.desp : Int) ≠ size then some none else some (some (o.mem, size))

/-- `axl_node_are_equal_full`, `axl_node_are_equal` (src/axl_node.c:3960-4081). -/
def areEqual (x : Extra) (h : Heap) (n m : Nat) : Option Bool := do
  let c ← h.nodes n
  let c2 ← h.nodes m
  if !cmp (some c.name) (some c2.name) then some false
  else
    let e ← h.isEmpty n
    let e2 ← h.isEmpty m
    if e != e2 then some false
    else
      let k ← h.haveChilds n
      let k2 ← h.haveChilds m
      if k != k2 then some false
      else
        let l ← h.getChildNum n
        let l2 ← h.getChildNum m
        if l ≠ l2 then some false
        else (x.attrs n).areEqual (x.attrs m)

/-- The comparison of two items and of what is below them (src/axl_doc.c:2056-2073; `axl_item_are_equal_full`,
src/axl_node.c), given that of two nodes with what is below. -/
def itemEqual (x : Extra) (trimmed : Bool) (equal : Nat → Nat → Option Bool) (h : Heap) : Child → Child → Option Bool
  | .node n, .node m =>
    match h.areEqual x n m with
    | none => none
    | some false => some false
    | some true => equal n m
  | .text t s, .text t2 s2 => (x.leaf t s).areEqual trimmed (x.leaf t2 s2)
  | _, _ => some false

/-- The loop of `__axl_doc_are_equal` (src/axl_doc.c:2041-2080). -/
def equalLoop (x : Extra) (trimmed : Bool) (equal : Nat → Nat → Option Bool) (h : Heap) : Nat → Option Nat → Option Nat → Option Bool
  | _, none, b => some b.isNone
  | _, some _, none => some false
  | 0, some _, some _ => none
  | k + 1, some a, some b =>
    match h.items a, h.items b with
    | some c, some c2 =>
      match itemEqual x trimmed equal h c.data.data c2.data.data with
      | none => none
      | some false => some false
      | some true => equalLoop x trimmed equal h k c.next c2.next
    | _, _ => none

/-- `__axl_doc_are_equal` (src/axl_doc.c:2014-2081). -/
def equalDepth (x : Extra) (h : Heap) (trimmed : Bool) : Nat → Nat → Nat → Option Bool
  | 0, _, _ => none
  | d + 1, n, m =>
    match h.areEqual x n m with
    | none => none
    | some false => some false
    | some true => do
      let l ← h.getChildNum n
      let l2 ← h.getChildNum m
      if l ≠ l2 then some false
      else
        let c ← h.nodes n
        let c2 ← h.nodes m
        equalLoop x trimmed (equalDepth x h trimmed d) h h.nextItem c.first c2.first

/-- `axl_doc_are_equal_full` (src/axl_doc.c:2086-2119, 2202-2209) on documents with these roots. -/
def docEqual (x : Extra) (h : Heap) (n m : Nat) (trimmed : Bool) : Option Bool := equalDepth x h trimmed h.nextNode n m

end Heap
end Axl
