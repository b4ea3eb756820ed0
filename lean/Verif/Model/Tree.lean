/-
Nodes and items: the tree of a document as libaxl keeps it in memory
(src/axl_node.c, structures at 71-117 and 245-337).

A node (`axlNode`) has pointers to its first and last child item and to the item that holds it.
An item (`axlItem`) has a pointer to its parent node, to the next and to the previous item, and to
what it stores: another node, or some text.  The memory is explicit: an address is a `Nat`, and
nothing is stored at an address that was never allocated or was freed.  Reading or writing there
is undefined behaviour in C and the outcome `none` in the model.

Simplifications, for the whole file:
* addresses are never used twice, so a dangling pointer is always noticed;
* an item and a node are freed when libaxl is done with them even if they come from the pool of a
  document (`ITEM_FROM_FACTORY`, `NODE_FROM_FACTORY`), where the memory really goes away with the
  document;
* the document (`item->doc`) is not represented: nodes do not belong to a document, so the pool of
  the document is not used and no node is the root of a document;
* attributes and annotations of the node are not represented (see Verif/Model/Attr.lean and
  Verif/Model/Annotate.lean), nor is ITEM_REF, which no function of libaxl creates.
-/
import Verif.Model.Dll
import Verif.Model.List

namespace Axl

/-- The kinds of item that hold text: `AxlItemType` (src/axl_decl.h) without ITEM_NODE and
ITEM_REF.  For a processing instruction the text stands for the whole `axlPI` record. -/
inductive TextKind where
  | content
  | cdata
  | comment
  | pi
deriving DecidableEq, Repr

/-- What an item stores (`item->type` and `item->data`): a node, given by its address, or text.
src/axl_node.c:297-337. -/
inductive Child where
  | node (n : Nat)
  | text (kind : TextKind) (s : List Char)
deriving DecidableEq, Repr

/-- The fields of an item besides its links.  src/axl_node.c:297-337. -/
structure Info where
  parent : Option Nat
  data : Child
deriving DecidableEq, Repr

/-- The fields of a node that take part in the tree.  src/axl_node.c:245-295. -/
structure NodeC where
  name : List Char
  first : Option Nat
  last : Option Nat
  holder : Option Nat
deriving DecidableEq, Repr

/-- The memory: nodes and items by address, and the next address the allocator hands out for
each. -/
structure Heap where
  nodes : Nat → Option NodeC
  items : Mem Info
  nextNode : Nat
  nextItem : Nat

namespace Heap

/-- Memory before anything is allocated. -/
def empty : Heap := ⟨fun _ => none, fun _ => none, 0, 0⟩

/-- Overwrite the record of a node. -/
def putNode (h : Heap) (n : Nat) (c : NodeC) : Heap :=
  { h with nodes := fun m => if m = n then some c else h.nodes m }

/-- `n->first = v` -/
def setFirst (h : Heap) (n : Nat) (v : Option Nat) : Option Heap :=
  match h.nodes n with
  | none => none
  | some c => some (h.putNode n { c with first := v })

/-- `n->last = v` -/
def setLast (h : Heap) (n : Nat) (v : Option Nat) : Option Heap :=
  match h.nodes n with
  | none => none
  | some c => some (h.putNode n { c with last := v })

/-- `n->holder = v` -/
def setHolder (h : Heap) (n : Nat) (v : Option Nat) : Option Heap :=
  match h.nodes n with
  | none => none
  | some c => some (h.putNode n { c with holder := v })

/-- `a->next = v` -/
def setNext (h : Heap) (a : Nat) (v : Option Nat) : Option Heap :=
  match h.items.setNext a v with
  | none => none
  | some m => some { h with items := m }

/-- `a->previous = v` -/
def setPrev (h : Heap) (a : Nat) (v : Option Nat) : Option Heap :=
  match h.items.setPrev a v with
  | none => none
  | some m => some { h with items := m }

/-- `a->parent = v` -/
def setParent (h : Heap) (a : Nat) (v : Option Nat) : Option Heap :=
  match h.items a with
  | none => none
  | some c => some { h with items := h.items.put a { c with data := { c.data with parent := v } } }

/-- `a->type = …; a->data = …` -/
def setData (h : Heap) (a : Nat) (v : Child) : Option Heap :=
  match h.items a with
  | none => none
  | some c => some { h with items := h.items.put a { c with data := { c.data with data := v } } }

/-- `axl_new (axlItem, 1)`: a cleared item. -/
def newItem (h : Heap) (v : Child) : Heap × Nat :=
  ({ h with items := h.items.put h.nextItem ⟨none, none, ⟨none, v⟩⟩, nextItem := h.nextItem + 1 },
    h.nextItem)

/-- `axl_free (item)` -/
def freeItem (h : Heap) (a : Nat) : Option Heap :=
  match h.items.free a with
  | none => none
  | some m => some { h with items := m }

/-- `axl_free (node)` -/
def freeNodeRec (h : Heap) (n : Nat) : Option Heap :=
  match h.nodes n with
  | none => none
  | some _ => some { h with nodes := fun m => if m = n then none else h.nodes m }

/-- `axl_node_create` (src/axl_node.c:552-562): a node with no children and no holder. -/
def create (h : Heap) (name : List Char) : Heap × Nat :=
  ({ h with nodes := fun m => if m = h.nextNode then some ⟨name, none, none, none⟩ else h.nodes m,
            nextNode := h.nextNode + 1 }, h.nextNode)

/-- Reading `parent->holder->doc` (src/axl_node.c:6322, 6330): needs the parent, and its holder if
it has one, to be allocated. -/
def readDoc (h : Heap) (parent : Nat) : Option Unit :=
  match h.nodes parent with
  | none => none
  | some c =>
    match c.holder with
    | none => some ()
    | some a => (h.items a).map fun _ => ()

/-- `__axl_item_common_configure` (src/axl_node.c:6295-6339): the item that will hold the data;
the holder of the node is used again if there is one. -/
def commonConfigure (h : Heap) (parent : Nat) (v : Child) : Option (Heap × Nat) :=
  match v with
  | .text _ _ =>
    match h.readDoc parent with
    | none => none
    | some _ => some (h.newItem v)
  | .node n =>
    match h.nodes n with
    | none => none
    | some c =>
      match h.readDoc parent with
      | none => none
      | some _ =>
        match c.holder with
        | some a =>
          match h.setData a v with
          | none => none
          | some h => (h.setHolder n (some a)).map fun h => (h, a)
        | none => ((h.newItem v).1.setHolder n (some (h.newItem v).2)).map fun h' =>
            (h', (h.newItem v).2)

/-- `axl_item_set_child_ref` (src/axl_node.c:6410-6436).  When the parent has no children the
links of the item are left as they are. -/
def setChildRef (h : Heap) (parent : Nat) (item : Nat) : Option Heap := do
  let h ← h.setParent item (some parent)
  let p ← h.nodes parent
  match p.first with
  | none =>
    let h ← h.setFirst parent (some item)
    h.setLast parent (some item)
  | some _ =>
    match p.last with
    | none => none
    | some l =>
      let h ← h.setNext l (some item)
      let h ← h.setPrev item (some l)
      let h ← h.setNext item none
      h.setLast parent (some item)

/-- `axl_item_set_child` (src/axl_node.c:6359-6370), and `axl_node_set_child`
(src/axl_node.c:3377-3388) for a node. -/
def setChild (h : Heap) (parent : Nat) (v : Child) : Option Heap := do
  let (h, item) ← h.commonConfigure parent v
  h.setChildRef parent item

/-- The step of `axl_item_set_after` that tells what follows (src/axl_node.c:6400-6403). -/
def linkAfter (h : Heap) (next : Option Nat) (parent new : Nat) : Option Heap :=
  match next with
  | some b => h.setPrev b (some new)
  | none => h.setLast parent (some new)

/-- The part of `axl_item_set_after` after the new item is prepared (src/axl_node.c:6392-6404). -/
def insertItem (h : Heap) (item parent new : Nat) : Option Heap := do
  let c ← h.items item
  let h ← h.setParent new c.data.parent
  let h ← h.setPrev new (some item)
  let h ← h.setNext new c.next
  let h ← h.linkAfter c.next parent new
  h.setNext item (some new)

/-- `axl_item_set_after` (src/axl_node.c:6383-6407), and `axl_node_set_child_after`
(src/axl_node.c:3401-3408) with the holder of the node.  An item without a parent makes the code
use a NULL pointer. -/
def setAfter (h : Heap) (item : Nat) (v : Child) : Option Heap := do
  let c ← h.items item
  match c.data.parent with
  | none => none
  | some parent =>
    let (h, new) ← h.commonConfigure parent v
    h.insertItem item parent new

/-- `axl_item_new_ref` (src/axl_node.c:5951-5995); for text the model does not distinguish it from
`axl_item_new` (src/axl_node.c:5889-5933), which copies the text.  `axl_item_new` with ITEM_NODE
is not modelled: it copies `item->data`, which is NULL at that point, instead of `data`. -/
def newRef (h : Heap) (v : Child) : Option (Heap × Nat) :=
  match v with
  | .text _ _ => some (h.newItem v)
  | .node n => ((h.newItem v).1.setHolder n (some (h.newItem v).2)).map fun h' => (h', (h.newItem v).2)

/-- `axl_item_free` (src/axl_node.c:6824-6870), given how to free a node. -/
def itemFreeWith (free : Heap → Nat → Option Heap) (h : Heap) (a : Nat) : Option Heap :=
  match h.items a with
  | none => none
  | some c =>
    match c.data.data with
    | .node n => free h n
    | .text _ _ => h.freeItem a

/-- The loop of `__axl_node_free_internal` over the children (src/axl_node.c:5412-5430).  The
number is a bound on the iterations: a chain of allocated items that ends has no more items than
were ever allocated. -/
def freeLoop (free : Heap → Nat → Option Heap) : Nat → Heap → Option Nat → Option Heap
  | _, h, none => some h
  | 0, _, some _ => none
  | k + 1, h, some a =>
    match h.items a with
    | none => none
    | some c =>
      match itemFreeWith free h a with
      | none => none
      | some h => freeLoop free k h c.next

/-- Freeing the holder of the node (src/axl_node.c:5432-5441). -/
def freeHolder (h : Heap) (holder : Option Nat) : Option Heap :=
  match holder with
  | none => some h
  | some a => h.freeItem a

/-- `axl_node_free` (src/axl_node.c:5455-5478) with `__axl_node_free_internal`
(src/axl_node.c:5392-5445).  The first number is a bound on the depth of the recursion. -/
def nodeFreeDepth : Nat → Heap → Nat → Option Heap
  | 0, _, _ => none
  | d + 1, h, n =>
    match h.nodes n with
    | none => none
    | some c =>
      match freeLoop (nodeFreeDepth d) h.nextItem h c.first with
      | none => none
      | some h =>
        match h.freeHolder c.holder with
        | none => none
        | some h => h.freeNodeRec n

/-- `axl_node_free` (src/axl_node.c:5455-5478).  The recursion goes from a node to a child of it;
without a cycle it is no deeper than the number of nodes ever allocated. -/
def nodeFree (h : Heap) (n : Nat) : Option Heap := nodeFreeDepth h.nextNode h n

/-- `axl_item_free` (src/axl_node.c:6824-6870). -/
def itemFree (h : Heap) (a : Nat) : Option Heap := itemFreeWith nodeFree h a

/-- `if (b != NULL) b->next = v` -/
def setNextIf (h : Heap) (b : Option Nat) (v : Option Nat) : Option Heap :=
  match b with
  | none => some h
  | some b => h.setNext b v

/-- `if (b != NULL) b->previous = v` -/
def setPrevIf (h : Heap) (b : Option Nat) (v : Option Nat) : Option Heap :=
  match b with
  | none => some h
  | some b => h.setPrev b v

/-- `if (b == NULL) parent->first = v` -/
def setFirstIf (h : Heap) (b : Option Nat) (parent : Nat) (v : Option Nat) : Option Heap :=
  match b with
  | some _ => some h
  | none => h.setFirst parent v

/-- `if (b == NULL) parent->last = v` -/
def setLastIf (h : Heap) (b : Option Nat) (parent : Nat) (v : Option Nat) : Option Heap :=
  match b with
  | some _ => some h
  | none => h.setLast parent v

/-- Taking an item out of the chain, as `axl_node_remove` does when the node has a parent
(src/axl_node.c:3514-3541). -/
def unlink (h : Heap) (item parent : Nat) : Option Heap := do
  let c ← h.items item
  let h ← h.setNextIf c.prev c.next
  let h ← h.setPrevIf c.next c.prev
  let h ← h.setFirstIf c.prev parent c.next
  let h ← h.setLastIf c.next parent c.prev
  let h ← h.setPrev item none
  h.setNext item none

/-- The part of `axl_node_remove` before the deallocation (src/axl_node.c:3492-3543).  The parent
recorded in the item is not cleared. -/
def nodeDeattach (h : Heap) (n : Nat) : Option Heap :=
  match h.nodes n with
  | none => none
  | some c =>
    match c.holder with
    | none => some h
    | some item =>
      match h.items item with
      | none => none
      | some ci =>
        match ci.data.parent with
        | none => some h
        | some parent => h.unlink item parent

/-- `axl_node_remove` (src/axl_node.c:3492-3552); `axl_node_deattach` (src/axl_node.c:3569-3579)
is the case without deallocation. -/
def nodeRemove (h : Heap) (n : Nat) (dealloc : Bool) : Option Heap :=
  match h.nodeDeattach n with
  | none => none
  | some h => if dealloc then h.nodeFree n else some h

/-- `item->parent->…`: the parent, which must not be NULL. -/
def parentOf (h : Heap) (item : Nat) : Option Nat :=
  match h.items item with
  | none => none
  | some c => c.data.parent

/-- The ITEM_NODE branch of `axl_item_remove` (src/axl_node.c:6526-6533): the first and last
pointers of the parent are looked after only for nodes. -/
def removeEnds (h : Heap) (c : Cell Info) : Option Heap :=
  match c.data.data with
  | .text _ _ => some h
  | .node _ =>
    match c.prev, c.next with
    | some _, some _ => some h
    | _, _ =>
      match c.data.parent with
      | none => none
      | some parent =>
        match h.setFirstIf c.prev parent c.next with
        | none => none
        | some h => h.setLastIf c.next parent c.prev

/-- The part of `axl_item_remove` before the deallocation (src/axl_node.c:6512-6537). -/
def itemUnlink (h : Heap) (item : Nat) : Option Heap := do
  let c ← h.items item
  let h ← h.setNextIf c.prev c.next
  let h ← h.setPrevIf c.next c.prev
  let h ← h.removeEnds c
  let h ← h.setNext item none
  h.setPrev item none

/-- `axl_item_remove` (src/axl_node.c:6512-6545). -/
def itemRemove (h : Heap) (item : Nat) (dealloc : Bool) : Option Heap :=
  match h.itemUnlink item with
  | none => none
  | some h => if dealloc then h.itemFree item else some h

/-- `if (item->previous != NULL) { item->previous->next = new; new->previous = item->previous; }`
(src/axl_node.c:6570-6573). -/
def replacePrev (h : Heap) (prev : Option Nat) (new : Nat) : Option Heap :=
  match prev with
  | none => some h
  | some b =>
    match h.setNext b (some new) with
    | none => none
    | some h => h.setPrev new (some b)

/-- `if (item->next != NULL) { item->next->previous = new; new->next = item->next; }`
(src/axl_node.c:6575-6578). -/
def replaceNext (h : Heap) (next : Option Nat) (new : Nat) : Option Heap :=
  match next with
  | none => some h
  | some b =>
    match h.setPrev b (some new) with
    | none => none
    | some h => h.setNext new (some b)

/-- The ITEM_NODE branch of `axl_item_replace` (src/axl_node.c:6580-6587). -/
def replaceEnds (h : Heap) (c : Cell Info) (new : Nat) : Option Heap :=
  match c.data.data with
  | .text _ _ => some h
  | .node _ =>
    match c.prev, c.next with
    | some _, some _ => some h
    | _, _ =>
      match c.data.parent with
      | none => none
      | some parent =>
        match h.setFirstIf c.prev parent (some new) with
        | none => none
        | some h => h.setLastIf c.next parent (some new)

/-- The part of `axl_item_replace` before the deallocation (src/axl_node.c:6561-6595). -/
def itemRelink (h : Heap) (item new : Nat) : Option Heap := do
  let c ← h.items item
  let h ← h.replacePrev c.prev new
  let h ← h.replaceNext c.next new
  let h ← h.replaceEnds c new
  let h ← h.setNext item none
  let h ← h.setPrev item none
  h.setParent new c.data.parent

/-- `axl_item_replace` (src/axl_node.c:6561-6604). -/
def itemReplace (h : Heap) (item new : Nat) (dealloc : Bool) : Option Heap :=
  match h.itemRelink item new with
  | none => none
  | some h => if dealloc then h.itemFree item else some h

/-- The part of `axl_node_replace` before the deallocation (src/axl_node.c:3425-3462): the holder
of the node is given to the new node.  Nothing happens if the node has no parent. -/
def nodeSwap (h : Heap) (n new : Nat) : Option Heap :=
  match h.nodes n with
  | none => none
  | some c =>
    match c.holder with
    | none => some h
    | some item =>
      match h.items item with
      | none => none
      | some ci =>
        match ci.data.parent with
        | none => some h
        | some _ => do
          let h ← h.setData item (.node new)
          let h ← h.setHolder n none
          h.setHolder new (some item)

/-- `axl_node_replace` (src/axl_node.c:3425-3471). -/
def nodeReplace (h : Heap) (n new : Nat) (dealloc : Bool) : Option Heap :=
  match h.nodeSwap n new with
  | none => none
  | some h => if dealloc then h.nodeFree n else some h

/-- The loop of `axl_node_transfer_childs` (src/axl_node.c:4229-4242).  The number bounds the
iterations, as in `freeLoop`. -/
def transferLoop (new : Nat) : Nat → Heap → Option Nat → Option Heap
  | _, h, none => some h
  | 0, _, some _ => none
  | k + 1, h, some a =>
    match h.items a with
    | none => none
    | some c =>
      match h.setChildRef new a with
      | none => none
      | some h => transferLoop new k h c.next

/-- `axl_node_transfer_childs` (src/axl_node.c:4222-4249). -/
def transferChilds (h : Heap) (old new : Nat) : Option Heap := do
  let c ← h.nodes old
  let h ← transferLoop new h.nextItem h c.first
  let h ← h.setFirst old none
  h.setLast old none

/-- The loop of `axl_item_transfer_childs_after` (src/axl_node.c:6648-6669); returns the last item
transferred.  The number bounds the iterations. -/
def adoptLoop (ref : Nat) (after : Option Nat) : Nat → Heap → Nat → Option (Heap × Nat)
  | 0, _, _ => none
  | k + 1, h, a => do
    let r ← h.items ref
    let h ← h.setParent a r.data.parent
    let c ← h.items a
    match c.next with
    | none =>
      let h ← h.setNext a after
      let h ← h.setPrevIf after (some a)
      some (h, a)
    | some b => adoptLoop ref after k h b

/-- `axl_item_transfer_childs_after` (src/axl_node.c:6625-6685). -/
def transferChildsAfter (h : Heap) (old ref : Nat) : Option Heap := do
  let c ← h.nodes old
  match c.first with
  | none => some h
  | some first =>
    let r ← h.items ref
    let h ← h.setNext ref (some first)
    let h ← h.setPrev first (some ref)
    let (h, last) ← adoptLoop ref r.next h.nextItem h first
    let parent ← h.parentOf last
    let h ← h.setLastIf r.next parent (some last)
    let h ← h.setFirst old none
    h.setLast old none

/-- The items that hold content: ITEM_CONTENT and ITEM_CDATA (src/axl_node.c:2231, 2648). -/
def isContent : Child → Bool
  | .text .content _ => true
  | .text .cdata _ => true
  | _ => false

/-- The loop of `axl_node_set_is_empty` (src/axl_node.c:2220-2247): the memory after it, the
number of items removed and the number counted. -/
def emptyLoop : Nat → Heap → Option Nat → Nat → Nat → Option (Heap × Nat × Nat)
  | _, h, none, removed, count => some (h, removed, count)
  | 0, _, some _, _, _ => none
  | k + 1, h, some a, removed, count =>
    match h.items a with
    | none => none
    | some c =>
      if isContent c.data.data then
        match h.itemRemove a true with
        | none => none
        | some h => emptyLoop k h c.next (removed + 1) (count + 1)
      else emptyLoop k h c.next removed (count + 1)

/-- `axl_node_set_is_empty (node, axl_true)` (src/axl_node.c:2203-2257). -/
def setIsEmpty (h : Heap) (n : Nat) : Option Heap := do
  let c ← h.nodes n
  let (h, removed, count) ← emptyLoop h.nextItem h c.first 0 0
  if removed = count then
    let h ← h.setFirst n none
    h.setLast n none
  else some h

/-- `axl_item_copy` (src/axl_node.c:6452-6499), given how to copy a node.  Between its allocation and
`copy->data = node` the item holds NULL, here an empty text.  The copy of a text is the same text in
memory of its own, which the model does not tell apart. -/
def itemCopyWith (copy : Heap → Nat → Option (Heap × Nat)) (h : Heap) (a parent : Nat) :
    Option (Heap × Nat) :=
  match h.items a with
  | none => none
  | some c =>
    match c.data.data with
    | .text k s =>
      ((h.newItem (.text k s)).1.setParent h.nextItem (some parent)).map fun h' => (h', h.nextItem)
    | .node n => do
      let h1 ← (h.newItem (.text .content [])).1.setParent h.nextItem (some parent)
      let r ← copy h1 n
      let h2 ← r.1.setHolder r.2 (some h.nextItem)
      let h3 ← h2.setData h.nextItem (.node r.2)
      some (h3, h.nextItem)

/-- The loop of `axl_node_copy` over the children (src/axl_node.c:938-954).  The number bounds the
iterations, as in `freeLoop`. -/
def copyLoop (copy : Heap → Nat → Option (Heap × Nat)) (result : Nat) : Nat → Heap → Option Nat → Option Heap
  | _, h, none => some h
  | 0, _, some _ => none
  | k + 1, h, some a =>
    match itemCopyWith copy h a result with
    | none => none
    | some (h, b) =>
      match h.setChildRef result b with
      | none => none
      | some h =>
        match h.items a with
        | none => none
        | some c => copyLoop copy result k h c.next

/-- `axl_node_copy` (src/axl_node.c:894-960) with the children.  The first number is a bound on the
depth of the recursion.  Attributes are in Verif/Model/Compare.lean. -/
def nodeCopyDepth : Nat → Heap → Nat → Option (Heap × Nat)
  | 0, _, _ => none
  | d + 1, h, n =>
    match h.nodes n with
    | none => none
    | some c =>
      (copyLoop (nodeCopyDepth d) (h.create c.name).2 h.nextItem (h.create c.name).1 c.first).map
        fun h' => (h', (h.create c.name).2)

/-- `axl_node_copy (node, …, copy_childs)` (src/axl_node.c:894-960). -/
def nodeCopy (h : Heap) (n : Nat) (childs : Bool) : Option (Heap × Nat) :=
  match childs with
  | true => nodeCopyDepth h.nextNode h n
  | false => (h.nodes n).map fun c => h.create c.name

/-! Navigation. -/

/-- `axl_item_get_first_child` (src/axl_node.c:6169-6176). -/
def itemFirst (h : Heap) (n : Nat) : Option (Option Nat) := (h.nodes n).map (·.first)

/-- `axl_item_get_last_child` (src/axl_node.c:6197-6204). -/
def itemLast (h : Heap) (n : Nat) : Option (Option Nat) := (h.nodes n).map (·.last)

/-- `axl_item_get_next` (src/axl_node.c:6063-6069). -/
def itemNext (h : Heap) (a : Nat) : Option (Option Nat) := (h.items a).map (·.next)

/-- `axl_item_get_previous` (src/axl_node.c:6104-6110). -/
def itemPrev (h : Heap) (a : Nat) : Option (Option Nat) := (h.items a).map (·.prev)

/-- `axl_node_get_parent` (src/axl_node.c:2300-2315). -/
def getParent (h : Heap) (n : Nat) : Option (Option Nat) :=
  match h.nodes n with
  | none => none
  | some c =>
    match c.holder with
    | none => some none
    | some a => (h.items a).map (·.data.parent)

/-- The loops that go forwards until an item satisfies a test (src/axl_node.c:2361-2370,
2565-2572, 3619-3627, 3698-3712).  The number bounds the iterations. -/
def seekNext (h : Heap) (test : Child → Option Bool) : Nat → Option Nat → Option (Option Nat)
  | _, none => some none
  | 0, some _ => none
  | k + 1, some a =>
    match h.items a with
    | none => none
    | some c =>
      match test c.data.data with
      | none => none
      | some true => some (some a)
      | some false => seekNext h test k c.next

/-- The same backwards (src/axl_node.c:2441-2442, 2597-2604). -/
def seekPrev (h : Heap) (test : Child → Option Bool) : Nat → Option Nat → Option (Option Nat)
  | _, none => some none
  | 0, some _ => none
  | k + 1, some a =>
    match h.items a with
    | none => none
    | some c =>
      match test c.data.data with
      | none => none
      | some true => some (some a)
      | some false => seekPrev h test k c.prev

/-- `axl_item_get_type (item) == ITEM_NODE` -/
def isNode : Child → Option Bool
  | .node _ => some true
  | .text _ _ => some false

/-- `item->data` of the item found, when that is a node. -/
def nodeAt (h : Heap) (a : Option Nat) : Option (Option Nat) :=
  match a with
  | none => some none
  | some a =>
    match h.items a with
    | none => none
    | some c =>
      match c.data.data with
      | .node n => some (some n)
      | .text _ _ => none

/-- `axl_node_get_first_child` (src/axl_node.c:2555-2576). -/
def getFirstChild (h : Heap) (n : Nat) : Option (Option Nat) := do
  let c ← h.nodes n
  let a ← h.seekNext isNode h.nextItem c.first
  h.nodeAt a

/-- `axl_node_get_last_child` (src/axl_node.c:2587-2608). -/
def getLastChild (h : Heap) (n : Nat) : Option (Option Nat) := do
  let c ← h.nodes n
  let a ← h.seekPrev isNode h.nextItem c.last
  h.nodeAt a

/-- `axl_node_get_next` (src/axl_node.c:2340-2374). -/
def getNext (h : Heap) (n : Nat) : Option (Option Nat) := do
  let c ← h.nodes n
  match c.holder with
  | none => some none
  | some a =>
    let ci ← h.items a
    let b ← h.seekNext isNode h.nextItem ci.next
    h.nodeAt b

/-- `axl_node_get_previous` (src/axl_node.c:2429-2450).  With no holder `axl_item_get_previous`
is given NULL and returns NULL. -/
def getPrevious (h : Heap) (n : Nat) : Option (Option Nat) := do
  let c ← h.nodes n
  match c.holder with
  | none => some none
  | some a =>
    let ci ← h.items a
    let b ← h.seekPrev isNode h.nextItem ci.prev
    h.nodeAt b

/-- `NODE_CMP_NAME (node, name)` on an item that is a node (src/axl_decl.h; used at
src/axl_node.c:3700-3705). -/
def isCalled (h : Heap) (name : List Char) : Child → Option Bool
  | .node n => (h.nodes n).map fun c => c.name == name
  | .text _ _ => some false

/-- `axl_node_get_child_called` (src/axl_node.c:3683-3716). -/
def getChildCalled (h : Heap) (n : Nat) (name : List Char) : Option (Option Nat) := do
  let c ← h.nodes n
  let a ← h.seekNext (h.isCalled name) h.nextItem c.first
  h.nodeAt a

/-- The loop of `axl_node_get_next_called` (src/axl_node.c:2400-2408). -/
def nextCalledLoop (h : Heap) (name : List Char) : Nat → Option Nat → Option (Option Nat)
  | _, none => some none
  | 0, some _ => none
  | k + 1, some n =>
    match h.nodes n with
    | none => none
    | some c =>
      if c.name == name then some (some n)
      else
        match h.getNext n with
        | none => none
        | some m => nextCalledLoop h name k m

/-- `axl_node_get_next_called` (src/axl_node.c:2392-2412). -/
def getNextCalled (h : Heap) (n : Nat) (name : List Char) : Option (Option Nat) := do
  let m ← h.getNext n
  nextCalledLoop h name h.nextNode m

/-- The second loop of `axl_node_find_called` (src/axl_node.c:3764-3775), given how to search below a
node. -/
def findLoop (find : Nat → Option (Option Nat)) (h : Heap) : Nat → Option Nat → Option (Option Nat)
  | _, none => some none
  | 0, some _ => none
  | k + 1, some n =>
    match find n with
    | none => none
    | some (some c) => some (some c)
    | some none =>
      match h.getNext n with
      | none => none
      | some m => findLoop find h k m

/-- `axl_node_find_called` (src/axl_node.c:3747-3779).  The first loop, over the children, is that of
`nextCalledLoop`.  The number bounds the depth of the recursion. -/
def findDepth (h : Heap) (name : List Char) : Nat → Nat → Option (Option Nat)
  | 0, _ => none
  | d + 1, n =>
    match h.getFirstChild n with
    | none => none
    | some c =>
      match h.nextCalledLoop name h.nextNode c with
      | none => none
      | some (some m) => some (some m)
      | some none => findLoop (findDepth h name d) h h.nextNode c

/-- `axl_node_find_called` (src/axl_node.c:3747-3779). -/
def findCalled (h : Heap) (n : Nat) (name : List Char) : Option (Option Nat) := h.findDepth name h.nextNode n

/-- The loop of `axl_node_get_previous_called` (src/axl_node.c:2475-2483). -/
def previousCalledLoop (h : Heap) (name : List Char) : Nat → Option Nat → Option (Option Nat)
  | _, none => some none
  | 0, some _ => none
  | k + 1, some n =>
    match h.nodes n with
    | none => none
    | some c =>
      if c.name == name then some (some n)
      else
        match h.getPrevious n with
        | none => none
        | some m => previousCalledLoop h name k m

/-- `axl_node_get_previous_called` (src/axl_node.c:2466-2488). -/
def getPreviousCalled (h : Heap) (n : Nat) (name : List Char) : Option (Option Nat) := do
  let m ← h.getPrevious n
  previousCalledLoop h name h.nextNode m

/-- The loop of `axl_node_get_child_nth` (src/axl_node.c:3809-3822). -/
def nthLoop (h : Heap) (position : Nat) : Nat → Option Nat → Nat → Option (Option Nat)
  | _, none, _ => some none
  | 0, some _, _ => none
  | k + 1, some a, iterator =>
    match h.items a with
    | none => none
    | some c =>
      match c.data.data with
      | .node n => if iterator = position then some (some n) else nthLoop h position k c.next (iterator + 1)
      | .text _ _ => nthLoop h position k c.next iterator

/-- `axl_node_get_child_nth` (src/axl_node.c:3792-3826), for a position that is not negative. -/
def getChildNth (h : Heap) (n : Nat) (position : Nat) : Option (Option Nat) := do
  let c ← h.nodes n
  nthLoop h position h.nextItem c.first 0

/-- The loop of `axl_node_get_child_num` (src/axl_node.c:3849-3858). -/
def numLoop (h : Heap) : Nat → Option Nat → Nat → Option Nat
  | _, none, count => some count
  | 0, some _, _ => none
  | k + 1, some a, count =>
    match h.items a with
    | none => none
    | some c =>
      match c.data.data with
      | .node _ => numLoop h k c.next (count + 1)
      | .text _ _ => numLoop h k c.next count

/-- `axl_node_get_child_num` (src/axl_node.c:3836-3862). -/
def getChildNum (h : Heap) (n : Nat) : Option Nat := do
  let c ← h.nodes n
  numLoop h h.nextItem c.first 0

/-- `axl_node_have_childs` (src/axl_node.c:3612-3632). -/
def haveChilds (h : Heap) (n : Nat) : Option Bool := do
  let c ← h.nodes n
  let a ← h.seekNext isNode h.nextItem c.first
  some a.isSome

/-- `axl_node_is_empty` (src/axl_node.c:2637-2662). -/
def isEmpty (h : Heap) (n : Nat) : Option Bool := do
  let c ← h.nodes n
  let a ← h.seekNext (fun d => some (isContent d)) h.nextItem c.first
  some a.isNone

/-- The loop of `axl_node_get_childs` (src/axl_node.c:3908-3918). -/
def childsLoop (h : Heap) : Nat → Option Nat → AxlList Nat → Option (AxlList Nat)
  | _, none, l => some l
  | 0, some _, _ => none
  | k + 1, some a, l =>
    match h.items a with
    | none => none
    | some c =>
      match c.data.data with
      | .node n =>
        match l.add n with
        | none => none
        | some l => childsLoop h k c.next l
      | .text _ _ => childsLoop h k c.next l

/-- `axl_node_get_childs` (src/axl_node.c:3895-3922).  `__axl_node_equal`
(src/axl_node.c:345-348) always returns 1. -/
def getChilds (h : Heap) (n : Nat) : Option (AxlList Nat) := do
  let c ← h.nodes n
  childsLoop h h.nextItem c.first (AxlList.new AxlList.alwaysReturn1 false)

end Heap
end Axl
