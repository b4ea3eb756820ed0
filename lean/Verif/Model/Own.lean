/-
Who owns the memory of a document: every block that the node API takes from the heap, where it is
kept, and who gives it back (src/axl_node.c, src/axl_doc.c, src/axl_hash.c).

A piece of memory is either a block of its own, taken with `axl_new` or `axl_strdup` and given back
with `axl_free`, or a part of the factories of a document (`axlFactory`, `axlStrFactory`), which goes
away when the document is freed.  libaxl writes down which of the two it is in flags
(`NODE_FROM_FACTORY`, `NODE_NAME_FROM_FACTORY`, `ITEM_FROM_FACTORY`, `ITEM_CONTENT_FROM_FACTORY`,
`from_factory`) and in the destroy functions of a hash; in the model the flag is kept beside the
memory, as in the code, and nothing makes them agree but the functions.

Giving back a block that was already given back, giving back a part of a factory, and reading memory
that is gone are undefined behaviour in C and the outcome `none` in the model.

Simplifications, for the whole file:
* numbers of blocks are never used twice, so that a dangling pointer is always noticed;
* allocation does not fail;
* the factories of a document are one pool; they are really five, freed one after the other;
* the items of a node are a list (C24 is what justifies it), a node is named by the tree it is in and
  the positions that lead to it, and a hash is a list of pairs with one block for all it allocates
  (C09 and C12 are what justifies it);
* what the strings hold is not represented, except the names of the attributes and the keys of the
  annotations, on which the code decides; the names and the keys are never NULL.
-/
namespace Axl.Own

/-- A pointer to memory: a block of its own, or a part of the factories of a document. -/
inductive Ref where
  | own (b : Nat)
  | pool (d : Nat)
deriving DecidableEq, Repr

/-- The memory: the number of the next block, the blocks that were not given back, and the documents
whose factories are there. -/
structure Store where
  next : Nat
  live : List Nat
  pools : List Nat
deriving DecidableEq, Repr

namespace Store

/-- `axl_new`, `axl_strdup` (src/axl_decl.h, src/axl_stream.c): one more block. -/
def alloc (s : Store) : Store × Ref := ({ s with next := s.next + 1, live := s.next :: s.live }, .own s.next)

/-- `axl_free` (src/axl_decl.h) of a pointer that is not NULL. -/
def free (s : Store) : Ref → Option Store
  | .own b => if b ∈ s.live then some { s with live := s.live.erase b } else none
  | .pool _ => none

/-- Reading or writing the memory at the pointer. -/
def touch (s : Store) : Ref → Option Unit
  | .own b => if b ∈ s.live then some () else none
  | .pool d => if d ∈ s.pools then some () else none

/-- `if (! flag) axl_free (pointer)`. -/
def freeUnless (s : Store) (flag : Bool) (r : Ref) : Option Store := if flag then some s else s.free r

/-- Give back a list of blocks, in order. -/
def freeAll : Store → List Ref → Option Store
  | s, [] => some s
  | s, r :: l => do
    let s ← s.free r
    freeAll s l

end Store

/-- `struct _axlNodeAttr` (src/axl_node.c:87-108): the record, its two strings and its flag.  `key` is
the text of the name. -/
structure AttrC where
  key : List Char
  cell : Ref
  name : Ref
  value : Ref
  fromFactory : Bool
deriving DecidableEq, Repr

/-- A pair of a hash (src/axl_hash.c:56-67): the key, whether it has a destroy function, and the
memory that the destroy function of the data gives back.  `text` is what the key says. -/
structure Entry where
  text : List Char
  key : Ref
  keyFree : Bool
  data : List Ref
deriving DecidableEq, Repr

/-- What `node->attributes` leads to (src/axl_node.c:261-267): the list up to ten attributes, the hash
above ten. -/
inductive Attrs where
  | list (l : List AttrC)
  | hash (h : Ref) (l : List Entry)
deriving DecidableEq, Repr

/-- `struct _axlItem` (src/axl_node.c:297-337): the record, the flag ITEM_FROM_FACTORY, `item->doc`. -/
structure ItemRec where
  ref : Ref
  fromFactory : Bool
  doc : Option Nat
deriving DecidableEq, Repr

/-- `struct _axlPI` (src/axl_doc.c:407-420). -/
structure PiRec where
  cell : Ref
  name : Ref
  content : Option Ref
deriving DecidableEq, Repr

/-- The kinds of item that hold an `axlNodeContent`. -/
inductive Kind where
  | content
  | cdata
  | comment
deriving DecidableEq, Repr

/-- An item that is not a node: with an `axlNodeContent` (src/axl_node.c:64-79), the string in it and
the flag ITEM_CONTENT_FROM_FACTORY, or with an `axlPI`. -/
inductive Leaf where
  | text (k : Kind) (item : ItemRec) (cell content : Ref) (contentFactory : Bool)
  | pi (item : ItemRec) (p : PiRec)
deriving DecidableEq, Repr

/-- `struct _axlNode` (src/axl_node.c:245-295) without the children: the record, the flags in
`node->conf`, the name, the attributes, the hash of annotations and the item that holds the node. -/
structure Head where
  self : Ref
  fromFactory : Bool
  name : Ref
  nameFactory : Bool
  attrs : Attrs
  annot : Option (Ref × List Entry)
  holder : Option ItemRec
deriving DecidableEq, Repr

mutual
/-- A node and what is below it. -/
inductive Node where
  | mk (h : Head) (items : Items)
/-- The items of a node.  The item of a node is the holder of the node (`node->holder`). -/
inductive Items where
  | nil
  | node (n : Node) (next : Items)
  | leaf (l : Leaf) (next : Items)
end

namespace Node
def head : Node → Head | .mk h _ => h
def items : Node → Items | .mk _ i => i
/-- Change the fields of the node. -/
def withHead (f : Head → Head) : Node → Node | .mk h i => .mk (f h) i
end Node

namespace Items
def append : Items → Items → Items
  | .nil, t => t
  | .node n s, t => .node n (append s t)
  | .leaf l s, t => .leaf l (append s t)

/-- The item at the position, alone. -/
def at? : Items → Nat → Option Items
  | .nil, _ => none
  | .node n _, 0 => some (.node n .nil)
  | .leaf l _, 0 => some (.leaf l .nil)
  | .node _ s, i + 1 => at? s i
  | .leaf _ s, i + 1 => at? s i

/-- The items without the one at the position. -/
def erase : Items → Nat → Items
  | .nil, _ => .nil
  | .node _ s, 0 => s
  | .leaf _ s, 0 => s
  | .node n s, i + 1 => .node n (erase s i)
  | .leaf l s, i + 1 => .leaf l (erase s i)

/-- The items with others after the position. -/
def insertAfter : Items → Nat → Items → Items
  | .nil, _, t => t
  | .node n s, 0, t => .node n (append t s)
  | .leaf l s, 0, t => .leaf l (append t s)
  | .node n s, i + 1, t => .node n (insertAfter s i t)
  | .leaf l s, i + 1, t => .leaf l (insertAfter s i t)
end Items

/-! Destruction. -/

/-- `__axl_node_free_attr_list` (src/axl_node.c:149-176). -/
def freeAttrList : Store → List AttrC → Option Store
  | s, [] => some s
  | s, a :: l => do
    s.touch a.cell
    if a.fromFactory then freeAttrList s l
    else
      let s ← s.free a.name
      let s ← s.free a.value
      let s ← s.free a.cell
      freeAttrList s l

/-- The destroy functions of a pair (src/axl_hash.c:579-584, 677-683; `axl_hash_free`): the key, then
the data. -/
def freeEntry (s : Store) (e : Entry) : Option Store := do
  let s ← s.freeUnless (!e.keyFree) e.key
  s.freeAll e.data

/-- The pairs of a hash that is freed. -/
def freeEntries : Store → List Entry → Option Store
  | s, [] => some s
  | s, e :: l => do
    let s ← freeEntry s e
    freeEntries s l

/-- `axl_hash_free` (src/axl_hash.c:1474-1519) with `__axl_hash_free_data` (src/axl_hash.c:1449-1466). -/
def freeHash (s : Store) (h : Ref) (l : List Entry) : Option Store := do
  s.touch h
  let s ← freeEntries s l
  s.free h

/-- The attributes of a node that is freed (src/axl_node.c:5403-5409). -/
def freeAttrs (s : Store) : Attrs → Option Store
  | .list l => freeAttrList s l
  | .hash h l => freeHash s h l

/-- `axl_pi_free` (src/axl_doc.c:2929-2939). -/
def freePi (s : Store) (p : PiRec) : Option Store := do
  s.touch p.cell
  let s ← s.free p.name
  let s ← match p.content with
    | none => some s
    | some c => s.free c
  s.free p.cell

/-- `axl_item_free` (src/axl_node.c:6824-6870) of an item that is not a node. -/
def freeLeaf (s : Store) : Leaf → Option Store
  | .text _ item cell content contentFactory => do
    s.touch item.ref
    let s ← if contentFactory then some s
      else do
        s.touch cell
        let s ← s.free content
        s.free cell
    s.freeUnless item.fromFactory item.ref
  | .pi item p => do
    s.touch item.ref
    let s ← freePi s p
    s.freeUnless item.fromFactory item.ref

/-- The holder of a node that is freed (src/axl_node.c:5432-5441). -/
def freeHolder (s : Store) : Option ItemRec → Option Store
  | none => some s
  | some it => do
    s.touch it.ref
    s.freeUnless it.fromFactory it.ref

/-- The annotations of a node that is freed (src/axl_node.c:5470-5474). -/
def freeAnnot (s : Store) : Option (Ref × List Entry) → Option Store
  | none => some s
  | some (h, l) => freeHash s h l

mutual
/-- `axl_node_free` (src/axl_node.c:5455-5478) with `__axl_node_free_internal`
(src/axl_node.c:5392-5445). -/
def freeNode (s : Store) : Node → Option Store
  | .mk h items => do
    s.touch h.self
    let s ← s.freeUnless h.nameFactory h.name
    let s ← freeAttrs s h.attrs
    let s ← freeItems s items
    let s ← freeHolder s h.holder
    -- node->conf is read after the inner parts are freed
    s.touch h.self
    let s ← s.freeUnless h.fromFactory h.self
    freeAnnot s h.annot
/-- The loop over the items (src/axl_node.c:5416-5428): `item->next` and `item->type` are read, and a
node is freed with its holder. -/
def freeItems (s : Store) : Items → Option Store
  | .nil => some s
  | .node n next => do
    let it ← n.head.holder
    s.touch it.ref
    let s ← freeNode s n
    freeItems s next
  | .leaf l next => do
    let s ← freeLeaf s l
    freeItems s next
end

/-- `axl_node_free_full` (src/axl_node.c:5489-5511).  The argument `also_childs` is not looked at: the
children are never freed. -/
def freeNodeFull (s : Store) (_alsoChilds : Bool) : Node → Option Store
  | .mk h _ => do
    s.touch h.self
    let s ← s.freeUnless h.nameFactory h.name
    let s ← freeAttrs s h.attrs
    let s ← freeHolder s h.holder
    s.touch h.self
    let s ← s.freeUnless h.fromFactory h.self
    freeAnnot s h.annot

/-! Names and attributes. -/

/-- `axl_node_create` (src/axl_node.c:552-562). -/
def create (s : Store) : Store × Node :=
  let (s, self) := s.alloc
  let (s, name) := s.alloc
  (s, .mk ⟨self, false, name, false, .list [], none, none⟩ .nil)

/-- `axl_node_set_name` (src/axl_node.c:807-818). -/
def setName (s : Store) : Node → Option (Store × Node × Items)
  | .mk h items => do
    s.touch h.self
    let s ← s.freeUnless h.nameFactory h.name
    let (s, name) := s.alloc
    some (s, .mk { h with name := name, nameFactory := false } items, .nil)

/-- `axl_node_set_name_ref` (src/axl_node.c:832-842), with a name that the caller allocates.  The flag
NODE_NAME_FROM_FACTORY is left as it is. -/
def setNameRef (s : Store) : Node → Option (Store × Node × Items)
  | .mk h items => do
    let (s, name) := s.alloc
    s.touch h.self
    let s ← s.freeUnless h.nameFactory h.name
    some (s, .mk { h with name := name } items, .nil)

/-- The walk of `axl_node_has_attribute` over the list (src/axl_node.c:1294-1306). -/
def hasList (s : Store) (key : List Char) : List AttrC → Option Bool
  | [] => some false
  | a :: l => do
    s.touch a.cell
    s.touch a.name
    if a.key = key then some true else hasList s key l

/-- The search of a hash for a key (src/axl_hash.c, `__axl_hash_internal_lookup`). -/
def hasEntry (s : Store) (key : List Char) : List Entry → Option Bool
  | [] => some false
  | e :: l => do
    s.touch e.key
    if e.text = key then some true else hasEntry s key l

/-- `axl_node_has_attribute` (src/axl_node.c:1282-1311). -/
def hasAttribute (s : Store) (key : List Char) : Attrs → Option Bool
  | .list l => hasList s key l
  | .hash h l => do
    s.touch h
    hasEntry s key l

/-- Moving the list to the hash (src/axl_node.c:1097-1111): the strings go to the hash, with a destroy
function if they are not from a factory, and the record is freed. -/
def moveToHash : Store → List AttrC → List Entry → Option (Store × List Entry)
  | s, [], acc => some (s, acc)
  | s, a :: l, acc => do
    s.touch a.cell
    let s ← s.freeUnless a.fromFactory a.cell
    moveToHash s l (⟨a.key, a.name, !a.fromFactory, if a.fromFactory then [] else [a.value]⟩ :: acc)

/-- Where the record of an attribute comes from (src/axl_node.c:1047-1050, 1069-1072):
`axl_factory_get (factory)` or `axl_new`. -/
def attrCell (s : Store) : Option Nat → Option (Store × Ref)
  | some d => do
    s.touch (.pool d)
    some (s, .pool d)
  | none => some s.alloc

/-- `__axl_node_set_attribute` (src/axl_node.c:1031-1126): false when the attribute is there already.
`factory` is the document whose factories are used, if any. -/
def setAttrInternal (s : Store) (a : Attrs) (key : List Char) (name value : Ref) (factory : Option Nat) :
    Option (Store × Attrs × Bool) :=
  match a with
  | .list [] => do
    let (s, cell) ← attrCell s factory
    some (s, .list [⟨key, cell, name, value, factory.isSome⟩], true)
  | .list (x :: l) => do
    let found ← hasAttribute s key (.list (x :: l))
    if found then some (s, a, false)
    else if (x :: l).length < 10 then
      let (s, cell) ← attrCell s factory
      some (s, .list (⟨key, cell, name, value, factory.isSome⟩ :: x :: l), true)
    else
      let (s, h) := s.alloc
      let (s, es) ← moveToHash s (x :: l) []
      some (s, .hash h (⟨key, name, factory.isNone, if factory.isSome then [] else [value]⟩ :: es), true)
  | .hash h l => do
    let found ← hasAttribute s key (.hash h l)
    if found then some (s, a, false)
    else some (s, .hash h (⟨key, name, factory.isNone, if factory.isSome then [] else [value]⟩ :: l), true)

/-- `axl_node_set_attribute` (src/axl_node.c:1154-1211), on the attributes of the node: both strings are
copied, and freed again if the attribute is there already.  The text of the name is the escaped one. -/
def setAttr (esc : List Char → List Char) (s : Store) (a : Attrs) (key : List Char) : Option (Store × Attrs) :=
  if key = [] then some (s, a)
  else do
    let (s, name) := s.alloc
    let (s, value) := s.alloc
    let (s, a, ok) ← setAttrInternal s a (esc key) name value none
    if ok then some (s, a)
    else
      let s ← s.free name
      let s ← s.free value
      some (s, a)

/-- `axl_node_set_attribute_ref` (src/axl_node.c:1228-1243), with strings that the caller allocates. -/
def setAttrRef (s : Store) (a : Attrs) (key : List Char) : Option (Store × Attrs) := do
  let (s, name) := s.alloc
  let (s, value) := s.alloc
  let (s, a, ok) ← setAttrInternal s a key name value none
  if ok then some (s, a)
  else
    let s ← s.free name
    let s ← s.free value
    some (s, a)

/-- `axl_node_set_attribute_from_factory` (src/axl_node.c:1257-1266). -/
def setAttrFactory (s : Store) (d : Nat) (a : Attrs) (key : List Char) : Option (Store × Attrs) := do
  let (s, a, _) ← setAttrInternal s a key (.pool d) (.pool d) (some d)
  some (s, a)

/-- The walk of `axl_node_remove_attribute` over the list (src/axl_node.c:1346-1381). -/
def removeList (s : Store) (key : List Char) : List AttrC → Option (Store × List AttrC)
  | [] => some (s, [])
  | a :: l => do
    s.touch a.cell
    s.touch a.name
    if a.key = key then
      if a.fromFactory then some (s, l)
      else
        let s ← s.free a.name
        let s ← s.free a.value
        let s ← s.free a.cell
        some (s, l)
    else
      let (s, l) ← removeList s key l
      some (s, a :: l)

/-- `axl_hash_remove` (src/axl_hash.c:604-760), on the pairs. -/
def removeEntry (s : Store) (key : List Char) : List Entry → Option (Store × List Entry)
  | [] => some (s, [])
  | e :: l => do
    s.touch e.key
    if e.text = key then
      let s ← freeEntry s e
      some (s, l)
    else
      let (s, l) ← removeEntry s key l
      some (s, e :: l)

/-- The pairs of the hash stored again with `axl_node_set_attribute` (src/axl_node.c:1313-1320, 1399). -/
def reinsert (esc : List Char → List Char) : Store → Attrs → List Entry → Option (Store × Attrs)
  | s, a, [] => some (s, a)
  | s, a, e :: l => do
    s.touch e.key
    let (s, a) ← setAttr esc s a e.text
    reinsert esc s a l

/-- `axl_node_remove_attribute` (src/axl_node.c:1331-1408), on the attributes of the node. -/
def removeAttr (esc : List Char → List Char) (s : Store) (a : Attrs) (key : List Char) : Option (Store × Attrs) :=
  match a with
  | .list l => do
    let (s, l) ← removeList s key l
    some (s, .list l)
  | .hash h l => do
    s.touch h
    let (s, l) ← removeEntry s key l
    if l.length = 10 then
      let (s, a) ← reinsert esc s (.list []) l
      let s ← freeHash s h l
      some (s, a)
    else some (s, .hash h l)

/-- A function on the attributes as a function on the node. -/
def onAttrs (f : Store → Attrs → Option (Store × Attrs)) (s : Store) : Node → Option (Store × Node × Items)
  | .mk h items => do
    s.touch h.self
    let (s, a) ← f s h.attrs
    some (s, .mk { h with attrs := a } items, .nil)

/-! Annotations. -/

/-- The pair found by `axl_hash_insert_full` (src/axl_hash.c:577-590): its key and data are destroyed
and the new ones take their place.  With no such pair one is added (src/axl_hash.c:567-576). -/
def putEntry (s : Store) (new : Entry) : List Entry → Option (Store × List Entry)
  | [] => some (s, [new])
  | e :: l => do
    s.touch e.key
    if e.text = new.text then
      let s ← freeEntry s e
      some (s, new :: l)
    else
      let (s, l) ← putEntry s new l
      some (s, e :: l)

/-- The hash of annotations, created if there is none (`__init_node_annotation`, src/axl_node.c:1643-1648). -/
def annotHash (s : Store) : Option (Ref × List Entry) → Store × Ref × List Entry
  | some (r, l) => (s, r, l)
  | none => (s.alloc.1, s.alloc.2, [])

/-- `axl_node_annotate_data_full` (src/axl_node.c:1719-1735), with a key that the caller allocates and
a number of blocks as data: none for `axl_node_annotate_data`, one for an integer or a double
(src/axl_node.c:1887-1906, 2009-2028), two for a string (src/axl_node.c:1948-1968).  The
functions that annotate a value give a constant key and no destroy function for it; here the hash
always owns the key. -/
def annotate (key : List Char) (blocks : Nat) (s : Store) : Node → Option (Store × Node × Items)
  | .mk h items => do
    s.touch h.self
    let (s, hash, l) := annotHash s h.annot
    s.touch hash
    let (s, k) := s.alloc
    let (s, data) := allocAll blocks s
    let (s, l) ← putEntry s ⟨key, k, true, data⟩ l
    some (s, .mk { h with annot := some (hash, l) } items, .nil)
where
  /-- A number of new blocks. -/
  allocAll : Nat → Store → Store × List Ref
    | 0, s => (s, [])
    | k + 1, s => ((allocAll k s.alloc.1).1, s.alloc.2 :: (allocAll k s.alloc.1).2)

/-! Items. -/

/-- The item for a new child (`__axl_item_common_configure`, src/axl_node.c:6319-6330): from the
factory of the document of the parent if the parent is in one, otherwise a block of its own. -/
def newItem (s : Store) (parent : Option ItemRec) : Option (Store × ItemRec) :=
  match parent with
  | none => some (s.alloc.1, ⟨s.alloc.2, false, none⟩)
  | some it => do
    s.touch it.ref
    match it.doc with
    | none => some (s.alloc.1, ⟨s.alloc.2, false, none⟩)
    | some d => do
      s.touch (.pool d)
      some (s, ⟨.pool d, true, some d⟩)

/-- The document of the parent (src/axl_node.c:6332-6334): none if the parent has no item. -/
def docOf (s : Store) : Option ItemRec → Option (Option Nat)
  | none => some none
  | some p => do
    s.touch p.ref
    some p.doc

/-- `__axl_item_common_configure` (src/axl_node.c:6295-6339) for a node: the holder of the node is
used again if there is one. -/
def hold (s : Store) (parent : Option ItemRec) : Node → Option (Store × Node)
  | .mk h items =>
    match h.holder with
    | some it => do
      s.touch it.ref
      let d ← docOf s parent
      some (s, .mk { h with holder := some { it with doc := d } } items)
    | none => do
      let (s, it) ← newItem s parent
      some (s, .mk { h with holder := some it } items)

/-- `axl_node_set_child` (src/axl_node.c:3377-3388), `axl_item_set_child` (src/axl_node.c:6359-6370). -/
def setChild (child : Node) (s : Store) : Node → Option (Store × Node × Items)
  | .mk h items => do
    s.touch h.self
    let (s, c) ← hold s h.holder child
    some (s, .mk h (items.append (.node c .nil)), .nil)

/-- `axl_node_set_child_after` (src/axl_node.c:3401-3408), `axl_item_set_after`
(src/axl_node.c:6383-6407): after the item at the position. -/
def setAfter (i : Nat) (child : Node) (s : Store) : Node → Option (Store × Node × Items)
  | .mk h items => do
    s.touch h.self
    let (s, c) ← hold s h.holder child
    some (s, .mk h (items.insertAfter i (.node c .nil)), .nil)

/-- `axl_node_set_content` (src/axl_node.c:2788-2830), `axl_node_set_content_ref`
(src/axl_node.c:2915-2926), `axl_node_set_cdata_content` (src/axl_node.c:2973-3004) and
`axl_node_set_comment` (src/axl_node.c:3041-3066): a record, a string and an item. -/
def setText (k : Kind) (s : Store) : Node → Option (Store × Node × Items)
  | .mk h items => do
    s.touch h.self
    let (s, cell) := s.alloc
    let (s, content) := s.alloc
    let (s, it) ← newItem s h.holder
    some (s, .mk h (items.append (.leaf (.text k it cell content false) .nil)), .nil)

/-- `axl_node_set_content_from_factory` (src/axl_node.c:2933-2944) and
`axl_node_set_cdata_content_from_factory` (src/axl_node.c:3012-3023). -/
def setTextFactory (k : Kind) (d : Nat) (s : Store) : Node → Option (Store × Node × Items)
  | .mk h items => do
    s.touch h.self
    s.touch (.pool d)
    let (s, it) ← newItem s h.holder
    some (s, .mk h (items.append (.leaf (.text k it (.pool d) (.pool d) true) .nil)), .nil)

/-- `axl_pi_create` (src/axl_doc.c:2792-2822). -/
def newPi (s : Store) (content : Bool) : Store × PiRec :=
  let (s, cell) := s.alloc
  let (s, name) := s.alloc
  if content then
    let (s, c) := s.alloc
    (s, ⟨cell, name, some c⟩)
  else (s, ⟨cell, name, none⟩)

/-- `axl_node_add_pi_target` (src/axl_node.c:4097-4114). -/
def addPi (content : Bool) (s : Store) : Node → Option (Store × Node × Items)
  | .mk h items => do
    s.touch h.self
    let (s, p) := newPi s content
    let (s, it) ← newItem s h.holder
    some (s, .mk h (items.append (.leaf (.pi it p) .nil)), .nil)

/-- Taking out the item at a position: `axl_node_remove` and `axl_node_deattach`
(src/axl_node.c:3492-3579) before the deallocation, and `axl_item_remove` (src/axl_node.c:6512-6545). -/
def takeItem (i : Nat) (s : Store) : Node → Option (Store × Node × Items)
  | .mk h items => do
    s.touch h.self
    let it ← items.at? i
    match it with
    | .node n _ =>
      let r ← n.head.holder
      s.touch r.ref
      -- axl_doc_get_root (item->doc)
      match r.doc with
      | some d => s.touch (.pool d)
      | none => some ()
    | .leaf (.text _ r _ _ _) _ => s.touch r.ref
    | .leaf (.pi r _) _ => s.touch r.ref
    | .nil => some ()
    some (s, .mk h (items.erase i), it)

/-- `axl_node_replace` (src/axl_node.c:3425-3462) for a node with a parent: the holder of the node goes
to the new node; the item that the new node had is forgotten. -/
def swapItem (i : Nat) (new : Node) (s : Store) : Node → Option (Store × Node × Items)
  | .mk h items => do
    s.touch h.self
    match items.at? i with
    | some (.node (.mk oh oitems) _) =>
      let r ← oh.holder
      s.touch r.ref
      s.touch new.head.self
      match i with
      | 0 =>
        some (s, .mk h (Items.append (.node (new.withHead fun x => { x with holder := some r }) .nil) (items.erase 0)),
          .node (.mk { oh with holder := none } oitems) .nil)
      | j + 1 =>
        some (s, .mk h ((items.erase (j + 1)).insertAfter j
            (.node (new.withHead fun x => { x with holder := some r }) .nil)),
          .node (.mk { oh with holder := none } oitems) .nil)
    | _ => none

/-- The first part of `axl_node_transfer_childs` (src/axl_node.c:4222-4249) and of
`axl_item_transfer_childs_after` (src/axl_node.c:6625-6685): the items leave their parent. -/
def takeAll (s : Store) : Node → Option (Store × Node × Items)
  | .mk h items => do
    s.touch h.self
    some (s, .mk h .nil, items)

/-- The second part of `axl_node_transfer_childs`: the items go to the end of another node.  The
document in the items (`item->doc`) is not changed. -/
def giveAll (new : Items) (s : Store) : Node → Option (Store × Node × Items)
  | .mk h items => do
    s.touch h.self
    some (s, .mk h (items.append new), .nil)

/-- The second part of `axl_item_transfer_childs_after`. -/
def giveAllAfter (i : Nat) (new : Items) (s : Store) : Node → Option (Store × Node × Items)
  | .mk h items => do
    s.touch h.self
    some (s, .mk h (items.insertAfter i new), .nil)

/-- The loop of `axl_node_set_is_empty` (src/axl_node.c:2219-2247): the items of character data are
removed and freed. -/
def emptyItems (s : Store) : Items → Option (Store × Items)
  | .nil => some (s, .nil)
  | .node n next => do
    let (s, l) ← emptyItems s next
    some (s, .node n l)
  | .leaf (.text .content it c r f) next => do
    let s ← freeLeaf s (.text .content it c r f)
    emptyItems s next
  | .leaf (.text .cdata it c r f) next => do
    let s ← freeLeaf s (.text .cdata it c r f)
    emptyItems s next
  | .leaf l next => do
    let (s, rest) ← emptyItems s next
    some (s, .leaf l rest)

/-- `axl_node_set_is_empty (node, axl_true)` (src/axl_node.c:2203-2257). -/
def setIsEmpty (s : Store) : Node → Option (Store × Node × Items)
  | .mk h items => do
    s.touch h.self
    let (s, l) ← emptyItems s items
    some (s, .mk h l, .nil)

/-! Copies. -/

/-- `__axl_node_copy_attr_list` (src/axl_node.c:118-140). -/
def copyAttrList : Store → List AttrC → Option (Store × List AttrC)
  | s, [] => some (s, [])
  | s, a :: l => do
    let (s, cell) := s.alloc
    s.touch a.cell
    s.touch a.name
    let (s, name) := s.alloc
    s.touch a.value
    let (s, value) := s.alloc
    let (s, l) ← copyAttrList s l
    some (s, ⟨a.key, cell, name, value, false⟩ :: l)

/-- The pairs of `axl_hash_copy_full` (src/axl_hash.c:1136-1240) with `__axl_node_copy_key` and
`__axl_node_copy_value` (src/axl_node.c:866-878): both are copied and freed by the new hash. -/
def copyEntries : Store → List Entry → Option (Store × List Entry)
  | s, [] => some (s, [])
  | s, e :: l => do
    s.touch e.key
    let (s, k) := s.alloc
    let (s, v) := s.alloc
    let (s, l) ← copyEntries s l
    some (s, ⟨e.text, k, true, [v]⟩ :: l)

/-- The attributes of a copy (src/axl_node.c:911-932). -/
def copyAttrs (s : Store) : Attrs → Option (Store × Attrs)
  | .list l => do
    let (s, l) ← copyAttrList s l
    some (s, .list l)
  | .hash h l => do
    s.touch h
    let (s, h') := s.alloc
    let (s, l) ← copyEntries s l
    some (s, .hash h' l)

/-- `axl_item_copy` (src/axl_node.c:6452-6499) of an item that is not a node. -/
def copyLeaf (s : Store) : Leaf → Option (Store × Leaf)
  | .text k it cell content _ => do
    s.touch it.ref
    let (s, r) := s.alloc
    s.touch cell
    s.touch content
    let (s, c) := s.alloc
    let (s, t) := s.alloc
    some (s, .text k ⟨r, false, none⟩ c t false)
  | .pi it p => do
    s.touch it.ref
    let (s, r) := s.alloc
    s.touch p.cell
    s.touch p.name
    let (s, q) := newPi s p.content.isSome
    some (s, .pi ⟨r, false, none⟩ q)

mutual
/-- `axl_node_copy` (src/axl_node.c:894-960). -/
def copyNode (attrs childs : Bool) (s : Store) : Node → Option (Store × Node)
  | .mk h items => do
    s.touch h.self
    s.touch h.name
    let (s, self) := s.alloc
    let (s, name) := s.alloc
    let (s, a) ← if attrs then copyAttrs s h.attrs else some (s, .list [])
    let (s, l) ← if childs then copyItems s items else some (s, .nil)
    some (s, .mk ⟨self, false, name, false, a, none, none⟩ l)
/-- The loop over the children (src/axl_node.c:935-955) with `axl_item_copy`
(src/axl_node.c:6452-6499). -/
def copyItems (s : Store) : Items → Option (Store × Items)
  | .nil => some (s, .nil)
  | .node n next => do
    let it ← n.head.holder
    s.touch it.ref
    let (s, r) := s.alloc
    let (s, c) ← copyNode true true s n
    let (s, l) ← copyItems s next
    some (s, .node (c.withHead fun x => { x with holder := some ⟨r, false, none⟩ }) l)
  | .leaf l next => do
    let (s, l') ← copyLeaf s l
    let (s, rest) ← copyItems s next
    some (s, .leaf l' rest)
end

/-! Documents. -/

/-- `struct _axlDoc` (src/axl_doc.c:306-405): the record, what it allocates, and the root. -/
structure DocRec where
  self : Ref
  parentNode : Option Ref
  piTargets : Ref
  xmlPreserve : Ref
  itemFactory : Ref
  nodeFactory : Ref
  contentFactory : Ref
  attrFactory : Ref
  strFactory : Ref
  pis : List PiRec
  version : Option Ref
  encoding : Option Ref
  root : Option Node

/-- `axl_free` of a pointer that may be NULL. -/
def freeOpt (s : Store) : Option Ref → Option Store
  | none => some s
  | some r => s.free r

/-- A pointer that may be NULL, allocated if asked for. -/
def allocIf (s : Store) (b : Bool) : Store × Option Ref :=
  if b then (s.alloc.1, some s.alloc.2) else (s, none)

/-- The elements of the list of processing instructions, freed with it. -/
def freePis : Store → List PiRec → Option Store
  | s, [] => some s
  | s, p :: l => do
    let s ← freePi s p
    freePis s l

/-- `axl_doc_free` (src/axl_doc.c:3264-3316).  The document is the number `d`. -/
def freeDoc (s : Store) (d : Nat) (c : DocRec) : Option Store := do
  s.touch c.self
  let s ← match c.root with
    | none => some s
    | some n => freeNode s n
  let s ← freeOpt s c.parentNode
  let s ← s.free c.xmlPreserve
  let s := { s with pools := s.pools.erase d }
  let s ← s.free c.itemFactory
  let s ← s.free c.contentFactory
  let s ← s.free c.attrFactory
  let s ← s.free c.nodeFactory
  let s ← s.free c.strFactory
  let s ← freePis s c.pis
  let s ← s.free c.piTargets
  let s ← freeOpt s c.encoding
  let s ← freeOpt s c.version
  s.free c.self

/-- `__axl_doc_new` (src/axl_doc.c:438-472) and `axl_doc_create` (src/axl_doc.c:1367-1389), for the
document number `d`. -/
def newDoc (s : Store) (d : Nat) (version encoding : Bool) : Store × DocRec :=
  let (s, self) := s.alloc
  let (s, parentNode) := s.alloc
  let (s, piTargets) := s.alloc
  let (s, xmlPreserve) := s.alloc
  let (s, itemFactory) := s.alloc
  let (s, nodeFactory) := s.alloc
  let (s, contentFactory) := s.alloc
  let (s, attrFactory) := s.alloc
  let (s, strFactory) := s.alloc
  let s := { s with pools := d :: s.pools }
  let (s, v) := allocIf s version
  let (s, e) := allocIf s encoding
  (s, ⟨self, some parentNode, piTargets, xmlPreserve, itemFactory, nodeFactory, contentFactory,
    attrFactory, strFactory, [], v, e, none⟩)

/-- What a node that is parsed holds: the names of its attributes and its children. -/
inductive SrcLeaf where
  | text (k : Kind)
  | pi (content : Bool)
deriving DecidableEq, Repr

mutual
inductive Src where
  | mk (attrs : List (List Char)) (items : SrcItems)
inductive SrcItems where
  | nil
  | node (n : Src) (next : SrcItems)
  | leaf (l : SrcLeaf) (next : SrcItems)
end

/-- The attributes of a node that is parsed (src/axl_doc.c:939-998). -/
def parseAttrs (d : Nat) : Store → Attrs → List (List Char) → Option (Store × Attrs)
  | s, a, [] => some (s, a)
  | s, a, k :: l => do
    let (s, a) ← setAttrFactory s d a k
    parseAttrs d s a l

/-- A text or a processing instruction that is parsed: character data through the factory
(src/axl_doc.c:1242, 1287), a comment (src/axl_doc.c:3364) and a processing instruction
(`axl_doc_consume_pi`) as blocks of their own. -/
def parseLeaf (d : Nat) (s : Store) (l : SrcLeaf) (n : Node) : Option (Store × Node × Items) :=
  match l with
  | .text .comment => setText .comment s n
  | .text k => setTextFactory k d s n
  | .pi c => addPi c s n

mutual
/-- The calls that the parser makes for a node that it has read (`__axl_doc_parse_node`,
src/axl_doc.c:772-1050; `axl_node_set_doc`, src/axl_node.c:991-1019, for the root): the record and the
name from the factories of the document, the attributes, and the children in order.  The parser links
a node to its parent before it reads what is in it, and gives it its item there; here the item comes
first and the link last. -/
def parseNode (d : Nat) (s : Store) : Src → Option (Store × Node)
  | .mk attrs items => do
    s.touch (.pool d)
    let (s, a) ← parseAttrs d s (.list []) attrs
    parseItems d s (.mk ⟨.pool d, true, .pool d, true, a, none, some ⟨.pool d, true, some d⟩⟩ .nil) items
/-- The children, given the node as read so far. -/
def parseItems (d : Nat) (s : Store) (n : Node) : SrcItems → Option (Store × Node)
  | .nil => some (s, n)
  | .node c next => do
    let (s, c) ← parseNode d s c
    let (s, n, _) ← setChild c s n
    parseItems d s n next
  | .leaf l next => do
    let (s, n, _) ← parseLeaf d s l n
    parseItems d s n next
end

/-- `axl_node_set_doc` (src/axl_node.c:991-1019): the item of a root. -/
def setDoc (s : Store) (d : Nat) : Node → Option (Store × Node)
  | .mk h items => do
    s.touch h.self
    match h.holder with
    | some it =>
      s.touch it.ref
      some (s, .mk { h with holder := some { it with doc := some d } } items)
    | none =>
      s.touch (.pool d)
      some (s, .mk { h with holder := some ⟨.pool d, true, some d⟩ } items)

/-! The calls. -/

/-- The documents by number, the nodes that are in no document and in no other node, by number, and
the memory.  A number is used once. -/
structure World where
  store : Store
  docs : List (Option DocRec)
  loose : List (Option Node)

/-- The world before the first call. -/
def World.empty : World := ⟨⟨0, [], []⟩, [], []⟩

/-- A tree: that of a document, or a node that is in no document. -/
inductive Where where
  | doc (d : Nat)
  | loose (k : Nat)
deriving DecidableEq, Repr

/-- A node: its tree, and the positions that lead to it from the root. -/
structure Loc where
  tree : Where
  path : List Nat
deriving DecidableEq, Repr

mutual
/-- The node at the end of the path. -/
def Node.at? : Node → List Nat → Option Node
  | n, [] => some n
  | .mk _ items, i :: p => Items.nodeAt? items i p
def Items.nodeAt? : Items → Nat → List Nat → Option Node
  | .nil, _, _ => none
  | .node n _, 0, p => Node.at? n p
  | .leaf _ _, 0, _ => none
  | .node _ next, i + 1, p => Items.nodeAt? next i p
  | .leaf _ next, i + 1, p => Items.nodeAt? next i p
end

/-- A call on a node: what it does with the memory and the node, and what it takes out of the node. -/
abbrev Edit := Store → Node → Option (Store × Node × Items)

mutual
/-- A call on the node at the end of the path. -/
def editNode (f : Edit) (s : Store) : Node → List Nat → Option (Store × Node × Items)
  | n, [] => f s n
  | .mk h items, i :: p => do
    let (s, items, out) ← editItems f s items i p
    some (s, .mk h items, out)
def editItems (f : Edit) (s : Store) : Items → Nat → List Nat → Option (Store × Items × Items)
  | .nil, _, _ => none
  | .node n next, 0, p => do
    let (s, n, out) ← editNode f s n p
    some (s, .node n next, out)
  | .leaf _ _, 0, _ => none
  | .node n next, i + 1, p => do
    let (s, next, out) ← editItems f s next i p
    some (s, .node n next, out)
  | .leaf l next, i + 1, p => do
    let (s, next, out) ← editItems f s next i p
    some (s, .leaf l next, out)
end

namespace World

/-- The tree. -/
def tree (w : World) : Where → Option Node
  | .doc d => (w.docs[d]?.join).bind (·.root)
  | .loose k => w.loose[k]?.join

/-- The node at a place. -/
def node (w : World) (l : Loc) : Option Node := (w.tree l.tree).bind fun n => n.at? l.path

/-- The world with another tree in the place, or with none. -/
def putTree (w : World) (t : Where) (n : Option Node) : World :=
  match t with
  | .doc d =>
    match w.docs[d]?.join with
    | some c => { w with docs := w.docs.set d (some { c with root := n }) }
    | none => w
  | .loose k => { w with loose := w.loose.set k n }

/-- A call on the node at a place. -/
def edit (w : World) (l : Loc) (f : Edit) : Option (World × Items) := do
  let n ← w.tree l.tree
  let (s, n, out) ← editNode f w.store n l.path
  some ({ w with store := s }.putTree l.tree (some n), out)

/-- A call that takes nothing out. -/
def edit' (w : World) (l : Loc) (f : Edit) : Option World := do
  let (w, _) ← w.edit l f
  some w

/-- One more node in no document. -/
def addLoose (w : World) (n : Node) : World := { w with loose := w.loose ++ [some n] }

/-- What was taken out is freed, or is a node in no document from now on. -/
def drop (w : World) (dealloc : Bool) (out : Items) : Option World :=
  match out with
  | .node n _ =>
    if dealloc then do
      let s ← freeNode w.store n
      some { w with store := s }
    else some (w.addLoose n)
  | .leaf l _ => do
    let s ← freeLeaf w.store l
    some { w with store := s }
  | .nil => some w

/-- The last position of a path, and what is before it. -/
def splitPath (p : List Nat) : Option (List Nat × Nat) := p.getLast?.map fun i => (p.dropLast, i)

/-- `axl_node_remove` (src/axl_node.c:3492-3552) and `axl_node_deattach` (src/axl_node.c:3569-3579).
The call on a node that is in no document and in no other node is not modelled: the item of such a
node may still point to its old parent, which then loses its children (see C24). -/
def removeNode (w : World) (l : Loc) (dealloc : Bool) : Option World :=
  match splitPath l.path with
  | some (p, i) => do
    let (w, out) ← w.edit ⟨l.tree, p⟩ (takeItem i)
    w.drop dealloc out
  | none => do
    let n ← w.tree l.tree
    w.store.touch n.head.self
    match l.tree with
    | .doc d => (w.putTree (.doc d) none).drop dealloc (.node n .nil)
    | .loose _ => none

/-- `axl_doc_set_root` (src/axl_doc.c:2530-2545) with a node in no document; the root that was there
is not freed. -/
def setRoot (w : World) (d k : Nat) : Option World := do
  let n ← w.tree (.loose k)
  let old := w.tree (.doc d)
  let w := w.putTree (.loose k) none
  let (s, n) ← setDoc w.store d n
  let w := { w with store := s }.putTree (.doc d) (some n)
  match old with
  | none => some w
  | some o => some (w.addLoose o)

/-- `axl_node_replace` (src/axl_node.c:3425-3471) with a node in no document.  The call on a node that
is in no document and in no other node is not modelled, for the same reason. -/
def replaceNode (w : World) (l : Loc) (k : Nat) (dealloc : Bool) : Option World :=
  match splitPath l.path with
  | some (p, i) => do
    let new ← w.tree (.loose k)
    let w := w.putTree (.loose k) none
    let (w, out) ← w.edit ⟨l.tree, p⟩ (swapItem i new)
    w.drop dealloc out
  | none =>
    match l.tree with
    | .doc d => do
      let new ← w.tree (.loose k)
      let old ← w.tree (.doc d)
      w.store.touch old.head.self
      let w := w.putTree (.loose k) none
      let (s, n) ← setDoc w.store d new
      ({ w with store := s }.putTree (.doc d) (some n)).drop dealloc (.node old .nil)
    | .loose _ => none

end World

/-- The calls of the node API and of the document API that allocate, move or free. -/
inductive Op where
  /-- axl_doc_create (version, encoding) -/
  | docCreate (version encoding : Bool)
  /-- axl_doc_parse, of a text that holds these processing instructions and this root -/
  | parse (version encoding : Bool) (pis : List Bool) (root : Src)
  /-- axl_doc_add_pi_target -/
  | docPi (d : Nat) (content : Bool)
  /-- axl_doc_set_root (d, node number k) -/
  | setRoot (d k : Nat)
  /-- axl_doc_free -/
  | docFree (d : Nat)
  /-- axl_node_create, axl_node_create_ref -/
  | create
  /-- axl_node_set_name -/
  | setName (l : Loc)
  /-- axl_node_set_name_ref -/
  | setNameRef (l : Loc)
  /-- axl_node_set_attribute -/
  | setAttr (l : Loc) (key : List Char)
  /-- axl_node_set_attribute_ref -/
  | setAttrRef (l : Loc) (key : List Char)
  /-- axl_node_remove_attribute -/
  | removeAttr (l : Loc) (key : List Char)
  /-- axl_node_annotate_data_full, axl_node_annotate_int, axl_node_annotate_string, axl_node_annotate_double -/
  | annotate (l : Loc) (key : List Char) (blocks : Nat)
  /-- axl_node_set_content, axl_node_set_content_ref, axl_node_set_cdata_content, axl_node_set_comment -/
  | setText (l : Loc) (k : Kind)
  /-- axl_node_add_pi_target -/
  | addPi (l : Loc) (content : Bool)
  /-- axl_node_set_child, with the node number k -/
  | setChild (l : Loc) (k : Nat)
  /-- axl_node_set_child_after, after the item at position i of the node -/
  | setAfter (l : Loc) (i k : Nat)
  /-- axl_node_remove (node, dealloc), axl_node_deattach -/
  | removeNode (l : Loc) (dealloc : Bool)
  /-- axl_item_remove (the item at position i of the node, axl_true) -/
  | removeItem (l : Loc) (i : Nat)
  /-- axl_node_replace (node, node number k, dealloc) -/
  | replaceNode (l : Loc) (k : Nat) (dealloc : Bool)
  /-- axl_node_transfer_childs -/
  | transfer (a b : Loc)
  /-- axl_item_transfer_childs_after, after the item at position i of b -/
  | transferAfter (a b : Loc) (i : Nat)
  /-- axl_node_set_is_empty (node, axl_true) -/
  | setIsEmpty (l : Loc)
  /-- axl_node_copy -/
  | copy (l : Loc) (attrs childs : Bool)
  /-- axl_node_free, of the node number k -/
  | nodeFree (k : Nat)

/-- The processing instructions of a document that is parsed (src/axl_doc.c:2634-2651). -/
def parsePis : Store → List Bool → Store × List PiRec
  | s, [] => (s, [])
  | s, b :: l => ((parsePis (newPi s b).1 l).1, (newPi s b).2 :: (parsePis (newPi s b).1 l).2)

/-- The call, on the world.  `esc` is how a name of an attribute is escaped. -/
def step (esc : List Char → List Char) (w : World) : Op → Option World
  | .docCreate v e =>
    let (s, c) := newDoc w.store w.docs.length v e
    some { w with store := s, docs := w.docs ++ [some c] }
  | .parse v e pis root => do
    let (s, c) := newDoc w.store w.docs.length v e
    let (s, ps) := parsePis s pis
    let (s, n) ← parseNode w.docs.length s root
    -- __axl_doc_clean (src/axl_doc.c:481-490)
    let s ← freeOpt s c.parentNode
    some { w with store := s, docs := w.docs ++ [some { c with pis := ps, root := some n, parentNode := none }] }
  | .docPi d content => do
    let c ← w.docs[d]?.join
    w.store.touch c.self
    let (s, p) := newPi w.store content
    some { w with store := s, docs := w.docs.set d (some { c with pis := c.pis ++ [p] }) }
  | .setRoot d k => w.setRoot d k
  | .docFree d => do
    let c ← w.docs[d]?.join
    let s ← freeDoc w.store d c
    some { w with store := s, docs := w.docs.set d none }
  | .create =>
    let (s, n) := create w.store
    some ({ w with store := s }.addLoose n)
  | .setName l => w.edit' l setName
  | .setNameRef l => w.edit' l setNameRef
  | .setAttr l key => w.edit' l (onAttrs fun s a => setAttr esc s a key)
  | .setAttrRef l key => w.edit' l (onAttrs fun s a => setAttrRef s a key)
  | .removeAttr l key => w.edit' l (onAttrs fun s a => removeAttr esc s a key)
  | .annotate l key blocks => w.edit' l (annotate key blocks)
  | .setText l k => w.edit' l (setText k)
  | .addPi l content => w.edit' l (addPi content)
  | .setChild l k => do
    let n ← w.tree (.loose k)
    (w.putTree (.loose k) none).edit' l (setChild n)
  | .setAfter l i k => do
    let n ← w.tree (.loose k)
    (w.putTree (.loose k) none).edit' l (setAfter i n)
  | .removeNode l dealloc => w.removeNode l dealloc
  | .removeItem l i => do
    let (w, out) ← w.edit l (takeItem i)
    w.drop true out
  | .replaceNode l k dealloc => w.replaceNode l k dealloc
  | .transfer a b => do
    let (w, out) ← w.edit a takeAll
    w.edit' b (giveAll out)
  | .transferAfter a b i => do
    let (w, out) ← w.edit a takeAll
    w.edit' b (giveAllAfter i out)
  | .setIsEmpty l => w.edit' l setIsEmpty
  | .copy l attrs childs => do
    let n ← w.node l
    let (s, c) ← copyNode attrs childs w.store n
    some ({ w with store := s }.addLoose c)
  | .nodeFree k => do
    let n ← w.tree (.loose k)
    (w.putTree (.loose k) none).drop true (.node n .nil)

/-- A history of calls. -/
def run (esc : List Char → List Char) : World → List Op → Option World
  | w, [] => some w
  | w, op :: ops => do
    let w ← step esc w op
    run esc w ops

end Axl.Own
