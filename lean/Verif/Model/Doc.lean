/-
Documents as values: the tree that the pointers of `Verif.Model.Tree` lay out in memory, with the
attributes and the texts.  The functions that only read a tree (sizes, dump, comparison, copy,
iteration) and the parser, which builds one, are modelled over it.

Simplification, for every module built on this one: a chain of items reached through
`node->first` and `item->next` is a list, so the pointers `last`, `previous`, `parent` and `holder`
are not represented (they are in `Verif.Model.Tree`, where C24 shows that the chain from `first`
is the list of children); annotations are not represented.
-/
import Verif.Model.Attr

namespace Axl

/-- `struct _axlPI` (src/axl_doc.c:407-420); the content may be NULL. -/
structure PI where
  name    : List Char
  content : Option (List Char)
deriving DecidableEq, Repr

/-- Items that are not nodes (`AxlItemType`, src/axl_decl.h).  For the texts the list is
`axlNodeContent` (src/axl_node.c:64-79): `content` up to `content_size`. -/
inductive Leaf where
  | content (s : List Char)
  | cdata   (s : List Char)
  | comment (s : List Char)
  | pi      (p : PI)
  | ref     (s : List Char)
deriving DecidableEq, Repr

mutual
/-- `struct _axlNode` (src/axl_node.c:245-295): name, attributes and the chain from `first`. -/
inductive Node where
  | mk (name : List Char) (attrs : Attrs) (items : Items)
/-- A chain of `struct _axlItem` (src/axl_node.c:297-337), linked by `next`. -/
inductive Items where
  | nil
  | node (n : Node) (next : Items)
  | leaf (l : Leaf) (next : Items)
end

namespace Node

/-- `node->name` -/
def name : Node → List Char
  | .mk n _ _ => n

/-- `node->attributes` with `node->attr_num` -/
def attrs : Node → Attrs
  | .mk _ a _ => a

/-- the chain from `node->first` -/
def items : Node → Items
  | .mk _ _ i => i

end Node

namespace Items

/-- The chain with another one linked at its end: `axl_item_set_child_ref`
(src/axl_node.c:6410-6436) for each item. -/
def append : Items → Items → Items
  | .nil, t => t
  | .node n s, t => .node n (append s t)
  | .leaf l s, t => .leaf l (append s t)

/-- `axl_node_have_childs_aux` (src/axl_node.c:3642-3664). -/
def haveChildsAux : Items → Bool
  | .nil => false
  | .node _ _ => true
  | .leaf (.pi _) _ => true
  | .leaf (.comment _) _ => true
  | .leaf _ next => haveChildsAux next

/-- `axl_node_is_empty` (src/axl_node.c:2637-2662). -/
def isEmpty : Items → Bool
  | .nil => true
  | .leaf (.content _) _ => false
  | .leaf (.cdata _) _ => false
  | .leaf _ next => isEmpty next
  | .node _ next => isEmpty next

end Items

/-- `struct _axlDoc` (src/axl_doc.c:306-405): what a finished document holds.  `noValue`: the
attributes (name of the element, name of the attribute) that the parser stored with a NULL value;
they are kept here instead of in their nodes, whose attribute values are never NULL. -/
structure Doc where
  encoding   : Option (List Char)
  standalone : Bool
  root       : Node
  pis        : List PI
  noValue    : List (List Char × List Char)

end Axl
