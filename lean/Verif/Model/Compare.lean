/-
Comparing nodes and documents (src/axl_node.c:191-229, 3924-4081, 6707-6789; src/axl_doc.c:2014-2209,
2875-2888) and copying nodes (src/axl_node.c:118-140, 894-960, 6452-6499), over the trees of
`Verif.Model.Doc`.  Error reports are not represented.
-/
import Verif.Model.Doc

namespace Axl
open Str

namespace Attrs

/-- The inner loop of `__axl_node_attr_list_is_equal` (src/axl_node.c:200-215). -/
def listFound (x : Attr) : List Attr → Bool
  | [] => false
  | y :: ys => if cmp (some y.name) (some x.name) && cmp (some y.value) (some x.value) then true else listFound x ys

/-- `__axl_node_attr_list_is_equal` (src/axl_node.c:191-229). -/
def listIsEqual : List Attr → List Attr → Bool
  | [], _ => true
  | x :: xs, ys => if listFound x ys then listIsEqual xs ys else false

/-- `axl_hash_foreach2` with `__axl_node_are_equal_attr` (src/axl_node.c:3924-3945, 4031), from the
pairs that axl_hash_foreach visits: it stops at the first one that differs. -/
def hashIsEqual (h2 : AxlHash (List Char) (List Char) Unit) :
    List (List Char × Option (List Char)) → Option Bool
  | [] => some true
  | (k, v) :: ps =>
    match h2.get k with
    | none => none
    | some v2 => if cmp v v2 then hashIsEqual h2 ps else some false

/-- The comparison of the attributes in `axl_node_are_equal_full` (src/axl_node.c:4011-4059). -/
def areEqual (a b : Attrs) : Option Bool :=
  if a.hasAttributes && b.hasAttributes then
    if a.num ≠ b.num then some false
    else if a.num ≤ 10 then
      match a.ptr, b.ptr with
      | .list l, .list m => some (listIsEqual l m)
      | _, _ => none
    else
      match a.ptr, b.ptr with
      | .hash h, .hash h2 =>
        match h.foreach (fun _ _ => false) with
        | none => none
        | some ps => hashIsEqual h2 ps
      | _, _ => none
  else some (a.hasAttributes == b.hasAttributes)

/-- `__axl_node_copy_attr_list` (src/axl_node.c:118-140): the new attributes are not from the
factory. -/
def copyList : List Attr → List Attr
  | [] => []
  | x :: xs => ⟨x.name, x.value, false⟩ :: copyList xs

/-- The copy of the attributes in `axl_node_copy` (src/axl_node.c:912-932); the strings are
duplicated by `__axl_node_copy_key` and `__axl_node_copy_value` (src/axl_node.c:866-878). -/
def copy (a : Attrs) (copyAttributes : Bool) : Option Attrs :=
  if a.hasAttributes && copyAttributes then
    if a.num ≥ 11 then
      match a.ptr with
      | .hash h =>
        match h.copyCommon (fun n => n.key) (fun n => n.data) (some (some (), some ())) with
        | none => none
        | some r => some ⟨a.num, .hash r⟩
      | .list _ => none
    else
      match a.ptr with
      | .list l => some ⟨a.num, .list (copyList l)⟩
      | .hash _ => none
  else some empty

end Attrs

/-- `axl_pi_are_equal` (src/axl_doc.c:2875-2888). -/
def PI.areEqual (p q : PI) : Bool := if cmp (some p.name) (some q.name) then cmp p.content q.content else false

/-- `axl_strdup` and `axl_stream_trim` of a text (src/axl_node.c:6758-6763). -/
def trimCopy (s : List Char) : Option (List Char) :=
  match trimWithSize (toStr s ++ [NUL]) with
  | none => none
  | some r => some (toStr r.1)

/-- The comparison of two texts (src/axl_node.c:6740-6776): their sizes and then the characters
before a terminator. -/
def textAreEqual (trimmed : Bool) (s t : List Char) : Option Bool :=
  if !trimmed then
    if s.length ≠ t.length then some false
    else some (cmp (some (toStr s)) (some (toStr t)))
  else
    match trimCopy s, trimCopy t with
    | some s, some t => some (cmp (some s) (some t))
    | _, _ => none

/-- `axl_item_are_equal_full` (src/axl_node.c:6707-6789) on items that are not nodes. -/
def Leaf.areEqual (trimmed : Bool) : Leaf → Leaf → Option Bool
  | .content s, .content t => textAreEqual trimmed s t
  | .cdata s, .cdata t => textAreEqual trimmed s t
  | .comment s, .comment t => textAreEqual trimmed s t
  | .ref s, .ref t => textAreEqual trimmed s t
  | .pi p, .pi q => some (p.areEqual q)
  | _, _ => some false

/-- `axl_node_get_child_num` (src/axl_node.c:3836-3862). -/
def Items.childNum : Items → Nat
  | .nil => 0
  | .node _ next => childNum next + 1
  | .leaf _ next => childNum next

/-- `axl_node_have_childs` (src/axl_node.c:3612-3632): is there a node among the items? -/
def Items.haveChilds : Items → Bool
  | .nil => false
  | .node _ _ => true
  | .leaf _ next => haveChilds next

/-- `axl_node_are_equal_full`, `axl_node_are_equal` (src/axl_node.c:3960-4081). -/
def Node.areEqual (n m : Node) : Option Bool :=
  if !cmp (some n.name) (some m.name) then some false
  else if n.items.isEmpty != m.items.isEmpty then some false
  else if n.items.haveChilds != m.items.haveChilds then some false
  else if n.items.childNum ≠ m.items.childNum then some false
  else n.attrs.areEqual m.attrs

mutual
/-- `__axl_doc_are_equal` (src/axl_doc.c:2014-2081). -/
def Node.deepEqual (trimmed : Bool) : Node → Node → Option Bool
  | .mk n a i, .mk n2 a2 i2 =>
    match (Node.mk n a i).areEqual (.mk n2 a2 i2) with
    | none => none
    | some false => some false
    | some true => if i.childNum ≠ i2.childNum then some false else Items.deepEqual trimmed i i2
/-- The loop of `__axl_doc_are_equal` (src/axl_doc.c:2041-2080). -/
def Items.deepEqual (trimmed : Bool) : Items → Items → Option Bool
  | .nil, .nil => some true
  | .node x s, .node y t =>
    match x.areEqual y with
    | none => none
    | some false => some false
    | some true =>
      match Node.deepEqual trimmed x y with
      | none => none
      | some false => some false
      | some true => Items.deepEqual trimmed s t
  | .leaf l s, .leaf m t =>
    match l.areEqual trimmed m with
    | none => none
    | some false => some false
    | some true => Items.deepEqual trimmed s t
  | _, _ => some false
end

namespace Doc

/-- `axl_doc_are_equal_full`, through `axl_doc_are_equal_common` (src/axl_doc.c:2086-2119, 2202-2209),
on documents with a root. -/
def areEqualFull (d e : Doc) (trimmed : Bool) : Option Bool := d.root.deepEqual trimmed e.root

/-- `axl_doc_are_equal_trimmed` (src/axl_doc.c:2141-2146). -/
def areEqualTrimmed (d e : Doc) : Option Bool := d.areEqualFull e true

/-- `axl_doc_are_equal` (src/axl_doc.c:2168-2173): it trims too. -/
def areEqual (d e : Doc) : Option Bool := d.areEqualFull e true

end Doc

/-- The copy of a text (src/axl_node.c:6477-6479): the characters before a terminator are
duplicated and the size is kept, so that a text with a terminator inside would be read out of its
memory; that outcome is undefined here. -/
def textCopy (s : List Char) : Option (List Char) := if NUL ∈ s then none else some s

/-- `axl_item_copy` (src/axl_node.c:6452-6499) on items that are not nodes, with `axl_pi_copy`
(src/axl_doc.c:2832-2862).  The copy of a reference has no data, which any use dereferences: it is
undefined here. -/
def Leaf.copy : Leaf → Option Leaf
  | .content s => (textCopy s).map .content
  | .cdata s => (textCopy s).map .cdata
  | .comment s => (textCopy s).map .comment
  | .pi p => some (.pi ⟨p.name, p.content⟩)
  | .ref _ => none

mutual
/-- `axl_node_copy` (src/axl_node.c:894-960). -/
def Node.copy : Node → Bool → Bool → Option Node
  | .mk n a i, copyAttributes, copyChilds =>
    match a.copy copyAttributes with
    | none => none
    | some a =>
      if copyChilds then
        match Items.copy i with
        | none => none
        | some i => some (.mk n a i)
      else some (.mk n a .nil)
/-- The loop of `axl_node_copy` (src/axl_node.c:938-954) with `axl_item_copy` on nodes
(src/axl_node.c:6467-6472). -/
def Items.copy : Items → Option Items
  | .nil => some .nil
  | .node x s =>
    match Node.copy x true true, Items.copy s with
    | some x, some s => some (.node x s)
    | _, _ => none
  | .leaf l s =>
    match l.copy, Items.copy s with
    | some l, some s => some (.leaf l s)
    | _, _ => none
end

end Axl
