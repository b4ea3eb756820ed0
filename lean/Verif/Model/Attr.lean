/-
Model of the attributes of a node (src/axl_node.c): a linked list up to ten attributes, a hash
(`Verif.Model.Hash`) from eleven on.
Strings are read only here: the characters before their terminator.  Memory freed is not followed.
-/
import Verif.Model.Hash
import Verif.Model.Escape

namespace Axl

/-- `struct _axlNodeAttr` without its link (src/axl_node.c:87-108). -/
structure Attr where
  name        : List Char
  value       : List Char
  fromFactory : Bool
deriving DecidableEq, Repr

/-- What the untyped pointer `node->attributes` leads to (src/axl_node.c:267): a list (`[]` is NULL)
or a hash.  Using one as the other is undefined behaviour. -/
inductive AttrPtr where
  | list (l : List Attr)
  | hash (h : AxlHash (List Char) (List Char) Unit)

/-- The attribute part of `struct _axlNode` (src/axl_node.c:261-267). -/
structure Attrs where
  num : Nat
  ptr : AttrPtr

namespace Attrs
open Str

/-- A node without attributes (src/axl_node.c:573, memory cleared by axl_new). -/
def empty : Attrs := ⟨0, .list []⟩

/-- `node->attributes != NULL`, also `axl_node_has_attributes` (src/axl_node.c:1441-1447). -/
def hasAttributes (a : Attrs) : Bool :=
  match a.ptr with
  | .list [] => false
  | _ => true

/-- The walk of `axl_node_has_attribute`, `axl_node_get_attribute_value` (src/axl_node.c:1296-1303,
1483-1490): the first attribute with the name. -/
def findList (name : List Char) : List Attr → Option Attr
  | [] => none
  | x :: xs => if cmp (some x.name) (some name) then some x else findList name xs

/-- `axl_node_has_attribute` (src/axl_node.c:1282-1311). -/
def hasAttribute (a : Attrs) (name : List Char) : Option Bool :=
  if !a.hasAttributes then some false
  else if a.num ≤ 10 then
    match a.ptr with
    | .list l => some (findList name l).isSome
    | .hash _ => none
  else
    match a.ptr with
    | .hash h => h.exists name
    | .list _ => none

/-- `axl_node_get_attribute_value` (src/axl_node.c:1468-1498). -/
def getValue (a : Attrs) (name : List Char) : Option (Option (List Char)) :=
  if !a.hasAttributes then some none
  else if a.num ≤ 10 then
    match a.ptr with
    | .list l => some ((findList name l).map (·.value))
    | .hash _ => none
  else
    match a.ptr with
    | .hash h => h.get name
    | .list _ => none

/-- Destroy function for strings that are not from a factory (src/axl_node.c:1101-1103, 1117-1118). -/
def destroyOf (fromFactory : Bool) : Option Unit := if fromFactory then none else some ()

/-- Moving the list to the hash (src/axl_node.c:1097-1111). -/
def moveToHash (h : AxlHash (List Char) (List Char) Unit) :
    List Attr → Option (AxlHash (List Char) (List Char) Unit)
  | [] => some h
  | x :: xs => do
    let h ← h.insertFull x.name (destroyOf x.fromFactory) (some x.value) (destroyOf x.fromFactory)
    moveToHash h xs

/-- The empty hash for attributes (src/axl_node.c:1095). -/
def newHash : AxlHash (List Char) (List Char) Unit :=
  AxlHash.newFull (fun s => hashString (some s)) (fun a b => hashEqualString (some a) (some b)) 1

/-- The hash where an attribute is stored when there are ten or more (src/axl_node.c:1090-1113). -/
def hashToUse (a : Attrs) : Option (AxlHash (List Char) (List Char) Unit) :=
  if a.num = 10 then
    match a.ptr with
    | .list l => moveToHash newHash l
    | .hash _ => none
  else
    match a.ptr with
    | .hash h => some h
    | .list _ => none

/-- `__axl_node_set_attribute` (src/axl_node.c:1031-1126). -/
def setInternal (a : Attrs) (name value : List Char) (fromFactory : Bool) : Option (Bool × Attrs) :=
  if !a.hasAttributes then some (true, ⟨1, .list [⟨name, value, fromFactory⟩]⟩)
  else if a.num < 10 then
    match a.hasAttribute name, a.ptr with
    | some true, _ => some (false, a)
    | some false, .list l => some (true, ⟨a.num + 1, .list (⟨name, value, fromFactory⟩ :: l)⟩)
    | _, _ => none
  else
    match a.hasAttribute name with
    | some true => some (false, a)
    | some false => do
      let h ← a.hashToUse
      let h ← h.insertFull name (destroyOf fromFactory) (some value) (destroyOf fromFactory)
      some (true, ⟨a.num + 1, .hash h⟩)
    | none => none

/-- `axl_node_set_attribute` (src/axl_node.c:1154-1211). -/
def setAttribute (a : Attrs) (name value : List Char) : Option Attrs :=
  if name = [] then some a
  else do
    let name ← Escape.setValue (name ++ [NUL])
    let value ← Escape.setValue (value ++ [NUL])
    let r ← a.setInternal (toStr name) (toStr value) false
    some r.2

/-- `axl_node_set_attribute_ref` (src/axl_node.c:1228-1243). -/
def setAttributeRef (a : Attrs) (name value : List Char) : Option Attrs := do
  let r ← a.setInternal name value false
  some r.2

/-- `axl_node_set_attribute_from_factory` (src/axl_node.c:1257-1266). -/
def setAttributeFromFactory (a : Attrs) (name value : List Char) : Option Attrs := do
  let r ← a.setInternal name value true
  some r.2

/-- The walk of `axl_node_remove_attribute` (src/axl_node.c:1347-1378): the list without the first
attribute with the name. -/
def removeList (name : List Char) : List Attr → Option (List Attr)
  | [] => none
  | x :: xs => if cmp (some x.name) (some name) then some xs else (removeList name xs).map (x :: ·)

/-- The pairs visited by axl_hash_foreach stored again with axl_node_set_attribute
(src/axl_node.c:1313-1320, 1399). -/
def reinsert (a : Attrs) : List (List Char × Option (List Char)) → Option Attrs
  | [] => some a
  | (k, d) :: ps => do
    -- the value is checked not to be NULL (src/axl_node.c:1164)
    let a ← match d with
      | none => some a
      | some v => a.setAttribute k v
    reinsert a ps

/-- `axl_node_remove_attribute` (src/axl_node.c:1331-1408). -/
def removeAttribute (a : Attrs) (name : List Char) : Option Attrs :=
  if !a.hasAttributes then some a
  else if a.num ≤ 10 then
    match a.ptr with
    | .list l =>
      match removeList name l with
      | some l => some ⟨a.num - 1, .list l⟩
      | none => some a
    | .hash _ => none
  else
    match a.ptr with
    | .hash h => do
      let (_, h) ← h.remove name
      if h.items = 10 then do
        let ps ← h.foreach (fun _ _ => false)
        reinsert empty ps
      else some ⟨h.items, .hash h⟩
    | .list _ => none

/-- `axl_node_num_attributes` (src/axl_node.c:1419-1429). -/
def numAttributes (a : Attrs) : Option Nat :=
  if a.num ≤ 10 then some a.num
  else
    match a.ptr with
    | .hash h => some h.items
    | .list _ => none

/-- `axl_node_get_attribute_value_copy` (src/axl_node.c:1515-1526). -/
def getValueCopy (a : Attrs) (name : List Char) : Option (Option (List Char)) := a.getValue name

/-- `axl_node_get_attribute_value_trans` (src/axl_node.c:1547-1563). -/
def getValueTrans (a : Attrs) (name : List Char) : Option (Option (List Char)) :=
  match a.getValue name with
  | none => none
  | some none => some none
  | some (some v) => (Escape.getValueTrans (v ++ [NUL])).map (fun m => some (toStr m))

/-- `axl_node_has_attribute_value` (src/axl_node.c:1614-1624). -/
def hasAttributeValue (a : Attrs) (name value : List Char) : Option Bool := do
  let v ← a.getValue name
  some (cmp v (some value))

/-- The walk of `axl_node_attr_foreach` on a list (src/axl_node.c:5840-5847): the pairs notified. -/
def foreachList (stop : List Char → List Char → Bool) : List Attr → List (List Char × Option (List Char))
  | [] => []
  | x :: xs => if stop x.name x.value then [(x.name, some x.value)] else (x.name, some x.value) :: foreachList stop xs

/-- `axl_node_attr_foreach` (src/axl_node.c:5823-5854): the pairs notified, in order, for a function
that answers `stop`. -/
def foreach (a : Attrs) (stop : List Char → List Char → Bool) : Option (List (List Char × Option (List Char))) :=
  if !a.hasAttributes then some []
  else if a.num < 11 then
    match a.ptr with
    | .list l => some (foreachList stop l)
    | .hash _ => none
  else
    match a.ptr with
    | .hash h => h.foreach (fun k d => stop k (d.getD []))
    | .list _ => none

end Attrs

/-- What `cursor->data` leads to (src/axl_node.c:52-56): an attribute of the list,
as the rest of the list from it, or a cursor of the hash. -/
inductive AttrCursorPtr where
  | list (l : List Attr)
  | hash (c : HashCursor (List Char) (List Char) Unit)

/-- `struct _axlAttrCursor` (src/axl_node.c:52-56); the node is not changed while the cursor is used. -/
structure AttrCursor where
  node  : Attrs
  count : Nat
  data  : AttrCursorPtr

namespace AttrCursor

/-- `axl_node_attr_cursor_new` (src/axl_node.c:5583-5606). -/
def new (a : Attrs) : Option AttrCursor :=
  if a.num ≤ 10 then
    match a.ptr with
    | .list l => some ⟨a, a.num, .list l⟩
    | .hash _ => none
  else
    match a.ptr with
    | .hash h => do let c ← HashCursor.new h; some ⟨a, a.num, .hash c⟩
    | .list _ => none

/-- `axl_node_attr_cursor_first` (src/axl_node.c:5614-5633). -/
def first (c : AttrCursor) : Option AttrCursor :=
  if c.count ≠ c.node.num then some c
  else if c.count ≤ 10 then
    match c.node.ptr with
    | .list l => some { c with data := .list l }
    | .hash _ => none
  else
    match c.data with
    | .hash hc => do let hc ← hc.first; some { c with data := .hash hc }
    | .list _ => none

/-- `axl_node_attr_cursor_next` (src/axl_node.c:5641-5667). -/
def next (c : AttrCursor) : Option AttrCursor :=
  if c.count ≠ c.node.num then some c
  else if c.count ≤ 10 then
    match c.data with
    | .list l => some { c with data := .list l.tail }
    | .hash _ => none
  else
    match c.data with
    | .hash hc => do let hc ← hc.next; some { c with data := .hash hc }
    | .list _ => none

/-- `axl_node_attr_cursor_has_next` (src/axl_node.c:5677-5693): without an item it dereferences NULL. -/
def hasNext (c : AttrCursor) : Option Bool :=
  if c.count ≠ c.node.num then some false
  else if c.count ≤ 10 then
    match c.data with
    | .list (_ :: l) => some (!l.isEmpty)
    | _ => none
  else
    match c.data with
    | .hash hc => hc.hasNext
    | .list _ => none

/-- `axl_node_attr_cursor_has_item` (src/axl_node.c:5703-5720). -/
def hasItem (c : AttrCursor) : Option Bool :=
  if c.count ≠ c.node.num then some false
  else if c.count ≤ 10 then
    match c.data with
    | .list l => some (!l.isEmpty)
    | .hash _ => none
  else
    match c.data with
    | .hash hc => some hc.hasItem
    | .list _ => none

/-- `axl_node_attr_cursor_get_key` (src/axl_node.c:5730-5747). -/
def getKey (c : AttrCursor) : Option (Option (List Char)) :=
  if c.count ≠ c.node.num then some none
  else if c.count ≤ 10 then
    match c.data with
    | .list (x :: _) => some (some x.name)
    | _ => none
  else
    match c.data with
    | .hash hc => some hc.getKey
    | .list _ => none

/-- `axl_node_attr_cursor_get_value` (src/axl_node.c:5757-5774). -/
def getValue (c : AttrCursor) : Option (Option (List Char)) :=
  if c.count ≠ c.node.num then some none
  else if c.count ≤ 10 then
    match c.data with
    | .list (x :: _) => some (some x.value)
    | _ => none
  else
    match c.data with
    | .hash hc => some hc.getValue
    | .list _ => none

end AttrCursor
end Axl
