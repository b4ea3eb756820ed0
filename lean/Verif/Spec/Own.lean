/-
When the calls of the node and document API are used as they are meant, as far as memory goes: the
nodes named exist, a node is placed only where the tree stays a tree, and a document is freed only
when no node that is left lives in its memory.
-/
import Verif.Model.Own

namespace Axl.Own.Spec

/-- The pointer leads to memory of the document `d`. -/
def Ref.uses (d : Nat) : Ref → Bool
  | .own _ => false
  | .pool e => e == d

def ItemRec.uses (d : Nat) (i : ItemRec) : Bool := Ref.uses d i.ref || i.doc == some d

def AttrC.uses (d : Nat) (a : AttrC) : Bool := Ref.uses d a.cell || Ref.uses d a.name || Ref.uses d a.value

def Entry.uses (d : Nat) (e : Entry) : Bool := Ref.uses d e.key || e.data.any (Ref.uses d)

def Attrs.uses (d : Nat) : Attrs → Bool
  | .list l => l.any (AttrC.uses d)
  | .hash h l => Ref.uses d h || l.any (Entry.uses d)

def PiRec.uses (d : Nat) (p : PiRec) : Bool :=
  Ref.uses d p.cell || Ref.uses d p.name || p.content.any (Ref.uses d)

def Leaf.uses (d : Nat) : Leaf → Bool
  | .text _ i c t _ => ItemRec.uses d i || Ref.uses d c || Ref.uses d t
  | .pi i p => ItemRec.uses d i || PiRec.uses d p

def Head.uses (d : Nat) (h : Head) : Bool :=
  Ref.uses d h.self || Ref.uses d h.name || Attrs.uses d h.attrs ||
    (h.annot.any fun a => Ref.uses d a.1 || a.2.any (Entry.uses d)) || h.holder.any (ItemRec.uses d)

mutual
/-- Something of the node or below it is in the memory of the document `d`, or says that it is in the
document `d`. -/
def Node.uses (d : Nat) : Node → Bool
  | .mk h items => Head.uses d h || Items.uses d items
def Items.uses (d : Nat) : Items → Bool
  | .nil => false
  | .node n next => Node.uses d n || Items.uses d next
  | .leaf l next => Leaf.uses d l || Items.uses d next
end

/-- The number of items. -/
def Items.length : Items → Nat
  | .nil => 0
  | .node _ next => Items.length next + 1
  | .leaf _ next => Items.length next + 1

/-- The kinds of the items: whether each is character data (content or CDATA). -/
def Items.isText : Items → List Bool
  | .nil => []
  | .node _ next => false :: Items.isText next
  | .leaf (.text .content _ _ _ _) next => true :: Items.isText next
  | .leaf (.text .cdata _ _ _ _) next => true :: Items.isText next
  | .leaf _ next => false :: Items.isText next

/-- The item at the position is a node. -/
def Items.isNode : Items → Nat → Bool
  | .node _ _, 0 => true
  | .node _ next, i + 1 => Items.isNode next i
  | .leaf _ next, i + 1 => Items.isNode next i
  | _, _ => false

/-- The document exists. -/
def hasDoc (w : World) (d : Nat) : Bool := (w.docs[d]?.join).isSome

/-- The node exists. -/
def hasNode (w : World) (l : Loc) : Bool := (w.node l).isSome

/-- The node has these items. -/
def itemsOf (w : World) (l : Loc) : Items := ((w.node l).map Node.items).getD .nil

/-- Nothing outside the document `d` lives in the memory of `d`. -/
def alone (w : World) (d : Nat) : Bool :=
  w.loose.all (fun n => !n.any (Node.uses d)) &&
    (List.range w.docs.length).all fun e => e == d || !(w.tree (.doc e)).any (Node.uses d)

/-- The node number `k` exists and is not the tree that `l` is in. -/
def mayGo (w : World) (k : Nat) (l : Loc) : Bool := hasNode w ⟨.loose k, []⟩ && l.tree != .loose k

/-- The node has no item: it never was in a document or in another node. -/
def isNew (w : World) (k : Nat) : Bool := (w.tree (.loose k)).any fun n => n.head.holder.isNone

/-- The item that the node has, if any, is not a block of its own. -/
def noItem (w : World) (k : Nat) : Bool :=
  (w.tree (.loose k)).any fun n => n.head.holder.all fun i => match i.ref with | .own _ => false | .pool _ => true

/-- The name of the node is not in the memory of a document. -/
def ownName (w : World) (l : Loc) : Bool :=
  (w.node l).any fun n => match n.head.name with | .own _ => true | .pool _ => false

/-- The node is `a` or is below `a`. -/
def below (a b : Loc) : Bool := a.tree == b.tree && a.path.isPrefixOf b.path

/-- The call is made as it is meant.  Excluded besides, because of what the code does:
`axl_node_set_name_ref` on a name that the parser read (`C57_name_leaks`), `axl_node_replace` with a
node that has an item of its own (`C57_item_leaks`), and the removal of a first or last text
(`C24_first_text_removed`). -/
def fits (w : World) : Op → Bool
  | .docCreate _ _ => true
  | .parse _ _ _ _ => true
  | .docPi d _ => hasDoc w d
  | .setRoot d k => hasDoc w d && isNew w k
  | .docFree d => hasDoc w d && alone w d
  | .create => true
  | .setName l => hasNode w l
  | .setNameRef l => ownName w l
  | .setAttr l _ => hasNode w l
  | .setAttrRef l _ => hasNode w l
  | .removeAttr l _ => hasNode w l
  | .annotate l _ _ => hasNode w l
  | .setText l _ => hasNode w l
  | .addPi l _ => hasNode w l
  | .setChild l k => hasNode w l && mayGo w k l
  | .setAfter l i k => hasNode w l && decide (i < Items.length (itemsOf w l)) && mayGo w k l
  | .removeNode l _ => hasNode w l && (l.path != [] || l.tree matches .doc _)
  | .removeItem l i => hasNode w l && decide (i < Items.length (itemsOf w l)) &&
      (Items.isNode (itemsOf w l) i || (decide (0 < i) && decide (i + 1 < Items.length (itemsOf w l))))
  | .replaceNode l k _ => hasNode w l && mayGo w k l &&
      (if l.path = [] then l.tree matches .doc _ && isNew w k else noItem w k)
  | .transfer a b => hasNode w a && hasNode w b && !below a b
  | .transferAfter a b i => hasNode w a && hasNode w b && !below a b && decide (i < Items.length (itemsOf w b))
  | .setIsEmpty l => hasNode w l && ((Items.isText (itemsOf w l)).all id ||
      ((Items.isText (itemsOf w l)).head?.all (!·) && (Items.isText (itemsOf w l)).getLast?.all (!·)))
  | .copy l _ _ => hasNode w l
  | .nodeFree k => hasNode w ⟨.loose k, []⟩

/-- Every call of the history is made as it is meant.  Nothing is asked of what follows a call whose
behaviour is not defined. -/
def Fits (esc : List Char → List Char) : World → List Op → Bool
  | _, [] => true
  | w, op :: ops => fits w op && match step esc w op with
    | none => true
    | some w' => Fits esc w' ops

/-- Every document and every node was freed. -/
def AllFreed (w : World) : Bool := w.docs.all Option.isNone && w.loose.all Option.isNone

/-- The node number `k` is freed if it is there. -/
def freeLoose (w : World) : List Op :=
  (List.range w.loose.length).filterMap fun k => (w.tree (.loose k)).map fun _ => .nodeFree k

/-- The documents that are there are freed. -/
def freeDocs (w : World) : List Op :=
  (List.range w.docs.length).filterMap fun d => (w.docs[d]?.join).map fun _ => .docFree d

/-- No document has a node that lives in the memory of another. -/
def Apart (w : World) : Bool :=
  (List.range w.docs.length).all fun e => (List.range w.docs.length).all fun d =>
    e == d || !(w.tree (.doc e)).any (Node.uses d)

end Axl.Own.Spec
