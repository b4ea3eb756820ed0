/-
The annotations of nodes (src/axl_node.c:1643-2172): data attached to a node under a key.

The tree is the one of `Verif.Model.Tree` and the hash the one of `Verif.Model.Hash`.  The field
`annotate_data` of the nodes is kept apart from the tree, as a function from the nodes; keys are
strings that are not NULL and stay as they were given (the library keeps the pointer).
-/
import Verif.Model.Tree
import Verif.Model.Hash

namespace Axl

/-- What can be attached: a pointer of the user, or an `AnnotateNodeData` (src/axl_node.c:1801-1830).
A double is kept as its bits. -/
inductive Note where
  | pointer (p : Nat)
  | int (v : Int)
  | string (s : List Char)
  | double (bits : Nat)
deriving DecidableEq, Repr

/-- The hash of a node; the destroy functions are numbered by the user, 0 is
`__axl_annotate_data_free`. -/
abbrev NoteHash := AxlHash (List Char) Note Nat

/-- `node->annotate_data` of every node, `none` is NULL. -/
abbrev Notes := Nat → Option NoteHash

namespace Notes

/-- `axl_hash_new (axl_hash_string, axl_hash_equal_string)` (src/axl_node.c:1646). -/
def newHash : NoteHash :=
  AxlHash.new (fun s => hashString (some s)) (fun a b => hashEqualString (some a) (some b))

/-- `axl_node_annotate_data_full` (src/axl_node.c:1719-1735) with `__init_node_annotation`
(src/axl_node.c:1643-1648).  `axl_node_annotate_data` (src/axl_node.c:1682-1696) is the same with no
destroy functions. -/
def annotate (a : Notes) (n : Nat) (key : List Char) (keyDestroy : Option Nat) (data : Option Note)
    (dataDestroy : Option Nat) : Option Notes :=
  match ((a n).getD newHash).insertFull key keyDestroy data dataDestroy with
  | none => none
  | some h => some fun m => if m = n then some h else a m

/-- `axl_node_annotate_int` (src/axl_node.c:1887-1906). -/
def annotateInt (a : Notes) (n : Nat) (key : List Char) (v : Int) : Option Notes :=
  a.annotate n key none (some (.int v)) (some 0)

/-- `axl_node_annotate_string` (src/axl_node.c:1948-1968): the string is copied. -/
def annotateString (a : Notes) (n : Nat) (key : List Char) (s : List Char) : Option Notes :=
  a.annotate n key none (some (.string s)) (some 0)

/-- `axl_node_annotate_double` (src/axl_node.c:2009-2028). -/
def annotateDouble (a : Notes) (n : Nat) (key : List Char) (v : Nat) : Option Notes :=
  a.annotate n key none (some (.double v)) (some 0)

/-- `if (node->annotate_data != NULL) result = axl_hash_get (…)` (src/axl_node.c:1765-1767, 1782-1783):
`some none` is NULL. -/
def getHere (a : Notes) (n : Nat) (key : List Char) : Option (Option Note) :=
  match a n with
  | none => some none
  | some h => h.get key

/-- The loop over the parents (src/axl_node.c:1780-1791).  The number bounds the iterations. -/
def getUp (h : Heap) (a : Notes) (key : List Char) : Nat → Option Nat → Option (Option Note)
  | _, none => some none
  | 0, some _ => none
  | k + 1, some p =>
    match h.nodes p with
    | none => none
    | some _ =>
      match a.getHere p key with
      | none => none
      | some (some r) => some (some r)
      | some none =>
        match h.getParent p with
        | none => none
        | some q => getUp h a key k q

/-- `axl_node_annotate_get` (src/axl_node.c:1753-1796). -/
def get (h : Heap) (a : Notes) (n : Nat) (key : List Char) (lookupInParent : Bool) : Option (Option Note) :=
  match h.nodes n with
  | none => none
  | some _ =>
    match a.getHere n key with
    | none => none
    | some (some r) => some (some r)
    | some none =>
      if lookupInParent then
        match h.getParent n with
        | none => none
        | some p => getUp h a key h.nextNode p
      else some none

/-- `axl_node_annotate_get_int` (src/axl_node.c:2051-2076).  Reading a pointer of the user as an
`AnnotateNodeData` is undefined. -/
def getInt (h : Heap) (a : Notes) (n : Nat) (key : List Char) (lookupInParent : Bool) : Option Int :=
  match a.get h n key lookupInParent with
  | none => none
  | some none => some 0
  | some (some (.pointer _)) => none
  | some (some (.int v)) => some v
  | some (some _) => some 0

/-- `axl_node_annotate_get_string` (src/axl_node.c:2099-2124). -/
def getString (h : Heap) (a : Notes) (n : Nat) (key : List Char) (lookupInParent : Bool) : Option (Option (List Char)) :=
  match a.get h n key lookupInParent with
  | none => none
  | some none => some none
  | some (some (.pointer _)) => none
  | some (some (.string s)) => some (some s)
  | some (some _) => some none

/-- `axl_node_annotate_get_double` (src/axl_node.c:2147-2172); the bits of 0.0 are 0. -/
def getDouble (h : Heap) (a : Notes) (n : Nat) (key : List Char) (lookupInParent : Bool) : Option Nat :=
  match a.get h n key lookupInParent with
  | none => none
  | some none => some 0
  | some (some (.pointer _)) => none
  | some (some (.double v)) => some v
  | some (some _) => some 0

end Notes
end Axl
