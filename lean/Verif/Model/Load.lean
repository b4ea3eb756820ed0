/-
The calls on nodes that the parser makes for a document that it accepts, in their order, and so the nodes in memory after it.

`Model/Parse.lean` keeps the nodes that are open as values; this file gives the calls on the heap of `Model/Tree.lean` for the tree
that results.  Simplification: the pools of the document, from which nodes and items are taken, are not represented (as in
`Model/Tree.lean`).
-/
import Verif.Model.Parse
import Verif.Model.TreeDump
import Verif.Spec.Tree

namespace Axl
open Spec.Tree

mutual
/-- How many nodes there are in a tree. -/
def Node.count : Node → Nat
  | .mk _ _ items => 1 + Items.count items
def Items.count : Items → Nat
  | .nil => 0
  | .leaf _ next => Items.count next
  | .node n next => Node.count n + Items.count next
end

namespace Load

/-- The text that stands for the `axlPI` record in the heap of `Model/Tree.lean`. -/
def piText (p : PI) : List Char :=
  List.replicate p.name.length 'x' ++ 'y' :: p.name ++ (match p.content with | none => [] | some c => 'z' :: c)

/-- The record that a text stands for. -/
def piOf (s : List Char) : PI :=
  let rest := (s.dropWhile (· = 'x')).drop 1
  let k := (s.takeWhile (· = 'x')).length
  ⟨rest.take k, match rest.drop k with | [] => none | _ :: c => some c⟩

/-- The item for a text (src/axl_doc.c:1242, 1287, 3364, 3461, 3491).  The parser makes no references. -/
def child : Leaf → Child
  | .content s => .text .content s
  | .cdata s => .text .cdata s
  | .comment s => .text .comment s
  | .pi p => .text .pi (piText p)
  | .ref s => .text .content s

/-- `axl_doc_set_child_current_parent` (src/axl_doc.c:2559-2580), or the node is the root (src/axl_doc.c:846-860). -/
def place (k : Nat) : Option Nat → List Op
  | none => []
  | some p => [.setChild p (.node k)]

mutual
/-- The calls for an element: the node is created and placed in its parent (src/axl_doc.c:842-860), and then come those for its content
up to its end (src/axl_doc.c:1170-1300).  `k`: the number of nodes created before. -/
def node (k : Nat) (parent : Option Nat) : Node → List Op
  | .mk name _ items => .create name :: place k parent ++ Load.items k (k + 1) items
/-- The calls for the content of the node `p`. -/
def items (p j : Nat) : Items → List Op
  | .nil => []
  | .leaf l next => .setChild p (child l) :: items p j next
  | .node n next => node j (some p) n ++ items p (j + n.count) next
end

/-- The calls for a document. -/
def root (d : Doc) : List Op := node 0 none d.root

mutual
/-- The attributes of the node created in place `i` (`axl_node_set_attribute_from_factory`, src/axl_doc.c:998). -/
def attrs : Node → Nat → Attrs
  | .mk _ a _, 0 => a
  | .mk _ _ items, i + 1 => attrsIn items i
def attrsIn : Items → Nat → Attrs
  | .nil, _ => Attrs.empty
  | .leaf _ next, i => attrsIn next i
  | .node n next, i => if i < n.count then attrs n i else attrsIn next (i - n.count)
end

/-- What the heap leaves out, for a document. -/
def extra (d : Doc) : Extra := ⟨attrs d.root, piOf⟩

end Load
end Axl
