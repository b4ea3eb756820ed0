/-
The memory that a call uses, without reading the code: a call that can be made when only some cells are there uses
only those cells.  If other cells are there too, it does the same and leaves them as they were.
-/
import Verif.Spec.TreeApi

namespace Axl.Heap

/-- Some cells of the memory: nodes and items. -/
structure Cells where
  nodes : Nat → Option NodeC
  items : Mem Info

/-- The memory with some cells more. -/
def plus (h : Heap) (r : Cells) : Heap :=
  { h with nodes := fun n => (h.nodes n).or (r.nodes n), items := fun a => (h.items a).or (r.items a) }

/-- The cells are others, and they were allocated before. -/
structure Apart (h : Heap) (r : Cells) : Prop where
  nodes : ∀ n c, r.nodes n = some c → h.nodes n = none ∧ n < h.nextNode
  items : ∀ a c, r.items a = some c → h.items a = none ∧ a < h.nextItem

/-- The item at `a` belongs to the nodes in `own`: it holds one of them, or it holds text and is a child of one of them. -/
def owns (h : Heap) (own : Nat → Bool) (a : Nat) : Bool :=
  match h.items a with
  | none => false
  | some c =>
    match c.data.data, c.data.parent with
    | .node n, _ => own n
    | .text _ _, some p => own p
    | .text _ _, none => false

/-- The part of the memory with the cells of the nodes in `own`. -/
def keep (h : Heap) (own : Nat → Bool) : Heap :=
  { h with nodes := fun n => if own n then h.nodes n else none, items := fun a => if h.owns own a then h.items a else none }

/-- The other cells. -/
def rest (h : Heap) (own : Nat → Bool) : Cells where
  nodes := fun n => if own n then none else h.nodes n
  items := fun a => if h.owns own a then none else h.items a

/-- The same for the nodes as a user sees them. -/
def _root_.Axl.Spec.Tree.Forest.keep (f : Spec.Tree.Forest) (own : Nat → Bool) : Spec.Tree.Forest := { f with live := fun n => f.live n && own n }

/-- `own` is made of whole trees: with a node there are its children, and its parent. -/
def _root_.Axl.Spec.Tree.Forest.Whole (f : Spec.Tree.Forest) (own : Nat → Bool) : Prop :=
  ∀ n c, f.live n = true → Child.node c ∈ f.kids n → own n = own c

/-- The nodes in a child. -/
def _root_.Axl.Child.names : Child → List Nat
  | .node n => [n]
  | .text _ _ => []

/-- The nodes that a call is given. -/
def _root_.Axl.Spec.Tree.Op.names : Spec.Tree.Op → List Nat
  | .create _ => []
  | .setChild p v => p :: v.names
  | .setAfter p _ v => p :: v.names
  | .setChildRef p v => p :: v.names
  | .removeNode n _ => [n]
  | .removeItem p _ _ => [p]
  | .replaceItem p _ v _ => p :: v.names
  | .replaceNode n m _ => [n, m]
  | .transfer p q => [p, q]
  | .transferAfter p q _ => [p, q]
  | .setIsEmpty p => [p]
  | .free n => [n]
  | .copy n _ => [n]

end Axl.Heap
