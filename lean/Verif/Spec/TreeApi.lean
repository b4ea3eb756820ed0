/-
Running the histories of `Verif.Spec.Tree` on the model of the code, and reading a node's children
with the public functions.
-/
import Verif.Spec.Tree

namespace Axl.Heap
open Spec.Tree

/-- The item at position `i` among the children of `p`: axl_item_get_first_child and then
axl_item_get_next `i` times.  `none` if a freed item is met on the way or there is no such item. -/
def nextTimes (h : Heap) : Nat → Option Nat → Option Nat
  | _, none => none
  | 0, some a => some a
  | i + 1, some a => (h.itemNext a).bind (h.nextTimes i)

def itemAt (h : Heap) (p i : Nat) : Option Nat := (h.itemFirst p).bind (h.nextTimes i)

/-- Perform one call. -/
def exec (h : Heap) : Op → Option Heap
  | .create name => some (h.create name).1
  | .setChild p v => h.setChild p v
  | .setAfter p i v => (h.itemAt p i).bind fun a => h.setAfter a v
  | .setChildRef p v => (h.newRef v).bind fun r => r.1.setChildRef p r.2
  | .removeNode n d => h.nodeRemove n d
  | .removeItem p i d => (h.itemAt p i).bind fun a => h.itemRemove a d
  | .replaceItem p i v d =>
    (h.itemAt p i).bind fun a => (h.newRef v).bind fun r => r.1.itemReplace a r.2 d
  | .replaceNode n m d => h.nodeReplace n m d
  | .transfer p q => h.transferChilds p q
  | .transferAfter p q i => (h.itemAt q i).bind fun a => h.transferChildsAfter p a
  | .setIsEmpty p => h.setIsEmpty p
  | .free n => h.nodeFree n
  | .copy n childs => (h.nodeCopy n childs).map Prod.fst

def run (h : Heap) : List Op → Option Heap
  | [] => some h
  | op :: ops => (h.exec op).bind fun h => h.run ops

/-- `h.Forwards o l`: starting at the item `o` and calling axl_item_get_next, the items met are,
in this order, those described by `l` (their parent and what they hold), and all of them are
allocated. -/
inductive Forwards (h : Heap) : Option Nat → List Info → Prop where
  | nil : Forwards h none []
  | cons {a : Nat} {c : Cell Info} {l : List Info} :
      h.items a = some c → Forwards h c.next l → Forwards h (some a) (c.data :: l)

/-- The same with axl_item_get_previous. -/
inductive Backwards (h : Heap) : Option Nat → List Info → Prop where
  | nil : Backwards h none []
  | cons {a : Nat} {c : Cell Info} {l : List Info} :
      h.items a = some c → Backwards h c.prev l → Backwards h (some a) (c.data :: l)

/-- Read from the tree: the node `n` is allocated, has this name, and its children are `l`, both
from its first child forwards and from its last child backwards; every item has `n` as its parent
and so has every node among them; and those nodes are allocated. -/
structure Shows (h : Heap) (n : Nat) (name : List Char) (l : List Child) : Prop where
  node : ∃ c, h.nodes n = some c ∧ c.name = name
  forwards : ∃ a, h.itemFirst n = some a ∧ h.Forwards a (l.map fun v => ⟨some n, v⟩)
  backwards : ∃ a, h.itemLast n = some a ∧ h.Backwards a (l.reverse.map fun v => ⟨some n, v⟩)
  parents : ∀ m, Child.node m ∈ l → h.getParent m = some (some n)

end Axl.Heap
