/-
What a user of the node API relies on, without pointers: a collection of nodes, each with a name
and a sequence of children.  A child is another node or a piece of text.

Nodes are numbered in the order in which they are created, so that a history of calls can name
them.  An item is named by the node it is in and its position.
-/
import Verif.Model.Tree

namespace Axl.Spec.Tree

/-- The nodes, their names and their children. -/
structure Forest where
  /-- how many nodes were created -/
  next : Nat
  /-- created and not freed -/
  live : Nat → Bool
  name : Nat → List Char
  kids : Nat → List Child

def Forest.empty : Forest := ⟨0, fun _ => false, fun _ => [], fun _ => []⟩

/-- The calls that change the tree. -/
inductive Op where
  /-- axl_node_create -/
  | create (name : List Char)
  /-- axl_node_set_child, axl_item_set_child -/
  | setChild (p : Nat) (v : Child)
  /-- axl_node_set_child_after, axl_item_set_after: after the item of `p` at position `i` -/
  | setAfter (p i : Nat) (v : Child)
  /-- axl_item_new_ref followed by axl_item_set_child_ref -/
  | setChildRef (p : Nat) (v : Child)
  /-- axl_node_remove (n, dealloc); axl_node_deattach (n) is `removeNode n false` -/
  | removeNode (n : Nat) (dealloc : Bool)
  /-- axl_item_remove (the item of `p` at position `i`, dealloc) -/
  | removeItem (p i : Nat) (dealloc : Bool)
  /-- axl_item_replace (the item of `p` at position `i`, axl_item_new_ref (v), dealloc) -/
  | replaceItem (p i : Nat) (v : Child) (dealloc : Bool)
  /-- axl_node_replace (n, m, dealloc) -/
  | replaceNode (n m : Nat) (dealloc : Bool)
  /-- axl_node_transfer_childs (p, q) -/
  | transfer (p q : Nat)
  /-- axl_item_transfer_childs_after (p, the item of `q` at position `i`) -/
  | transferAfter (p q i : Nat)
  /-- axl_node_set_is_empty (p, axl_true) -/
  | setIsEmpty (p : Nat)
  /-- axl_node_free -/
  | free (n : Nat)
  /-- axl_node_copy (n, …, childs) -/
  | copy (n : Nat) (childs : Bool)
deriving DecidableEq

namespace Forest

/-- Give `p` the children `l`. -/
def setKids (f : Forest) (p : Nat) (l : List Child) : Forest :=
  { f with kids := fun q => if q = p then l else f.kids q }

/-- The numbers of the nodes in a list of children. -/
def nodesOf : List Child → List Nat
  | [] => []
  | .node n :: l => n :: nodesOf l
  | .text _ _ :: l => nodesOf l

/-- `n` and what is below it, down to the given depth. -/
def subtree (f : Forest) : Nat → Nat → List Nat
  | 0, _ => []
  | d + 1, n => n :: (nodesOf (f.kids n)).flatMap (f.subtree d)

/-- `m` is `n` or is below `n`.  A path that goes down through different nodes is no longer than
the number of nodes created. -/
def below (f : Forest) (n m : Nat) : Bool := (f.subtree f.next n).contains m

/-- `n` is a child of some node. -/
def attached (f : Forest) (n : Nat) : Bool :=
  (List.range f.next).any fun p => f.live p && (nodesOf (f.kids p)).contains n

/-- `n` and everything below it is freed. -/
def kill (f : Forest) (n : Nat) : Forest := { f with live := fun m => f.live m && !f.below n m }

/-- Freeing a child that was taken out. -/
def killChild (f : Forest) : Option Child → Forest
  | some (.node n) => f.kill n
  | _ => f

/-- A node is created. -/
def add (f : Forest) (name : List Char) : Forest :=
  { next := f.next + 1, live := fun m => if m = f.next then true else f.live m,
    name := fun m => if m = f.next then name else f.name m,
    kids := fun m => if m = f.next then [] else f.kids m }

/-- Add to `g` a copy of the node `n` of `f` with everything below it, down to the given depth.  The
copy is the first node created. -/
def addCopy (f : Forest) : Nat → Forest → Nat → Forest
  | 0, g, _ => g
  | d + 1, g, n =>
    (f.kids n).foldl
      (fun acc c =>
        match c with
        | .text k s => acc.setKids g.next (acc.kids g.next ++ [.text k s])
        | .node m =>
          (f.addCopy d acc m).setKids g.next ((f.addCopy d acc m).kids g.next ++ [.node acc.next]))
      (g.add (f.name n))

/-- The effect of a call. -/
def step (f : Forest) : Op → Forest
  | .create name => f.add name
  | .setChild p v => f.setKids p (f.kids p ++ [v])
  | .setChildRef p v => f.setKids p (f.kids p ++ [v])
  | .setAfter p i v => f.setKids p ((f.kids p).take (i + 1) ++ v :: (f.kids p).drop (i + 1))
  | .removeNode n dealloc =>
    let f' := { f with kids := fun p => (f.kids p).filter (· != .node n) }
    if dealloc then f'.kill n else f'
  | .removeItem p i dealloc =>
    let f' := f.setKids p ((f.kids p).eraseIdx i)
    if dealloc then f'.killChild (f.kids p)[i]? else f'
  | .replaceItem p i v dealloc =>
    let f' := f.setKids p ((f.kids p).set i v)
    if dealloc then f'.killChild (f.kids p)[i]? else f'
  | .replaceNode n m dealloc =>
    let f' := { f with kids := fun p => (f.kids p).map fun c => if c = .node n then .node m else c }
    if dealloc then f'.kill n else f'
  | .transfer p q => (f.setKids q (f.kids q ++ f.kids p)).setKids p []
  | .transferAfter p q i =>
    (f.setKids q ((f.kids q).take (i + 1) ++ f.kids p ++ (f.kids q).drop (i + 1))).setKids p []
  | .setIsEmpty p => f.setKids p ((f.kids p).filter fun c => !Heap.isContent c)
  | .free n => f.kill n
  | .copy n childs => if childs then f.addCopy f.next f n else f.add (f.name n)

def run (f : Forest) : List Op → Forest
  | [] => f
  | op :: ops => (f.step op).run ops

/-- The child may be placed under `p`: a node must exist, be in no other place, and not be `p` nor
above `p`. -/
def mayGo (f : Forest) (p : Nat) : Child → Bool
  | .text _ _ => true
  | .node n => f.live n && !f.attached n && !f.below n p

/-- The item may be taken out or exchanged through the item API: it is a node, or it is neither
the first nor the last.  (This excludes the calls for which the property is false, see
`C24_first_text_removed`.) -/
def inner (f : Forest) (p i : Nat) : Bool :=
  match (f.kids p)[i]? with
  | none => false
  | some (.node _) => true
  | some (.text _ _) => 0 < i && i + 1 < (f.kids p).length

/-- The nodes named by the call exist, and nodes are placed only where the tree stays a tree. -/
def fits (f : Forest) : Op → Bool
  | .create _ => true
  | .setChild p v => f.live p && f.mayGo p v
  | .setChildRef p v => f.live p && f.mayGo p v
  | .setAfter p i v => f.live p && decide (i < (f.kids p).length) && f.mayGo p v
  | .removeNode n _ => f.live n && f.attached n
  | .removeItem p i _ => f.live p && f.inner p i
  | .replaceItem p i v _ => f.live p && f.inner p i && f.mayGo p v
  | .replaceNode n m _ => f.live n && f.attached n &&
      (List.range f.next).all fun p =>
        !(f.live p && (nodesOf (f.kids p)).contains n) || f.mayGo p (.node m)
  | .transfer p q => f.live p && f.live q && !f.below p q
  | .transferAfter p q i => f.live p && f.live q && !f.below p q && decide (i < (f.kids q).length)
  | .setIsEmpty p => f.live p && ((f.kids p).all Heap.isContent ||
      (((f.kids p).head?.all fun c => !Heap.isContent c) &&
        ((f.kids p).getLast?.all fun c => !Heap.isContent c)))
  | .free n => f.live n && !f.attached n
  | .copy n _ => f.live n

def Fits (f : Forest) : List Op → Bool
  | [] => true
  | op :: ops => f.fits op && (f.step op).Fits ops

/-- The first node called `name` below `n`: first among the children of `n`, in their order, then
below each of them in turn. -/
def findIn (f : Forest) (name : List Char) : Nat → Nat → Option Nat
  | 0, _ => none
  | d + 1, n =>
    match (nodesOf (f.kids n)).find? fun c => f.name c == name with
    | some m => some m
    | none => (nodesOf (f.kids n)).findSome? (f.findIn name d)

/-! A copy. -/

mutual
/-- The node `m` of `g` and what is below it are like the node `n` of `f` and what is below it: the
same names, and the same children in the same order. -/
inductive SameTree (f g : Forest) : Nat → Nat → Prop where
  | mk {n m : Nat} : g.live m = true → g.name m = f.name n → SameKids f g (f.kids n) (g.kids m) →
      SameTree f g n m
inductive SameKids (f g : Forest) : List Child → List Child → Prop where
  | nil : SameKids f g [] []
  | text {k : TextKind} {s : List Char} {l l' : List Child} :
      SameKids f g l l' → SameKids f g (.text k s :: l) (.text k s :: l')
  | node {n m : Nat} {l l' : List Child} :
      SameTree f g n m → SameKids f g l l' → SameKids f g (.node n :: l) (.node m :: l')
end

end Forest
end Axl.Spec.Tree
