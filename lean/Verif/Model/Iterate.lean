/-
axl_doc_iterate and axl_doc_iterate_full (src/axl_doc.c:2962-3066): visiting the nodes of a document.

The tree is the one of `Verif.Model.Tree`, the list of pending nodes is the one of
`Verif.Model.List`.  The function given by the user is any function of its own state, of the tree
and of the node and parent it receives; it answers its new state, the tree (it may change it),
whether to go on and the value it leaves in `was_removed`.  Its two forms (with one or with two
user pointers) are one here.
-/
import Verif.Model.Tree
import Verif.Model.List

namespace Axl

/-- `AxlIterationMode` (src/axl_decl.h:969-980). -/
inductive IterMode where
  | deep
  | wide
deriving DecidableEq, Repr

/-- `axlIterationFunc` (src/axl_decl.h:1029): state, tree, node, parent ↦ state, tree, go on, was_removed.
`none`: the function itself has undefined behaviour. -/
abbrev IterFunc (σ : Type) := σ → Heap → Nat → Option Nat → Option (σ × Heap × Bool × Bool)

namespace Heap

/-- The `switch` over the mode (src/axl_doc.c:3034-3047). -/
def pushChild (mode : IterMode) (l : AxlList Nat) (c : Nat) (iterator : Int) : Option (AxlList Nat) :=
  match mode with
  | .deep => l.addAt c iterator
  | .wide => l.add c

/-- The inner loop (src/axl_doc.c:3031-3053).  `iterator` is also counted in WIDE mode, where it is
not used.  The number bounds the iterations. -/
def pushLoop (h : Heap) (mode : IterMode) : Nat → AxlList Nat → Option Nat → Int → Option (AxlList Nat)
  | _, l, none, _ => some l
  | 0, _, some _, _ => none
  | k + 1, l, some c, iterator => do
    let l ← pushChild mode l c iterator
    let next ← h.getNext c
    pushLoop h mode k l next (iterator + 1)

/-- "add all its childs" (src/axl_doc.c:3023-3054). -/
def pushChilds (h : Heap) (mode : IterMode) (removed : Bool) (n : Nat) (l : AxlList Nat) : Option (AxlList Nat) :=
  match removed with
  | true => some l
  | false => do
    let some_ ← h.haveChilds n
    match some_ with
    | false => some l
    | true => do
      let first ← h.getFirstChild n
      pushLoop h mode h.nextNode l first 0

/-- The `while` over the pending nodes (src/axl_doc.c:3000-3065), with the release of the list in
every way out.  The number bounds the iterations. -/
def iterateLoop {σ : Type} (func : IterFunc σ) (mode : IterMode) :
    Nat → σ → Heap → AxlList Nat → Option (σ × Heap × Bool)
  | k, s, h, pending =>
    if 0 < pending.length then
      match k with
      | 0 => none
      | k + 1 => do
        let node ← pending.getFirst
        let n ← node
        let pending ← pending.removeFirst true
        let parent ← h.getParent n
        let (s, h, go, removed) ← func s h n parent
        match go with
        | false => do
          let _ ← pending.free
          some (s, h, false)
        | true => do
          let pending ← h.pushChilds mode removed n pending
          iterateLoop func mode k s h pending
    else do
      let _ ← pending.free
      some (s, h, true)

/-- `__axl_doc_iterate_common` (src/axl_doc.c:2962-3066) from the node `root`: the state of the user
function, the tree and the answer. -/
def iterate {σ : Type} (func : IterFunc σ) (mode : IterMode) (s : σ) (h : Heap) (root : Nat) :
    Option (σ × Heap × Bool) := do
  let (s, h, go, removed) ← func s h root none
  match go && !removed with
  | false => some (s, h, false)
  | true => do
    let pending ← h.getChilds root
    iterateLoop func mode h.nextNode s h pending

end Heap
end Axl
