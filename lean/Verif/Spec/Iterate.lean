/-
What a user of axl_doc_iterate relies on.  The tree is the one of `Verif.Spec.Tree`.

A user function is described by what it decides at each call, from the calls it has got so far,
the present one included: go on, stop, or remove the node it was given (axl_node_remove with
dealloc, and was_removed set) and go on.
-/
import Verif.Spec.TreeApi
import Verif.Model.Iterate

namespace Axl.Spec.Iterate
open Spec.Tree Spec.Tree.Forest

/-- The calls made to the user function, oldest first: the node and the parent it was given. -/
abbrev Log := List (Nat × Option Nat)

inductive Act where
  | go
  | stop
  | remove
deriving DecidableEq

/-- The user function that decides with `act`; its state is the list of the calls. -/
def func (act : Log → Act) : IterFunc Log := fun log h n parent =>
  match act (log ++ [(n, parent)]) with
  | .go => some (log ++ [(n, parent)], h, true, false)
  | .stop => some (log ++ [(n, parent)], h, false, false)
  | .remove => (h.nodeRemove n true).map fun h => (log ++ [(n, parent)], h, true, true)

/-- The child nodes of `n`. -/
def childs (f : Forest) (n : Nat) : List Nat := nodesOf (f.kids n)

/-- DEEP iteration of `n` and what is below it, no deeper than the first number: the node is
visited, then each of its children with all it contains.  The state is the calls made, and whether
the iteration is to go on. -/
def deep (f : Forest) (act : Log → Act) : Nat → Option Nat → Nat → Log × Bool → Log × Bool
  | 0, _, _, s => s
  | _, _, _, (log, false) => (log, false)
  | d + 1, parent, n, (log, true) =>
    match act (log ++ [(n, parent)]) with
    | .stop => (log ++ [(n, parent)], false)
    | .remove => (log ++ [(n, parent)], true)
    | .go => (childs f n).foldl (fun s c => deep f act d (some n) c s) (log ++ [(n, parent)], true)

/-- Visit the nodes of one level from left to right: the calls, whether to go on, and the next
level, made of the children of the nodes visited and not removed. -/
def level (f : Forest) (act : Log → Act) : Log → Log → Log × Bool × Log
  | log, [] => (log, true, [])
  | log, (n, parent) :: ns =>
    match act (log ++ [(n, parent)]) with
    | .stop => (log ++ [(n, parent)], false, [])
    | .remove => level f act (log ++ [(n, parent)]) ns
    | .go =>
      ((level f act (log ++ [(n, parent)]) ns).1, (level f act (log ++ [(n, parent)]) ns).2.1,
        (childs f n).map (fun c => (c, some n)) ++ (level f act (log ++ [(n, parent)]) ns).2.2)

/-- WIDE iteration: level by level, no more levels than the number. -/
def wide (f : Forest) (act : Log → Act) : Nat → Log → Log → Log × Bool
  | 0, log, _ => (log, true)
  | d + 1, log, ns =>
    match level f act log ns with
    | (log, false, _) => (log, false)
    | (log, true, next) => wide f act d log next

/-- The calls made and the answer, for a tree in which no way down is longer than the number of
nodes. -/
def visits (f : Forest) (act : Log → Act) (root : Nat) : IterMode → Log × Bool
  | .deep => deep f act f.next none root ([], true)
  | .wide => wide f act f.next [] [(root, none)]

/-- The nodes the function decided to remove, along the calls made. -/
def removed (act : Log → Act) (log : Log) : List Nat :=
  (List.range log.length).filterMap fun i =>
    if act (log.take (i + 1)) = .remove then (log[i]?).map (·.1) else none

/-- The nodes `d` steps below the nodes `ns`, from left to right. -/
def generation (f : Forest) : Nat → List Nat → List Nat
  | 0, ns => ns
  | d + 1, ns => generation f d (ns.flatMap (childs f))

end Axl.Spec.Iterate
