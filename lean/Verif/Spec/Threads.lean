/-
Several threads, each one with its own nodes: in which order their calls may be made, and which node each call is
given.

A thread names its nodes as if it were alone, in the order in which it creates them.  When several threads run, the
node that a thread created is another one in memory: `at_` says which.
-/
import Verif.Spec.Tree

namespace Axl.Spec.Tree

/-- A child, where the nodes are given other numbers. -/
def _root_.Axl.Child.as (names : Nat → Nat) : Child → Child
  | .node n => .node (names n)
  | .text k s => .text k s

/-- A call, where the nodes are given other numbers. -/
def Op.as (names : Nat → Nat) : Op → Op
  | .create name => .create name
  | .setChild p v => .setChild (names p) (v.as names)
  | .setAfter p i v => .setAfter (names p) i (v.as names)
  | .setChildRef p v => .setChildRef (names p) (v.as names)
  | .removeNode n dealloc => .removeNode (names n) dealloc
  | .removeItem p i dealloc => .removeItem (names p) i dealloc
  | .replaceItem p i v dealloc => .replaceItem (names p) i (v.as names) dealloc
  | .replaceNode n m dealloc => .replaceNode (names n) (names m) dealloc
  | .transfer p q => .transfer (names p) (names q)
  | .transferAfter p q i => .transferAfter (names p) (names q) i
  | .setIsEmpty p => .setIsEmpty (names p)
  | .free n => .free (names n)
  | .copy n childs => .copy (names n) childs

/-- A thread: the calls that it has made, those that it will make, the nodes that it would have if it were alone, and
the node of the memory that each of them is. -/
structure Thread where
  done : List Op
  todo : List Op
  alone : Forest
  at_  : Nat → Nat

def Thread.start (calls : List Op) : Thread := ⟨[], calls, .empty, id⟩

/-- A thread makes a call when there are `next` nodes in memory: those that the call creates are the next ones. -/
def Thread.call (t : Thread) (op : Op) (todo : List Op) (next : Nat) : Thread where
  done := t.done ++ [op]
  todo := todo
  alone := t.alone.step op
  at_ := fun k => if k < t.alone.next then t.at_ k else next + (k - t.alone.next)

/-- The node of the memory is one that the thread created. -/
def Thread.owns (t : Thread) (m : Nat) : Bool := (List.range t.alone.next).any fun k => t.at_ k == m

/-- The calls that are made when the threads run in the order given, one call each time, and the threads after that; `next` is the
number of nodes created. -/
def interleave : List Nat → (Nat → Thread) → Nat → List Op × (Nat → Thread)
  | [], ts, _ => ([], ts)
  | i :: order, ts, next =>
    match (ts i).todo with
    | [] => interleave order ts next
    | op :: todo =>
      let r := interleave order (fun j => if j = i then (ts i).call op todo next else ts j)
        (next + (((ts i).alone.step op).next - (ts i).alone.next))
      (op.as (ts i).at_ :: r.1, r.2)

end Axl.Spec.Tree
