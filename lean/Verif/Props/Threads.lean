/-
C76: threads that use different nodes.
-/
import Verif.Proofs.Threads
import Verif.Props.Tree

namespace Axl.Heap
open Spec.Tree Spec.Tree.Forest

/-- **C76**, for the calls of C24 and whole calls one after another.  Some threads make calls, each one on the nodes
that it created; alone, each of them would keep to what C24 asks.  In whatever order the calls of the different
threads are made:

* no call reads or writes memory that is not allocated, so that all of them give a memory;
* each thread has made its calls in its order, as many as times it ran;
* every node that a thread has shows, in the memory of all, the name and the children that it shows when the thread
  is alone, in both directions and with the same parents, and it is freed in one when it is in the other;
* the nodes of two threads are never the same. -/
theorem C76_threads_partial (calls : Nat → List Op) (hf : ∀ t, Forest.empty.Fits (calls t) = true) (order : List Nat) :
    ∃ h, Heap.empty.run (interleave order (fun t => .start (calls t)) 0).1 = some h ∧
      ∀ t th, th = (interleave order (fun t => .start (calls t)) 0).2 t →
        th.done = (calls t).take (order.count t) ∧
        (∃ h', Heap.empty.run th.done = some h' ∧
          ∀ n, n < (Forest.empty.run th.done).next →
            ((Forest.empty.run th.done).live n = true ∧
              h'.Shows n ((Forest.empty.run th.done).name n) ((Forest.empty.run th.done).kids n) ∧
              h.Shows (th.at_ n) ((Forest.empty.run th.done).name n) (((Forest.empty.run th.done).kids n).map (Child.as th.at_))) ∨
            (h'.nodes n = none ∧ h.nodes (th.at_ n) = none)) ∧
        ∀ u uh j k, uh = (interleave order (fun t => .start (calls t)) 0).2 u → j < (Forest.empty.run th.done).next →
          k < (Forest.empty.run uh.done).next → th.at_ j = uh.at_ k → t = u ∧ j = k := by
  obtain ⟨fits, W⟩ := (world_start hf).interleave order
  obtain ⟨h, e, I⟩ := inv_run _ inv_empty fits
  refine ⟨h, e, ?_⟩
  rintro t th rfl
  have hn : Forest.empty.next = 0 := rfl
  rw [hn] at W I
  refine ⟨?_, ?_, ?_⟩
  · rw [(interleave_done ..).1]; rfl
  · obtain ⟨h', e', I'⟩ := W.heap t
    refine ⟨h', e', ?_⟩
    rw [← W.alone t]
    intro n hn
    have R := W.isIn t
    cases hl : ((interleave order (fun t => .start (calls t)) 0).2 t).alone.live n with
    | true =>
      left
      refine ⟨rfl, I'.shows hl, ?_⟩
      have := I.shows (n := ((interleave order (fun t => .start (calls t)) 0).2 t).at_ n) (by rw [R.live n hn]; exact hl)
      rw [R.name n hn, R.kids n hn hl] at this
      exact this
    | false =>
      right
      obtain ⟨⟨_, S⟩, _⟩ := I
      obtain ⟨⟨_, S'⟩, _⟩ := I'
      exact ⟨S'.dead n hl, S.dead _ (by rw [R.live n hn]; exact hl)⟩
  · rintro u uh j k rfl hj hk he
    rw [← W.alone t] at hj
    rw [← W.alone u] at hk
    have := W.apart t u j k hj hk he
    subst this
    exact ⟨rfl, (W.isIn t).inj j k hj hk he⟩

/-- Three threads: one makes the calls of `sampleOps`, one copies a tree and frees it, one makes a node. -/
def sample76 : Nat → List Op
  | 0 => sampleOps
  | 1 => [.create "x".toList, .create "y".toList, .setChild 0 (.node 1), .setChild 1 (.text .content "t".toList), .copy 0 true, .free 0, .setChild 2 (.text .comment "u".toList)]
  | 2 => [.create "z".toList]
  | _ => []

theorem sample76_fits : ∀ t, Forest.empty.Fits (sample76 t) = true
  | 0 => by decide
  | 1 => by decide
  | 2 => by decide
  | _ + 3 => rfl

/-- The order of the example: the second thread runs seven times, between calls of the first. -/
def order76 : List Nat := [1, 0, 0, 1, 2, 0, 1, 0, 1, 0, 0, 1, 0, 0, 1, 0, 0, 1, 0, 0, 5, 0, 0]

example : (interleave order76 (fun t => .start (sample76 t)) 0).1.take 12 =
    [.create "x".toList, .create "root".toList, .create "a".toList, .create "y".toList, .create "z".toList, .create "b".toList, .setChild 0 (.node 3), .create "c".toList,
     .setChild 3 (.text .content "t".toList), .setChild 1 (.node 2), .setChild 1 (.text .content "x".toList), .copy 0 true] := by decide +kernel
example : (Forest.empty.run (interleave order76 (fun t => .start (sample76 t)) 0).1).kids 7 = [.node 8, .text .comment "u".toList] := by decide +kernel
example : ((interleave order76 (fun t => .start (sample76 t)) 0).2 1).at_ 2 = 7 := by decide +kernel

/-- What a thread has does not depend on the order in which the threads run: two orders that let it run as many times
give it the same nodes, up to their place in memory. -/
theorem C76_any_order_partial (calls : Nat → List Op) (hf : ∀ t, Forest.empty.Fits (calls t) = true) (order order' : List Nat) (t : Nat)
    (hc : order.count t = order'.count t) :
    ∃ h h' th th', Heap.empty.run (interleave order (fun t => .start (calls t)) 0).1 = some h ∧
      Heap.empty.run (interleave order' (fun t => .start (calls t)) 0).1 = some h' ∧
      th = (interleave order (fun t => .start (calls t)) 0).2 t ∧ th' = (interleave order' (fun t => .start (calls t)) 0).2 t ∧
      ∀ n, n < (Forest.empty.run ((calls t).take (order.count t))).next →
        (∃ (name : List Char) (kids : List Child), h.Shows (th.at_ n) name (kids.map (Child.as th.at_)) ∧ h'.Shows (th'.at_ n) name (kids.map (Child.as th'.at_))) ∨
        (h.nodes (th.at_ n) = none ∧ h'.nodes (th'.at_ n) = none) := by
  obtain ⟨h, e, H⟩ := C76_threads_partial calls hf order
  obtain ⟨h', e', H'⟩ := C76_threads_partial calls hf order'
  obtain ⟨d, ⟨a, ea, A⟩, -⟩ := H t _ rfl
  obtain ⟨d', ⟨a', ea', A'⟩, -⟩ := H' t _ rfl
  refine ⟨h, h', _, _, e, e', rfl, rfl, ?_⟩
  intro n hn
  rw [d] at A ea
  rw [d', ← hc] at A' ea'
  rw [ea] at ea'
  cases ea'
  rcases A n hn with ⟨h1, h2, h3⟩ | ⟨h1, h2⟩
  · rcases A' n hn with ⟨-, -, h5⟩ | ⟨h4, h5⟩
    · exact .inl ⟨_, _, h3, h5⟩
    · obtain ⟨c, hc, -⟩ := h2.node
      rw [h4] at hc
      cases hc
  · rcases A' n hn with ⟨-, h4, h5⟩ | ⟨h4, h5⟩
    · obtain ⟨c, hc, -⟩ := h4.node
      rw [h1] at hc
      cases hc
    · exact .inr ⟨h2, h5⟩

example : [0, 1, 1, 0].count 1 = [1, 1, 0, 2].count 1 := rfl

/-- Not for threads that share nodes: two threads that take out the same node, each one as it may do alone, use memory
that was freed. -/
theorem C76_shared :
    let start : List Op := [.create "a".toList, .create "b".toList, .setChild 0 (.node 1)]
    Forest.empty.Fits (start ++ [.removeNode 1 true]) = true ∧
      Heap.empty.run (start ++ [.removeNode 1 true]) ≠ none ∧ Heap.empty.run (start ++ [.removeNode 1 true, .removeNode 1 true]) = none :=
  ⟨by decide, by decide, rfl⟩

end Axl.Heap
