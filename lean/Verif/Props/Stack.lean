/-
Properties C07 and C08: axlStack and axlBinaryStack.
-/
import Verif.Proofs.Stack

namespace Axl
open Spec.Stack

/-- **C07**.  After any history of pushes and pops the stack is the plain stack obtained by the same
operations: size, emptiness, peek, pop, foreach and the destroy calls of free are those of it. -/
theorem C07_stack_lifo {α : Type} (d : Bool) (ops : List (Op α)) :
    ∃ s xs, (AxlStack.new d).run ops = some s ∧ xs = ops.foldl step [] ∧
      s.items = xs.length ∧ s.isEmpty = xs.isEmpty ∧ s.peek = some xs.head? ∧
      s.pop.map Prod.fst = some xs.head? ∧
      (∀ stop, s.foreach stop = some (visit stop xs)) ∧
      s.free = some (if d then xs else []) := by
  obtain ⟨s, h1, h2, h3, h4⟩ := AxlStack.run_spec ops (AxlStack.rep_new (α := α) d)
  refine ⟨s, _, h1, rfl, h2.items, AxlStack.isEmpty_spec h2, AxlStack.peek_spec h2, ?_,
    AxlStack.foreach_spec h2, ?_⟩
  · cases hx : ops.foldl step ([] : List α) with
    | nil => rw [hx] at h2; simp [AxlStack.pop_nil h2]
    | cons x xs =>
      rw [hx] at h2
      obtain ⟨s', g1, _⟩ := AxlStack.pop_cons h2
      simp [g1]
  · rw [AxlStack.free_spec h2, h3, h4]; rfl

example : ((AxlStack.new true).run [.push (some 1), .push none, .push (some 2), .push (some 3), .pop]).bind
    (fun s => s.free) = some [2, 1] := by decide

/-- **C08**.  After any history of push, push_the_same and pop, the binary stack answers as the
plain stack of booleans obtained by the same operations (an empty stack pops and peeks false). -/
theorem C08_binary_stack_lifo (ops : List BOp) :
    ∃ b xs, BinaryStack.new.run ops = some b ∧ xs = ops.foldl bstep [] ∧
      b.size = xs.length ∧ b.isEmpty = xs.isEmpty ∧ b.peek = some (xs.head?.getD false) ∧
      b.pop.map Prod.fst = some (xs.head?.getD false) := by
  obtain ⟨b, ns, h1, h2, h3⟩ := BinaryStack.run_spec ops BinaryStack.rep_new
  have h3' : BinaryStack.expand ns = ops.foldl bstep [] := h3
  refine ⟨b, _, h1, rfl, ?_, ?_, ?_, ?_⟩
  · rw [← h3']; exact h2.count
  · rw [← h3']; exact BinaryStack.isEmpty_spec h2
  · rw [← h3']; exact BinaryStack.peek_spec h2
  · obtain ⟨b', ns', g1, _⟩ := BinaryStack.pop_spec h2
    rw [← h3', g1]; rfl

example : (BinaryStack.new.run [.push true, .pushTheSame, .push false, .pop, .pop]).bind (fun b => b.peek)
    = some true := by decide

end Axl
