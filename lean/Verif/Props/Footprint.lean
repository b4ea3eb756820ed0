/-
C77: a call uses only the memory of the trees that it is given; and C76 for the memory that each thread uses.
-/
import Verif.Proofs.Footprint
import Verif.Props.Threads

namespace Axl.Heap
open Spec.Tree Spec.Tree.Forest

/-- **C77**, for the calls of C24.  After any history, let `own` be some whole trees and let a call be given nodes of
these trees only.  If the cells of all the other nodes are taken away from the memory, the call can still be made: it reads and writes
only cells of its trees, and new ones.  With the other cells in their place it does the same, and each of them stays as it was. -/
theorem C77_own_cells_partial (ops : List Op) (hf : Forest.empty.Fits ops = true) (own : Nat → Bool) (hw : (Forest.empty.run ops).Whole own)
    (op : Op) (ho : ∀ n ∈ op.names, own n = true) (hop : (Forest.empty.run ops).fits op = true) :
    ∃ h, Heap.empty.run ops = some h ∧
      ∃ h', (h.keep own).exec op = some h' ∧ h.exec op = some (h'.plus (h.rest own)) ∧ Apart h' (h.rest own) := by
  obtain ⟨h, e, I⟩ := inv_run ops inv_empty hf
  exact ⟨h, e, exec_keep I hw ho hop⟩

/-- Two trees: one has the nodes 0 and 1, the other 2 and 3. -/
def sample77 : List Op :=
  [.create "a".toList, .create "b".toList, .create "c".toList, .create "d".toList, .setChild 0 (.node 1), .setChild 2 (.text .content "t".toList),
   .setChild 2 (.node 3), .setChild 1 (.text .comment "u".toList)]

example : Forest.empty.Fits sample77 = true ∧ (Forest.empty.run sample77).fits (.removeNode 3 true) = true ∧
    (Forest.empty.run sample77).fits (.copy 0 true) = true := by decide

/-- The trees of the example are whole. -/
example : (Forest.empty.run sample77).Whole fun n => decide (2 ≤ n) := by
  intro n c hn hc
  match n with
  | 0 =>
    have : c = 1 := by
      have : Child.node c ∈ [Child.node 1] := hc
      simpa using this
    subst this; rfl
  | 1 =>
    have : Child.node c ∈ [Child.text .comment "u".toList] := hc
    simp at this
  | 2 =>
    have : c = 3 := by
      have : Child.node c ∈ [Child.text .content "t".toList, Child.node 3] := hc
      simpa using this
    subst this; rfl
  | 3 =>
    have : Child.node c ∈ ([] : List Child) := hc
    simp at this
  | n + 4 => exact absurd hn (by simp [Forest.run, Forest.step, Forest.add, Forest.empty, sample77, Forest.setKids])

/-- What is taken away is really there, and the call frees cells of the part that is kept. -/
example : ∃ h, Heap.empty.run sample77 = some h ∧ (h.keep fun n => decide (2 ≤ n)).nodes 0 = none ∧ h.nodes 0 ≠ none ∧
    (∃ h', h.exec (.removeNode 3 true) = some h' ∧ h'.nodes 3 = none ∧ h'.nodes 0 = h.nodes 0) :=
  ⟨_, rfl, rfl, by decide, _, rfl, rfl, rfl⟩

/-- **C77**, for the functions that look at a tree: they read only cells of the tree. -/
theorem C77_navigation_partial (ops : List Op) (hf : Forest.empty.Fits ops = true) (own : Nat → Bool) (hw : (Forest.empty.run ops).Whole own) :
    ∃ h, Heap.empty.run ops = some h ∧ ∀ n, (Forest.empty.run ops).live n = true → own n = true →
      ((h.keep own).getFirstChild n = h.getFirstChild n ∧ h.getFirstChild n ≠ none) ∧
      ((h.keep own).getLastChild n = h.getLastChild n ∧ h.getLastChild n ≠ none) ∧
      (∀ pos, (h.keep own).getChildNth n pos = h.getChildNth n pos ∧ h.getChildNth n pos ≠ none) ∧
      ((h.keep own).getChildNum n = h.getChildNum n ∧ h.getChildNum n ≠ none) ∧
      (∀ name, (h.keep own).getChildCalled n name = h.getChildCalled n name ∧ h.getChildCalled n name ≠ none) ∧
      ((h.keep own).haveChilds n = h.haveChilds n ∧ h.haveChilds n ≠ none) ∧
      ((h.keep own).isEmpty n = h.isEmpty n ∧ h.isEmpty n ≠ none) ∧
      (∀ name, (h.keep own).findCalled n name = h.findCalled n name ∧ h.findCalled n name ≠ none) ∧
      (∀ xs m ys, nodesOf ((Forest.empty.run ops).kids n) = xs ++ m :: ys →
        ((h.keep own).getNext m = h.getNext m ∧ h.getNext m ≠ none) ∧
        ((h.keep own).getPrevious m = h.getPrevious m ∧ h.getPrevious m ≠ none) ∧
        ((h.keep own).getParent m = h.getParent m ∧ h.getParent m ≠ none)) := by
  obtain ⟨h, e, I⟩ := inv_run ops inv_empty hf
  refine ⟨h, e, ?_⟩
  obtain ⟨⟨ns', R'⟩, T'⟩ := inv_keep I hw
  obtain ⟨⟨ns, R⟩, T⟩ := I
  intro n hn ho
  have hn' : ((Forest.empty.run ops).keep own).live n = true := by rw [live_keep ho]; exact hn
  have fi : ∀ name d n, ((Forest.empty.run ops).keep own).findIn name d n = (Forest.empty.run ops).findIn name d n := by
    intro name d
    induction d with
    | zero => exact fun _ => rfl
    | succ d ih =>
      intro n
      have : ((Forest.empty.run ops).keep own).findIn name d = (Forest.empty.run ops).findIn name d := funext ih
      simp only [Forest.findIn]
      rw [this]
      rfl
  refine ⟨?_, ?_, fun pos => ?_, ?_, fun name => ?_, ?_, ?_, fun name => ?_, fun xs m ys hk => ⟨?_, ?_, ?_⟩⟩
  · rw [R.getFirstChild hn, R'.getFirstChild hn']; exact ⟨rfl, by simp⟩
  · rw [R.getLastChild hn, R'.getLastChild hn']; exact ⟨rfl, by simp⟩
  · rw [R.getChildNth hn, R'.getChildNth hn']; exact ⟨rfl, by simp⟩
  · rw [R.getChildNum hn, R'.getChildNum hn']; exact ⟨rfl, by simp⟩
  · rw [R.getChildCalled T hn, R'.getChildCalled T' hn']; exact ⟨rfl, by simp⟩
  · rw [R.haveChilds hn, R'.haveChilds hn']; exact ⟨rfl, by simp⟩
  · rw [R.isEmpty hn, R'.isEmpty hn']; exact ⟨rfl, by simp⟩
  · rw [R.findCalled T hn name, R'.findCalled T' hn' name, fi]; exact ⟨rfl, by simp⟩
  · rw [R.getNext hn hk, R'.getNext hn' hk]; exact ⟨rfl, by simp⟩
  · rw [R.getPrevious hn hk, R'.getPrevious hn' hk]; exact ⟨rfl, by simp⟩
  · have hm : Child.node m ∈ (Forest.empty.run ops).kids n := mem_nodesOf.mp (by rw [hk]; simp)
    rw [(R.shows hn).parents m hm, (R'.shows hn').parents m hm]; exact ⟨rfl, by simp⟩

/-- The code is given nodes of the part and yet leaves it: a node that was taken out still has the parent that it had,
and axl_node_remove writes there.  The history is not one of C24. -/
theorem C77_not_removed_twice :
    ∃ h own, Heap.empty.run [.create "a".toList, .create "b".toList, .setChild 0 (.node 1), .removeNode 1 false] = some h ∧
      (Forest.empty.run [.create "a".toList, .create "b".toList, .setChild 0 (.node 1), .removeNode 1 false]).Whole own ∧
      own 1 = true ∧ own 0 = false ∧ h.exec (.removeNode 1 true) ≠ none ∧ (h.keep own).exec (.removeNode 1 true) = none := by
  refine ⟨_, fun n => decide (n = 1), rfl, ?_, rfl, rfl, by decide, rfl⟩
  intro n c hn hc
  match n with
  | 0 =>
    have : Child.node c ∈ ([] : List Child) := hc
    simp at this
  | 1 =>
    have : Child.node c ∈ ([] : List Child) := hc
    simp at this
  | n + 2 => exact absurd hn (by simp [Forest.run, Forest.step, Forest.add, Forest.empty, Forest.setKids])

/-- **C76**, for the memory that each call uses, with the same limits.  Whenever a thread makes its next call, the call can
be made when only the cells of the nodes that the thread created are in memory: it does not read nor write a cell of another
thread.  With the other cells it does the same and leaves each of them as it was.  And no cell belongs to two threads. -/
theorem C76_own_cells_partial (calls : Nat → List Op) (hf : ∀ t, Forest.empty.Fits (calls t) = true) (order : List Nat) :
    ∃ h, Heap.empty.run (interleave order (fun t => .start (calls t)) 0).1 = some h ∧
      (∀ t th op todo, th = (interleave order (fun t => .start (calls t)) 0).2 t → th.todo = op :: todo →
        ∃ h', (h.keep th.owns).exec (op.as th.at_) = some h' ∧ h.exec (op.as th.at_) = some (h'.plus (h.rest th.owns)) ∧
          Apart h' (h.rest th.owns)) ∧
      ∀ t u th uh, t ≠ u → th = (interleave order (fun t => .start (calls t)) 0).2 t → uh = (interleave order (fun t => .start (calls t)) 0).2 u →
        (∀ n, th.owns n = true → uh.owns n = false) ∧ ∀ a, h.owns th.owns a = true → h.owns uh.owns a = false := by
  obtain ⟨fits, W⟩ := (world_start hf).interleave order
  obtain ⟨h, e, I⟩ := inv_run _ inv_empty fits
  refine ⟨h, e, ?_, ?_⟩
  · rintro t th op todo rfl ht
    have hn : Forest.empty.next = 0 := rfl
    rw [hn] at W I
    generalize hF : Forest.empty.run (interleave order (fun t => .start (calls t)) 0).1 = F at W I
    generalize hts : (interleave order (fun t => .start (calls t)) 0).2 = ts at W ht ⊢
    obtain ⟨h1, hr, I1⟩ := W.heap t
    have R := W.isIn t
    have hfit := W.todo t
    rw [ht] at hfit
    simp only [Forest.Fits, Bool.and_eq_true] at hfit
    have owns_iff : ∀ m, (ts t).owns m = true ↔ ∃ k, k < (ts t).alone.next ∧ (ts t).at_ k = m := by
      intro m
      simp only [Thread.owns, List.any_eq_true, List.mem_range, beq_iff_eq]
    have whole : F.Whole (ts t).owns := by
      intro n c hl hc
      rw [Bool.eq_iff_iff, owns_iff, owns_iff]
      constructor
      · rintro ⟨k, hk, rfl⟩
        obtain ⟨j, rfl, ej⟩ := (R.edge I1.2 hk).1 ⟨hl, hc⟩
        exact ⟨j, I1.2.bound _ (I1.2.closed _ _ ej), rfl⟩
      · rintro ⟨k, hk, rfl⟩
        obtain ⟨j, rfl, ej⟩ := (R.edge_to I1.2 hk).1 ⟨hl, hc⟩
        exact ⟨j, I1.2.bound _ ej.1, rfl⟩
    have Rk : In (ts t).at_ (ts t).alone (F.keep (ts t).owns) := by
      have ho : ∀ k, k < (ts t).alone.next → (ts t).owns ((ts t).at_ k) = true := fun k hk => (owns_iff _).2 ⟨k, hk, rfl⟩
      refine ⟨R.lt, R.inj, fun k hk => ?_, R.name, R.kids, fun m k hm hout hk => ?_⟩
      · rw [live_keep (ho k hk)]; exact R.live k hk
      · simp only [Forest.keep, Bool.and_eq_true] at hm
        obtain ⟨j, hj, e⟩ := (owns_iff m).1 hm.2
        exact absurd e (hout j hj)
    have S := same_step I1 (inv_keep I whole) Rk hfit.1
    obtain ⟨h', e', -⟩ := inv_exec (inv_keep I whole) S.fits
    obtain ⟨e1, A⟩ := fr_exec (apart_rest I (ts t).owns) _ h' e'
    rw [keep_plus_rest] at e1
    exact ⟨h', e', e1, A⟩
  · rintro t u th uh hne rfl rfl
    have hn : Forest.empty.next = 0 := rfl
    rw [hn] at W
    have hd : ∀ n, ((interleave order (fun t => .start (calls t)) 0).2 t).owns n = true → ((interleave order (fun t => .start (calls t)) 0).2 u).owns n = false := by
      intro n h1
      rw [Bool.eq_false_iff]
      intro h2
      simp only [Thread.owns, List.any_eq_true, List.mem_range, beq_iff_eq] at h1 h2
      obtain ⟨j, hj, rfl⟩ := h1
      obtain ⟨k, hk, e⟩ := h2
      exact hne (W.apart t u j k hj hk e.symm)
    refine ⟨hd, ?_⟩
    intro a
    unfold owns
    split
    · exact fun h => nomatch h
    · split
      · exact hd _
      · exact hd _
      · exact fun h => nomatch h

example : ((interleave order76 (fun t => .start (sample76 t)) 0).2 0).todo = sampleOps.drop 14 := by decide +kernel

end Axl.Heap
