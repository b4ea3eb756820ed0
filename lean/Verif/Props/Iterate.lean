/-
C30: visiting the nodes of a document.
-/
import Verif.Proofs.IterateLoop
import Verif.Props.Tree

namespace Axl.Heap
open Spec.Tree Spec.Tree.Forest Spec.Iterate

/-- **C30.** For any tree built by a history of C24 and any user function that, at each call, goes
on, stops or removes the node it was given (and does not remove the root): the calls made, with the
nodes and their parents, and the answer of axl_doc_iterate are those of the specification, in both
modes; nothing undefined is done; and the tree left is the one given with the removed nodes taken
out. -/
theorem C30_iterate (ops : List Op) (hf : Forest.empty.Fits ops = true) (root : Nat)
    (hl : (Forest.empty.run ops).live root = true) (mode : IterMode) (act : Log → Act)
    (hroot : act [(root, none)] ≠ .remove) :
    ∃ h h', Heap.empty.run ops = some h ∧
      h.iterate (func act) mode [] root = some ((visits (Forest.empty.run ops) act root mode).1, h',
        (visits (Forest.empty.run ops) act root mode).2) ∧
      ∀ after, after = (Forest.empty.run ops).run
          ((removed act (visits (Forest.empty.run ops) act root mode).1).map fun n => .removeNode n true) →
        (∀ n, after.live n = true → h'.Shows n (after.name n) (after.kids n)) ∧
        (∀ n, after.live n = false → h'.nodes n = none) := by
  obtain ⟨h, e, I⟩ := inv_run ops inv_empty hf
  obtain ⟨h', e1, _, I1⟩ := iterate_spec (act := act) I hl mode hroot
  refine ⟨h, h', e, e1, ?_⟩
  rintro after rfl
  refine ⟨fun n hn => I1.shows hn, ?_⟩
  obtain ⟨⟨_, R⟩, _⟩ := I1
  exact R.dead

/-- A user function for the examples: it removes node 4 and stops at the fourth call. -/
def sampleAct (log : Log) : Act :=
  if log.getLast?.map (·.1) = some 4 then .remove else if log.length = 4 then .stop else .go

example : (Forest.empty.run sampleOps).live 0 = true ∧ sampleAct [(0, none)] ≠ .remove := by decide
example : visits (Forest.empty.run sampleOps) sampleAct 0 .deep =
    ([(0, none), (1, some 0), (4, some 0), (2, some 0)], false) := by decide
example : (Forest.empty.run sampleOps).kids 2 = [.node 5] := by decide
example : removed sampleAct (visits (Forest.empty.run sampleOps) sampleAct 0 .deep).1 = [4] := by decide

/-- **C30.** When the function always goes on, the answer is true, and in DEEP mode the nodes are
visited in the order of the document; every node of the tree is visited once, and nothing else;
every node but the root is given with its parent. -/
theorem C30_deep_order (ops : List Op) (hf : Forest.empty.Fits ops = true) (root : Nat)
    (hl : (Forest.empty.run ops).live root = true) :
    ∃ log, visits (Forest.empty.run ops) (fun _ => .go) root .deep = (log, true) ∧
      log.map (·.1) = (Forest.empty.run ops).subtree (Forest.empty.run ops).next root ∧
      (log.map (·.1)).Nodup ∧ (∀ m, m ∈ log.map (·.1) ↔ (Forest.empty.run ops).below root m = true) ∧
      (∀ x ∈ log, x = (root, none) ∨ ∃ q, x.2 = some q ∧ x.1 ∈ childs (Forest.empty.run ops) q) := by
  obtain ⟨h, e, I⟩ := inv_run ops inv_empty hf
  obtain ⟨⟨ns, R⟩, T⟩ := I
  obtain ⟨l, e, m, q⟩ := deep_all (f := Forest.empty.run ops) (Forest.empty.run ops).next none root []
  refine ⟨l, by simpa [visits] using e, m, ?_, ?_, q⟩
  · rw [m]; exact subtree_nodup T R.single (fun n hn => R.nodup_kids hn) hl
  · intro m'; rw [m]; simp [below]

example : (Forest.empty.run sampleOps).subtree (Forest.empty.run sampleOps).next 0 = [0, 1, 4, 2, 5] := by decide

/-- **C30.** The same in WIDE mode: level by level, each level from left to right. -/
theorem C30_wide_order (ops : List Op) (hf : Forest.empty.Fits ops = true) (root : Nat)
    (hl : (Forest.empty.run ops).live root = true) :
    ∃ log, visits (Forest.empty.run ops) (fun _ => .go) root .wide = (log, true) ∧
      log.map (·.1) = (List.range (Forest.empty.run ops).next).flatMap
        (fun d => generation (Forest.empty.run ops) d [root]) ∧
      (log.map (·.1)).Nodup ∧ (∀ m, m ∈ log.map (·.1) ↔ (Forest.empty.run ops).below root m = true) ∧
      (∀ x ∈ log, x = (root, none) ∨ ∃ q, x.2 = some q ∧ x.1 ∈ childs (Forest.empty.run ops) q) := by
  obtain ⟨h, e, I⟩ := inv_run ops inv_empty hf
  obtain ⟨⟨ns, R⟩, T⟩ := I
  obtain ⟨l, e, m, q⟩ := wide_all (f := Forest.empty.run ops) (Forest.empty.run ops).next [(root, none)] []
  have hp : (l.map (·.1)).Perm ((Forest.empty.run ops).subtree (Forest.empty.run ops).next root) := by
    rw [m]
    simpa using generations_perm (f := Forest.empty.run ops) (Forest.empty.run ops).next [root]
  refine ⟨l, by simpa [visits] using e, by simpa using m, ?_, ?_, by simpa using q⟩
  · exact hp.nodup_iff.mpr (subtree_nodup T R.single (fun n hn => R.nodup_kids hn) hl)
  · intro m'; rw [hp.mem_iff]; simp [below]

/-- A tree for which the two orders differ. -/
def twoLevels : List Op :=
  [.create ['r'], .create ['a'], .create ['b'], .create ['c'], .setChild 0 (.node 1), .setChild 0 (.node 2),
   .setChild 1 (.node 3)]

example : Forest.empty.Fits twoLevels = true ∧
    (visits (Forest.empty.run twoLevels) (fun _ => .go) 0 .deep).1.map (·.1) = [0, 1, 3, 2] ∧
    (visits (Forest.empty.run twoLevels) (fun _ => .go) 0 .wide).1.map (·.1) = [0, 1, 2, 3] := by decide

/-- **C30.** A function that never removes and stops at some call: the calls made are the first
ones of the complete visit, up to that call; the answer is false then, and true if it never
stops. -/
theorem C30_stops (ops : List Op) (hf : Forest.empty.Fits ops = true) (root : Nat)
    (hl : (Forest.empty.run ops).live root = true) (mode : IterMode) (act : Log → Act)
    (hn : ∀ l, act l ≠ .remove) (r : Log × Bool) (hr : r = visits (Forest.empty.run ops) act root mode) :
    r.1 <+: (visits (Forest.empty.run ops) (fun _ => .go) root mode).1 ∧
    (r.2 = true → r.1 = (visits (Forest.empty.run ops) (fun _ => .go) root mode).1) ∧
    (r.2 = false → act r.1 = .stop) ∧
    (∀ l, l <+: r.1 → l ≠ [] → (l ≠ r.1 ∨ r.2 = true) → act l = .go) := by
  obtain ⟨h, e, ⟨_, T⟩⟩ := inv_run ops inv_empty hf
  subst hr
  obtain ⟨h1, h2, h3⟩ := runs_prefix (runs_visits T hl mode) hn (runs_visits T hl mode)
  exact ⟨h1, h2, h3, fun l hl1 hl2 => runs_goes (runs_visits T hl mode) hn l hl1 (List.length_pos_iff.mpr hl2)⟩

example : visits (Forest.empty.run twoLevels) (fun l => if l.length = 3 then .stop else .go) 0 .deep =
    ([(0, none), (1, some 0), (3, some 1)], false) := by decide

end Axl.Heap
