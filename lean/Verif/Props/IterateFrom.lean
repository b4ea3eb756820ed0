/-
C30: an iteration that starts from a node inside the document, `axl_doc_iterate_full_from` (src/axl_doc.c:3243-3257).
-/
import Verif.Props.Iterate

namespace Axl.Heap
open Spec.Tree Spec.Tree.Forest Spec.Iterate

/-- **C30**.  The function removes the node where the iteration starts, which is a child of another node: it is called
once, the node and what it contains are gone and the rest of the tree is as it was; the answer is false although the
function did not stop. -/
theorem C30_start_removed (ops : List Op) (hf : Forest.empty.Fits ops = true) (start : Nat)
    (hl : (Forest.empty.run ops).live start = true) (ha : (Forest.empty.run ops).attached start = true) (mode : IterMode)
    (act : Log → Act) (hs : act [(start, none)] = .remove) :
    ∃ h h', Heap.empty.run ops = some h ∧ h.iterate (func act) mode [] start = some ([(start, none)], h', false) ∧
      ∀ after, after = (Forest.empty.run ops).step (.removeNode start true) →
        (∀ n, after.live n = true → h'.Shows n (after.name n) (after.kids n)) ∧
        (∀ n, after.live n = false → h'.nodes n = none) := by
  obtain ⟨h, e, I⟩ := inv_run ops inv_empty hf
  obtain ⟨h', e1, I1⟩ := inv_removeNode I hl ha true
  refine ⟨h, h', e, by simp [iterate, func, hs, e1], ?_⟩
  rintro after rfl
  refine ⟨fun n hn => I1.shows hn, ?_⟩
  obtain ⟨⟨_, R⟩, _⟩ := I1
  exact R.dead

example : Forest.empty.Fits sampleOps = true ∧ (Forest.empty.run sampleOps).live 2 = true ∧
    (Forest.empty.run sampleOps).attached 2 = true := by decide

theorem runs_log {f : Forest} {act : Log → Act} {mode : IterMode} {ps log : Log} {r : Log × Bool} (H : Runs f act mode ps log r) :
    ∃ more, r.1 = log ++ more := by
  induction H with
  | nil => exact ⟨[], by simp⟩
  | stop _ => exact ⟨_, rfl⟩
  | remove _ _ ih => obtain ⟨m, e⟩ := ih; exact ⟨_, by rw [e, List.append_assoc]⟩
  | go _ _ ih => obtain ⟨m, e⟩ := ih; exact ⟨_, by rw [e, List.append_assoc]⟩

/-- **C30**: not of the code.  The function is described to get the parent of the node; for the node where the iteration
starts it always gets NULL, even if that node is a child of another. -/
theorem C30_start_parent (ops : List Op) (hf : Forest.empty.Fits ops = true) (start : Nat)
    (hl : (Forest.empty.run ops).live start = true) (mode : IterMode) (act : Log → Act)
    (hs : act [(start, none)] ≠ .remove) :
    ∃ h h' log answer, Heap.empty.run ops = some h ∧
      h.iterate (func act) mode [] start = some ((start, none) :: log, h', answer) := by
  obtain ⟨h, h', e, e1, -⟩ := C30_iterate ops hf start hl mode act hs
  obtain ⟨-, -, ⟨-, T⟩⟩ := inv_run ops inv_empty hf
  have hr := runs_visits (act := act) T hl mode
  obtain ⟨log, hlog⟩ : ∃ log, (visits (Forest.empty.run ops) act start mode).1 = (start, none) :: log := by
    generalize visits (Forest.empty.run ops) act start mode = r at hr
    cases hr with
    | stop _ => exact ⟨[], rfl⟩
    | remove _ h1 => exact runs_log h1
    | go _ h1 => exact runs_log h1
  rw [hlog] at e1
  exact ⟨h, h', log, _, e, e1⟩

/-- Such a node: its parent is another node, and the function gets NULL. -/
theorem C30_start_parent_case : ∃ h, Heap.empty.run sampleOps = some h ∧ h.getParent 5 = some (some 2) ∧
    (h.iterate (func fun _ => .go) .deep [] 5).map (fun r => (r.1, r.2.2)) = some ([(5, none)], true) :=
  ⟨_, rfl, by decide +kernel, by decide +kernel⟩

end Axl.Heap
