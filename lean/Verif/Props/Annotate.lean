/-
C34: annotations of nodes.
-/
import Verif.Proofs.Annotate
import Verif.Props.Tree
import Verif.Model.Lit

namespace Axl.Notes
open Spec.Tree Spec.Tree.Forest Spec.Annotate Heap

/-- **C34.** For any tree built by a history of C24 and any history of annotations: what
axl_node_annotate_get returns is the datum last attached to the node under the key and, if asked to
look in the parents and there is none, the one of the nearest ancestor that has one; NULL if there is
none.  The topmost ancestor must be a node for which axl_node_get_parent gives NULL: see
`C34_old_parent`. -/
theorem C34_annotate_get_partial (ops : List Op) (hf : Forest.empty.Fits ops = true) (cs : List Call)
    (n : Nat) (hl : (Forest.empty.run ops).live n = true) (key : List Char) (ps : List Nat)
    (hp : Ancestors (Forest.empty.run ops) n ps) :
    ∃ h a, Heap.empty.run ops = some h ∧ Spec.Annotate.run (fun _ => none) cs = some a ∧
      a.get h n key false = some (lastOf cs n key) ∧
      (h.getParent ((n :: ps).getLast (by simp)) = some none →
        a.get h n key true = some ((n :: ps).findSome? fun m => lastOf cs m key)) := by
  obtain ⟨h, e, ⟨ns, R⟩, T⟩ := inv_run ops inv_empty hf
  obtain ⟨a, e2, A⟩ := after_run cs [] (a := fun _ => none) (fun n => rfl)
  rw [List.nil_append] at A
  exact ⟨h, a, e, e2, get_here_spec R A key hl, fun ht => get_spec R T A key hl hp ht⟩

def noteKey : List Char := c!"k"
/-- Data on the root, then on node 2, and other data on the root; NULL on node 5. -/
def sampleCalls : List Call :=
  [⟨0, noteKey, some (.int 1), none, some 0⟩, ⟨2, noteKey, some (.string c!"x"), none, some 0⟩,
   ⟨0, noteKey, some (.int 7), none, some 0⟩, ⟨5, noteKey, none, none, none⟩, ⟨1, c!"j", some (.pointer 3), none, some 1⟩]

example : Ancestors (Forest.empty.run sampleOps) 5 [2, 0] := by
  refine .up (by decide) (by decide) (.up (by decide) (by decide) (.top ?_))
  intro p hp
  by_cases h : p < 7
  · match p with
    | 0 | 1 | 2 | 3 | 4 | 5 | 6 => decide
    | _ + 7 => omega
  · obtain ⟨_, _, _, T⟩ := inv_run sampleOps inv_empty (by decide)
    exact (h (T.bound p hp)).elim
example : (Forest.empty.run sampleOps).live 5 = true := by decide
example : (Heap.empty.run sampleOps).bind (fun h => h.getParent 0) = some none := by decide +kernel
example : [5, 2, 0].findSome? (fun m => lastOf sampleCalls m noteKey) = some (.string c!"x") := by decide
example : [1, 0].findSome? (fun m => lastOf sampleCalls m noteKey) = some (.int 7) := by decide
example : [1, 0].findSome? (fun m => lastOf sampleCalls m c!"j") = some (.pointer 3) := by decide
example : [5, 2, 0].findSome? (fun m => lastOf sampleCalls m c!"z") = none := by decide

/-- **C34**, the functions with a type: what they return is the datum found, if it has the type
asked, and otherwise 0 or NULL (the datum must have been attached by one of the functions with a
type). -/
theorem C34_typed (h : Heap) (a : Notes) (n : Nat) (key : List Char) (up : Bool) (r : Option Note)
    (hg : a.get h n key up = some r) (ht : ∀ p, r ≠ some (.pointer p)) :
    a.getInt h n key up = some (match (generalizing := false) r with | some (.int v) => v | _ => 0) ∧
    a.getString h n key up = some (match (generalizing := false) r with | some (.string s) => some s | _ => none) ∧
    a.getDouble h n key up = some (match (generalizing := false) r with | some (.double v) => v | _ => 0) := by
  simp only [getInt, getString, getDouble, hg]
  rcases r with _ | ⟨p | v | s | d⟩
  · exact ⟨rfl, rfl, rfl⟩
  · exact (ht p rfl).elim
  · exact ⟨rfl, rfl, rfl⟩
  · exact ⟨rfl, rfl, rfl⟩
  · exact ⟨rfl, rfl, rfl⟩

/-- Attaching a value with a type and reading it back. -/
theorem C34_int (ops : List Op) (hf : Forest.empty.Fits ops = true) (cs : List Call) (n : Nat)
    (hl : (Forest.empty.run ops).live n = true) (key : List Char) (v : Int) (s : List Char) (d : Nat) (up : Bool) :
    ∃ h a ai as ad, Heap.empty.run ops = some h ∧ Spec.Annotate.run (fun _ => none) cs = some a ∧
      a.annotateInt n key v = some ai ∧ ai.getInt h n key up = some v ∧
      a.annotateString n key s = some as ∧ as.getString h n key up = some (some s) ∧
      a.annotateDouble n key d = some ad ∧ ad.getDouble h n key up = some d := by
  obtain ⟨h, e, ⟨ns, R⟩, T⟩ := inv_run ops inv_empty hf
  obtain ⟨a, e2, A⟩ := after_run cs [] (a := fun _ => none) (fun n => rfl)
  rw [List.nil_append] at A
  have hx : ∀ x : Note, ∃ a', a.annotate n key none (some x) (some 0) = some a' ∧ a'.get h n key up = some (some x) := by
    intro x
    obtain ⟨a', e1, A1⟩ := after_annotate A ⟨n, key, some x, none, some 0⟩
    refine ⟨a', e1, ?_⟩
    obtain ⟨hd, hn⟩ := R.nodes n hl
    have : lastOf (cs ++ [⟨n, key, some x, none, some 0⟩]) n key = some x := by simp [lastOf]
    simp only [get, hn, getHere_spec A1, this]
  obtain ⟨ai, i1, i2⟩ := hx (.int v)
  obtain ⟨as, s1, s2⟩ := hx (.string s)
  obtain ⟨ad, d1, d2⟩ := hx (.double d)
  exact ⟨h, a, ai, as, ad, e, e2, i1, by simp [getInt, i2], s1, by simp [getString, s2], d1, by simp [getDouble, d2]⟩

example : Forest.empty.Fits sampleOps = true ∧ (Forest.empty.run sampleOps).live 5 = true := by decide

/-- A node taken out of its parent still finds the annotations of that parent, although it has no
ancestor; and if the old parent is freed, it is read after having been freed. -/
theorem C34_old_parent :
    (let ops := [.create c!"a", .create c!"b", .setChild 0 (.node 1), .removeNode 1 false]
     Forest.empty.Fits ops = true ∧ (Forest.empty.run ops).kids 0 = [] ∧
     (Heap.empty.run ops).bind (fun h => (Spec.Annotate.run (fun _ => none) [⟨0, noteKey, some (.int 1), none, none⟩]).bind
        fun a => a.get h 1 noteKey true) = some (some (.int 1))) ∧
    (let ops := [.create c!"a", .create c!"b", .setChild 0 (.node 1), .removeNode 1 false, .free 0]
     Forest.empty.Fits ops = true ∧ (Forest.empty.run ops).live 1 = true ∧
     (Heap.empty.run ops).bind (fun h => Notes.get h (fun _ => none) 1 noteKey true) = none ∧
     (Heap.empty.run ops).isSome = true) := by
  refine ⟨⟨by decide, by decide, by decide +kernel⟩, by decide, by decide, by decide +kernel, by decide +kernel⟩

end Axl.Notes
