/-
C31: finding a node by its path.
-/
import Verif.Proofs.Path
import Verif.Props.Tree

namespace Axl.Heap
open Spec.Tree Spec.Tree.Forest Spec.Path

/-- **C31.** In any tree built by a history of C24, with any node as the root of the document, the
path `/r/p/q/…` gives the node reached from the root by taking the first child called `p`, then its
first child called `q`, and so on, and NULL exactly when there is none on that chain or the root is
not called `r`.  An empty `r` stands for any root, so that the path `/` gives the root and `//p` a
child of it.  The other names are not empty, contain no slash and are not `*`. -/
theorem C31_get (ops : List Op) (hf : Forest.empty.Fits ops = true) (root : Nat)
    (hl : (Forest.empty.run ops).live root = true) (r : List Char) (ps : List (List Char)) (hr : '/' ∉ r)
    (hps : ∀ p ∈ ps, p ≠ [] ∧ '/' ∉ p ∧ p ≠ ['*']) :
    ∃ h, Heap.empty.run ops = some h ∧ h.docGet (some root) (path (r :: ps)) =
      some (if r = [] ∨ (Forest.empty.run ops).name root = r then follow (Forest.empty.run ops) root ps else none) := by
  obtain ⟨h, e, ⟨ns, R⟩, T⟩ := inv_run ops inv_empty hf
  exact ⟨h, e, docGet_spec R T hl r ps hr hps⟩

/-- A tree with two children of the same name; only the second has a child `d`. -/
def pathOps : List Op :=
  [.create ['r'], .create ['a'], .create ['b'], .create ['a'], .create ['c'], .create ['d'], .setChild 0 (.node 2),
   .setChild 0 (.text .content ['x']), .setChild 0 (.node 1), .setChild 0 (.node 3), .setChild 1 (.node 4),
   .setChild 3 (.node 5)]

example : Forest.empty.Fits pathOps = true ∧ (Forest.empty.run pathOps).live 0 = true ∧
    follow (Forest.empty.run pathOps) 0 [['a'], ['c']] = some 4 ∧
    follow (Forest.empty.run pathOps) 0 [['a'], ['d']] = none ∧
    path [['r'], ['a'], ['c']] = ['/', 'r', '/', 'a', '/', 'c'] := by decide

/-- A path that does not start with a slash gives NULL. -/
theorem C31_no_slash (h : Heap) (root : Option Nat) (s : List Char) (hs : s.head? ≠ some '/') :
    h.docGet root s = some none := by
  have : h.docGetList root s = some none := by
    unfold docGetList
    split
    · simp at hs
    · rfl
  simp [docGet, this]

example : (c!"r/a" : List Char).head? ≠ some '/' := by decide

/-- An empty name after the first ends the search: `/r/a//c` gives the node of `/r/a`. -/
theorem C31_empty_name :
    ∃ h, Heap.empty.run pathOps = some h ∧ h.docGet (some 0) c!"/r/a//c" = some (some 1) ∧
      h.docGet (some 0) c!"/r/a/" = some (some 1) :=
  ⟨_, rfl, by decide +kernel, by decide +kernel⟩

/-- `*` is described as all the children, but it is taken as a name: `/r/*` gives NULL for a root
that has children, and finds a child only if it is called `*`. -/
theorem C31_star_is_a_name :
    (∃ h, Heap.empty.run pathOps = some h ∧ h.docGet (some 0) c!"/r/*" = some none ∧ h.haveChilds 0 = some true) ∧
    (∃ h, Heap.empty.run [.create ['r'], .create ['*'], .setChild 0 (.node 1)] = some h ∧
      h.docGet (some 0) c!"/r/*" = some (some 1)) :=
  ⟨⟨_, rfl, by decide +kernel, by decide +kernel⟩, ⟨_, rfl, by decide +kernel⟩⟩

/-- A `*` before the end gives NULL even if there is a child called so. -/
theorem C31_star_inside :
    ∃ h, Heap.empty.run [.create ['r'], .create ['*'], .create ['a'], .setChild 0 (.node 1), .setChild 1 (.node 2)] =
        some h ∧ h.docGet (some 0) c!"/r/*/a" = some none :=
  ⟨_, rfl, by decide +kernel⟩

end Axl.Heap
