/-
The tree, as a value with its attributes and texts, that a node of a collection of nodes stands for.
-/
import Verif.Spec.Tree
import Verif.Model.TreeDump

namespace Axl.Spec.Tree

mutual
/-- The node `n` and what is below it are this tree: the same name, the attributes of the node, and the children in order. -/
inductive IsTree (f : Forest) (x : Extra) : Nat → Node → Prop where
  | mk {n : Nat} {items : Items} : f.live n = true → IsItems f x (f.kids n) items → IsTree f x n (.mk (f.name n) (x.attrs n) items)
inductive IsItems (f : Forest) (x : Extra) : List Child → Items → Prop where
  | nil : IsItems f x [] .nil
  | text {k : TextKind} {s : List Char} {l : List Child} {items : Items} :
      IsItems f x l items → IsItems f x (.text k s :: l) (.leaf (x.leaf k s) items)
  | node {n : Nat} {t : Node} {l : List Child} {items : Items} :
      IsTree f x n t → IsItems f x l items → IsItems f x (.node n :: l) (.node t items)
end

end Axl.Spec.Tree
