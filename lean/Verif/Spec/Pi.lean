/-
Looking up processing instructions.
-/
import Verif.Model.Doc

namespace Axl.Spec.Pi

/-- Among the instructions `ps`, in order, the first with the target. -/
def first (ps : List PI) (target : List Char) : Option PI := ps.find? fun p => p.name = target

/-- The instructions among the items of a node, in order. -/
def among : Items → List PI
  | .nil => []
  | .leaf (.pi p) next => p :: among next
  | .leaf _ next => among next
  | .node _ next => among next

end Axl.Spec.Pi
