/-
Trees without entity references as items.
-/
import Verif.Model.Doc

namespace Axl.Spec.Load

def NoRef : Leaf → Prop
  | .ref _ => False
  | _ => True

mutual
/-- No item of the tree is a reference (the parser makes none). -/
def NoRefs : Node → Prop
  | .mk _ _ items => NoRefsIn items
def NoRefsIn : Items → Prop
  | .nil => True
  | .leaf l next => NoRef l ∧ NoRefsIn next
  | .node n next => NoRefs n ∧ NoRefsIn next
end

end Axl.Spec.Load
