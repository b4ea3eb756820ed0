/-
Model of `axl_list_exists_at` (src/axl_list.c).
-/
import Verif.Model.List

namespace Axl.AxlList

/-- `axl_list_exists_at` (src/axl_list.c:1386-1396). -/
def existsAt {α : Type} (l : AxlList α) (x : α) (position : Int) : Option Bool := do
  match ← l.internalGetNth position with
  | none => some false
  | some n => let c ← l.mem n; some (l.areEqual c.data x == 0)

end Axl.AxlList
