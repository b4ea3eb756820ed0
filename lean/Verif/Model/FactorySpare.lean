/-
`axl_factory_spare_max` and `axl_factory_spare_next` (src/axl_factory.c:176-198).
-/
import Verif.Model.Factory

namespace Axl.Factory

/-- `axl_factory_spare_max` (src/axl_factory.c:176-181). -/
def askSpareMax : Option Factory → Int
  | none => -1
  | some f => f.spareMax

/-- `axl_factory_spare_next` (src/axl_factory.c:193-198). -/
def askSpareNext : Option Factory → Int
  | none => -1
  | some f => f.spareNext

end Axl.Factory
