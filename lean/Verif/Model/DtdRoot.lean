/-
`axl_dtd_get_root` (src/axl_dtd.c:3502-3512): the root chosen by `__axl_dtd_get_new_root`, see
`Verif.Model.DtdParse`.
-/
import Verif.Model.DtdParse

namespace Axl.Dtd

/-- `axl_dtd_get_root` (src/axl_dtd.c:3502-3512); NULL is `none`. -/
def getRoot (dtd : Option Dtd) : Option Element :=
  match dtd with
  | none => none
  | some d =>
    match d.root with
    | none => none
    | some e => some e

end Axl.Dtd
