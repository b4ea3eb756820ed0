/-
`axl_hash_items` and `axl_hash_capacity`.
-/
import Verif.Model.Hash

namespace Axl.AxlHash
variable {κ δ φ : Type}

/-- `axl_hash_items` (src/axl_hash.c:1323-1329). -/
def itemCount : Option (AxlHash κ δ φ) → Int
  | none => -1
  | some h => h.items

/-- `axl_hash_capacity` (src/axl_hash.c:1340-1345). -/
def capacity : Option (AxlHash κ δ φ) → Int
  | none => -1
  | some h => h.hashSize

end Axl.AxlHash
