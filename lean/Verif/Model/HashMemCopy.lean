/-
Model of the copies of a table (src/axl_hash.c:1135-1312) and of the cursor at the last item (src/axl_hash.c:1568-1593) with
the nodes in memory.  Simplifications as in `Verif.Model.HashMem`.  The copy is a table with its own factory and its own memory.
-/
import Verif.Model.HashMem

namespace Axl
variable {κ δ φ : Type}
namespace MHash

/-- `__axl_hash_copy_foreach` (src/axl_hash.c:1138-1176): the walk for the node of the key, and the insertion of its copy in the
result.  A walk that finds nothing leaves NULL, which is followed. -/
def copyItem (n : Nat) (m : MHash κ δ φ) (keyCopy : HashNode κ δ φ → κ) (dataCopy : HashNode κ δ φ → Option δ)
    (result : MHash κ δ φ) (k : κ) : Option (MHash κ δ φ) := do
  let i ← m.pos k
  let p ← m.table[i]?
  let p ← p
  let node ← m.lookupFrom k n p
  let node ← node
  let c ← m.mem node
  result.insertFull n (keyCopy c.node) c.node.keyDestroy (dataCopy c.node) c.node.dataDestroy

/-- Calling `__axl_hash_copy_foreach` for each key visited. -/
def copyItems (n : Nat) (m : MHash κ δ φ) (keyCopy : HashNode κ δ φ → κ) (dataCopy : HashNode κ δ φ → Option δ) :
    MHash κ δ φ → List κ → Option (MHash κ δ φ)
  | result, [] => some result
  | result, k :: ks => do
    let result ← m.copyItem n keyCopy dataCopy result k
    copyItems n m keyCopy dataCopy result ks

/-- The inner loop that puts the destroy functions (src/axl_hash.c:1221-1232), from a node. -/
def destroyFrom (kd dd : Option φ) : Nat → MHash κ δ φ → Piece → Option (MHash κ δ φ)
  | 0, _, _ => none
  | n + 1, m, p => do
    let c ← m.mem p
    let m := m.write p (some { c with node := { c.node with keyDestroy := kd, dataDestroy := dd } })
    match c.next with
    | none => some m
    | some q => destroyFrom kd dd n m q

/-- The outer loop that puts the destroy functions (src/axl_hash.c:1216-1237), on the slots left. -/
def destroyTable (n : Nat) (kd dd : Option φ) : MHash κ δ φ → List (Option Piece) → Option (MHash κ δ φ)
  | m, [] => some m
  | m, none :: ts => destroyTable n kd dd m ts
  | m, some p :: ts => do
    let m ← destroyFrom kd dd n m p
    destroyTable n kd dd m ts

/-- `axl_hash_copy` and `axl_hash_copy_full` (src/axl_hash.c:1178-1312).  `replace = some (kd, dd)`: the full variant.  The
function that copies a pair does not stop the iteration nor touches the source, so that the keys visited are taken first. -/
def copyCommon (n : Nat) (m : MHash κ δ φ) (keyCopy : HashNode κ δ φ → κ) (dataCopy : HashNode κ δ φ → Option δ)
    (replace : Option (Option φ × Option φ)) (junk : Piece → Option Piece) : Option (MHash κ δ φ) := do
  let result ← newFull m.hash m.equal m.items junk
  let result := { result with step := m.step }
  if m.hashSize = 0 then some result
  else do
    let visited ← m.foreach n fun _ _ => false
    let result ← m.copyItems n keyCopy dataCopy result (visited.map (·.1))
    match replace with
    | none => some result
    | some (kd, dd) => destroyTable n kd dd result (result.table.take result.hashSize)

end MHash

namespace MCursor

/-- The backward search of `__axl_hash_cursor_init` (src/axl_hash.c:1572-1588), from an index. -/
def searchLast (n : Nat) (c : MCursor κ δ φ) : Nat → Option (Option Piece × Nat)
  | 0 => some (none, 0)
  | i + 1 => do
    let p ← c.hash.table[i + 1]?
    match p with
    | some p => do
      let a ← c.hash.lastOf n p
      some (some a, i + 1)
    | none => searchLast n c i

/-- `axl_hash_cursor_last` (src/axl_hash.c:1568-1593, 1703-1712); the index of a table with no slots is -1, and the loop is not
entered. -/
def last (n : Nat) (c : MCursor κ δ φ) : Option (MCursor κ δ φ) := do
  let (p, i) ← c.searchLast n (c.hash.hashSize - 1)
  some { c with node := p, index := i }

end MCursor
end Axl
