/-
How the operations of `Verif.Spec.Hash` are issued to the table with its nodes in memory, and how answers are read.  `n`: how
many steps a walk may take.
-/
import Verif.Model.HashMem
import Verif.Spec.Hash

namespace Axl
open Spec.Map
variable {κ δ φ : Type}

namespace MHash

/-- The API call for each operation. -/
def exec (n : Nat) (m : MHash κ δ φ) : Op κ δ φ → Option (MHash κ δ φ)
  | .insert e => m.insertFull n e.key e.keyDestroy e.data e.dataDestroy
  | .remove k => (m.remove n k).map (·.2)
  | .delete k => (m.delete n k).map (·.2)
  | .removeDeferred k => (m.removeDeferred n k).map (·.2.2)

/-- A sequence of API calls, oldest first. -/
def run (n : Nat) (m : MHash κ δ φ) : List (Op κ δ φ) → Option (MHash κ δ φ)
  | [] => some m
  | op :: ops => do let m ← m.exec n op; m.run n ops

/-- The pair in a piece, if there is a node in use there. -/
def pairAt (m : MHash κ δ φ) (p : Piece) : Option (Entry κ δ φ) :=
  (m.mem p).map fun c => ⟨c.node.key, c.node.keyDestroy, c.node.data, c.node.dataDestroy⟩

end MHash

namespace MCursor

/-- Reading the hash with `axl_hash_cursor_next` while `has_item` gives exactly these pairs; `has_next` announces each further
pair; nothing that is read is undefined. -/
inductive Reads : MCursor κ δ φ → List (Option κ × Option δ) → Prop
  | done {c : MCursor κ δ φ} : c.hasItem = false → Reads c []
  | item {c c' : MCursor κ δ φ} {k : Option κ} {v : Option δ} {ps : List (Option κ × Option δ)} :
      c.hasItem = true → c.getKey = some k → c.getValue = some v → c.hasNext = some (!ps.isEmpty) → c.next = some c' →
      Reads c' ps → Reads c ((k, v) :: ps)

/-- `while (has_item) remove`: the hash left at the end. -/
inductive RemovesAll (n : Nat) : MCursor κ δ φ → MHash κ δ φ → Prop
  | done {c : MCursor κ δ φ} : c.hasItem = false → RemovesAll n c c.hash
  | item {c c' : MCursor κ δ φ} {m : MHash κ δ φ} :
      c.hasItem = true → c.remove n = some c' → RemovesAll n c' m → RemovesAll n c m

end MCursor
end Axl
