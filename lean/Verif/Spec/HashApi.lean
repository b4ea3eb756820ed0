/-
How the operations of `Verif.Spec.Hash` are issued to the modelled API, and how answers are read.
-/
import Verif.Model.Hash
import Verif.Spec.Hash

namespace Axl
open Spec.Map
namespace AxlHash
variable {κ δ φ : Type}

/-- The API call for each operation. -/
def exec (h : AxlHash κ δ φ) : Op κ δ φ → Option (AxlHash κ δ φ)
  | .insert e => h.insertFull e.key e.keyDestroy e.data e.dataDestroy
  | .remove k => (h.remove k).map (·.2)
  | .delete k => (h.delete k).map (·.2)
  | .removeDeferred k => (h.removeDeferred k).map (·.2.2)

/-- A sequence of API calls, oldest first. -/
def run (h : AxlHash κ δ φ) : List (Op κ δ φ) → Option (AxlHash κ δ φ)
  | [] => some h
  | op :: ops => do let h ← h.exec op; h.run ops

/-- The destroy calls on keys that are not NULL. -/
def keyCalls [NullKey κ] (l : List (DestroyCall κ δ φ)) : List (φ × κ) :=
  l.filterMap fun | .key f k => if NullKey.isNull k then none else some (f, k) | _ => none

/-- The destroy calls on data that is not NULL. -/
def dataCalls (l : List (DestroyCall κ δ φ)) : List (φ × δ) :=
  l.filterMap fun | .data f (some d) => some (f, d) | _ => none

end AxlHash

namespace HashCursor
variable {κ δ φ : Type}

/-- Reading the hash with `axl_hash_cursor_next` while `has_item` gives exactly these pairs;
`has_next` announces each further pair. -/
inductive Reads : HashCursor κ δ φ → List (Option κ × Option δ) → Prop
  | done {c : HashCursor κ δ φ} : c.hasItem = false → Reads c []
  | item {c c' : HashCursor κ δ φ} {ps : List (Option κ × Option δ)} :
      c.hasItem = true → c.hasNext = some (!ps.isEmpty) → c.next = some c' → Reads c' ps →
      Reads c ((c.getKey, c.getValue) :: ps)

/-- `while (has_item) remove`: the hash left at the end. -/
inductive RemovesAll : HashCursor κ δ φ → AxlHash κ δ φ → Prop
  | done {c : HashCursor κ δ φ} : c.hasItem = false → RemovesAll c c.hash
  | item {c c' : HashCursor κ δ φ} {h : AxlHash κ δ φ} :
      c.hasItem = true → c.remove = some c' → RemovesAll c' h → RemovesAll c h

end HashCursor
end Axl
