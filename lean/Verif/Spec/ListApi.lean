/-
How the abstract operations of `Verif.Spec.List` are issued to the modelled API, and what it means
that the API answers as a given sequence.
-/
import Verif.Model.List
import Verif.Spec.List

namespace Axl
open Spec.Seq
namespace AxlList
variable {α : Type}

/-- The API call for each abstract operation. -/
def exec (l : AxlList α) : Op α → Option (AxlList α)
  | .add x => l.add x
  | .append x => l.append x
  | .prepend x => l.prepend x
  | .addAt x p => l.addAt x p
  | .takeFirst d => l.removeFirst d
  | .takeLast d => l.removeLast d
  | .takeAt p d => l.removeAt p d
  | .take x d => l.remove x d

/-- A sequence of API calls; `none` as soon as one has undefined behaviour or does not return. -/
def run (l : AxlList α) : List (Op α) → Option (AxlList α)
  | [] => some l
  | op :: ops => do let l ← l.exec op; l.run ops

/-- Reading the list with a cursor and `axl_list_cursor_next` gives exactly these elements. -/
inductive ReadsForward : Cursor α → List α → Prop
  | done {c : Cursor α} : c.hasItem = false → ReadsForward c []
  | item {c c' : Cursor α} {x : α} {xs : List α} : c.hasItem = true → c.get = some (some x) →
      c.next = some c' → ReadsForward c' xs → ReadsForward c (x :: xs)

/-- Reading the list with a cursor and `axl_list_cursor_previous`. -/
inductive ReadsBackward : Cursor α → List α → Prop
  | done {c : Cursor α} : c.hasItem = false → ReadsBackward c []
  | item {c c' : Cursor α} {x : α} {xs : List α} : c.hasItem = true → c.get = some (some x) →
      c.previous = some c' → ReadsBackward c' xs → ReadsBackward c (x :: xs)

/-- Everything the reading API answers is what it should be for the sequence `xs`. -/
structure Observes (l : AxlList α) (xs : List α) : Prop where
  length : l.length = xs.length
  isEmpty : l.isEmpty = xs.isEmpty
  first : l.getFirst = some xs.head?
  last : l.getLast = some xs.getLast?
  nth : ∀ k : Nat, l.getNth k = some xs[k]?
  nthNeg : ∀ k : Int, k < 0 → l.getNth k = some none
  lookup : ∀ f : α → Bool, l.lookup f = some (xs.find? f)
  forward : ReadsForward (cursorNew l) xs
  backward : ReadsBackward (cursorNew l).toLast xs.reverse

end AxlList
end Axl
