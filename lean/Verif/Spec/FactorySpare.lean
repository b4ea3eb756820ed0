/-
What a factory keeps, from the requests and give-backs that were made.
-/
import Verif.Proofs.Factory

namespace Axl.Factory

/-- The books of a factory: the pieces in use, the pieces kept, and whether one was ever given back. -/
structure Books where
  inUse : Nat
  kept : Nat
  given : Bool
deriving DecidableEq, Repr

/-- A request takes a kept piece if there is one; a piece in use that is given back is kept. -/
def Books.after (b : Books) : Op → Books
  | .get => ⟨b.inUse + 1, b.kept - 1, b.given⟩
  | .giveBack i => if i < b.inUse then ⟨b.inUse - 1, b.kept + 1, true⟩ else b

/-- The books after a history. -/
def books (ops : List Op) : Books := ops.foldl Books.after ⟨0, 0, false⟩

end Axl.Factory
