/-
What is destroyed with a stream, from the calls that were made on it.
-/
import Verif.Model.StreamLink

namespace Axl.Spec.Link
variable {α φ : Type}

/-- The element linked by a call, its function, and whether it is kept when the stream is unlinked. -/
def linkedBy : Axl.Link.Call α φ → Option (φ × α × Bool)
  | .link (some e) (some f) => some (f, e, false)
  | .linkFull (some e) (some f) b => some (f, e, b)
  | _ => none

/-- The call at a place links an element that has to be destroyed: it is kept, or nothing was unlinked later. -/
def Pending (cs : List (Axl.Link.Call α φ)) (i : Nat) (x : φ × α) : Prop :=
  ∃ c kept, cs[i]? = some c ∧ linkedBy c = some (x.1, x.2, kept) ∧ (kept = true ∨ ∀ j : Nat, i < j → cs[j]? ≠ some .unlink)

/-- `out` has the elements to destroy, each with its function: one for each call that links one, in the order of the calls. -/
def Destroyed (cs : List (Axl.Link.Call α φ)) (out : List (φ × α)) : Prop :=
  ∃ places : List Nat, places.Pairwise (· < ·) ∧ (∀ i, i ∈ places ↔ ∃ x, Pending cs i x) ∧ places.length = out.length ∧
    ∀ (k i : Nat) (x : φ × α), places[k]? = some i → out[k]? = some x → Pending cs i x

end Axl.Spec.Link
