/-
The most pairs that a map has had at a time.  Nothing here refers to the model.
-/
import Verif.Spec.Hash

namespace Axl.Spec.Map
variable {κ δ φ : Type}

/-- `p` is the largest number of pairs that were present at some time of a history (newest operation first; the times are
what was left of it, from nothing to all of it). -/
structure Peak (eq : κ → κ → Bool) (past : List (Op κ δ φ)) (p : Nat) : Prop where
  bound : ∀ then_, then_ <:+ past → ∀ es, Lists eq then_ es → es.length ≤ p
  met   : ∃ then_, then_ <:+ past ∧ ∃ es, Lists eq then_ es ∧ es.length = p

/-- Something was inserted. -/
def Used (past : List (Op κ δ φ)) : Prop := ∃ e, Op.insert e ∈ past

end Axl.Spec.Map
