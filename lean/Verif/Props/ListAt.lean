/-
Property C03: looking for an element at a position.
-/
import Verif.Model.ListAt
import Verif.Props.List

namespace Axl.AxlList
open Spec.Seq
variable {α : Type}

theorem existsAt_getNth (l : AxlList α) (x : α) (position : Int) :
    l.existsAt x position = (l.getNth position).map fun o => o.any fun y => l.areEqual y x == 0 := by
  unfold existsAt getNth
  cases l.internalGetNth position with
  | none => rfl
  | some r =>
    cases r with
    | none => rfl
    | some n =>
      simp only [Option.bind_eq_bind, Option.bind_some]
      cases l.mem n <;> rfl

/-- **C03** (position).  axl_list_exists_at answers whether there is an element at the position and it compares equal to the one asked
for, for every history, comparison and position (also negative). -/
theorem C03_exists_at (eq : α → α → Int) (d : Bool) (ops : List (Op α)) (x : α) :
    ∃ l xs, (new eq d).run ops = some l ∧ Observes l xs ∧ ∀ position : Int,
      l.existsAt x position = some (decide (0 ≤ position) && match xs[position.toNat]? with | some y => eq y x == 0 | none => false) := by
  obtain ⟨l, s, h1, h2, h3⟩ := run_spec ops (agrees_new eq d)
  obtain ⟨ns, h4, h5⟩ := h3.rep
  refine ⟨l, s.elems, h1, h5 ▸ observes_of_rep h4, fun position => ?_⟩
  rw [existsAt_getNth, getNth_spec h4, h3.areEqual, ← h5]
  by_cases h0 : position < 0
  · have : ¬ 0 ≤ position := by omega
    simp [h0, this]
  · have : 0 ≤ position := by omega
    simp only [h0, if_false, this, decide_true, Bool.true_and, Option.map_some]
    cases s.elems[position.toNat]? <;> rfl

example : (((new equalInt true).run [.append 5, .append 7]).bind fun l => l.existsAt 7 1) = some true ∧
    (((new equalInt true).run [.append 5, .append 7]).bind fun l => l.existsAt 7 0) = some false ∧
    (((new equalInt true).run [.append 5, .append 7]).bind fun l => l.existsAt 7 (-1)) = some false := by decide

end Axl.AxlList
