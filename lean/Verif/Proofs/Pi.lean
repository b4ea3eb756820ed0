/-
Proofs about `Verif.Model.Pi`.
-/
import Verif.Model.Pi
import Verif.Spec.Pi
import Verif.Proofs.ListRun
import Verif.Proofs.ListOrder
import Verif.Proofs.Attr

namespace Axl
open Str Spec.Pi

/-- A list made with `axl_list_always_return_1` and a destroy function, that holds `xs`. -/
def HoldsPi (l : AxlList PI) (xs : List PI) : Prop :=
  ∃ s : Spec.Seq.State PI, AxlList.Agrees AxlList.alwaysReturn1 true l s ∧ s.elems = xs

theorem holdsPi_new : HoldsPi newPiTargets [] := ⟨_, AxlList.agrees_new _ _, rfl⟩

theorem HoldsPi.observes {l : AxlList PI} {xs : List PI} (H : HoldsPi l xs) : AxlList.Observes l xs := by
  obtain ⟨s, A, rfl⟩ := H
  obtain ⟨ns, h1, h2⟩ := A.rep
  exact h2 ▸ AxlList.observes_of_rep h1

theorem HoldsPi.add {l : AxlList PI} {xs : List PI} (H : HoldsPi l xs) (x : PI) :
    ∃ l', l.add x = some l' ∧ HoldsPi l' (xs ++ [x]) := by
  obtain ⟨s, A, hs⟩ := H
  obtain ⟨l', s', h1, h2, h3⟩ := AxlList.exec_spec A (.add x)
  refine ⟨l', h1, s', h3, ?_⟩
  rw [← hs]
  exact AxlList.steps_adds_append (eq := AxlList.alwaysReturn1) [x] (by
    rw [List.pairwise_iff_forall_sublist]; intros; rfl) (.cons h2 (.nil _))

theorem docFindPi_spec {l : AxlList PI} {xs : List PI} (H : HoldsPi l xs) (target : List Char) :
    ∀ n i, i + n = xs.length → docFindPi l target n i = some (first (xs.drop i) target)
  | 0, i, h => by
    rw [List.drop_eq_nil_of_le (by omega)]; rfl
  | n + 1, i, h => by
    have hi : i < xs.length := by omega
    rw [List.drop_eq_getElem_cons hi]
    simp only [docFindPi, H.observes.nth i, List.getElem?_eq_getElem hi, Attrs.cmp_beq, first, List.find?_cons]
    by_cases hn : xs[i].name = target
    · simp [hn]
    · have := docFindPi_spec H target n (i + 1) (by omega)
      simpa [hn, first] using this

theorem docPi_spec {l : AxlList PI} {xs : List PI} (H : HoldsPi l xs) (target : List Char) :
    docHasPiTarget l target = some (first xs target).isSome ∧
    docGetPiTargetContent l target = some ((first xs target).bind (·.content)) := by
  have := docFindPi_spec H target l.length.toNat 0 (by rw [H.observes.length]; simp)
  simp [docHasPiTarget, docGetPiTargetContent, this]

theorem hasPi_spec (target : List Char) : ∀ i : Items, i.hasPiTarget target = (first (among i) target).isSome
  | .nil => rfl
  | .node _ next => by simpa [Items.hasPiTarget, among] using hasPi_spec target next
  | .leaf l next => by
    have := hasPi_spec target next
    cases l with
    | pi p =>
      simp only [Items.hasPiTarget, among, Attrs.cmp_beq, first, List.find?_cons]
      by_cases h : p.name = target
      · simp [h]
      · simpa [h, first] using this
    | _ => simpa [Items.hasPiTarget, among] using this

theorem getPi_spec (target : List Char) : ∀ i : Items,
    i.getPiTargetContent target = (first (among i) target).bind (·.content)
  | .nil => rfl
  | .node _ next => by simpa [Items.getPiTargetContent, among] using getPi_spec target next
  | .leaf l next => by
    have := getPi_spec target next
    cases l with
    | pi p =>
      simp only [Items.getPiTargetContent, among, Attrs.cmp_beq, first, List.find?_cons]
      by_cases h : p.name = target
      · simp [h]
      · simpa [h, first] using this
    | _ => simpa [Items.getPiTargetContent, among] using this

theorem among_append : ∀ i j : Items, among (i.append j) = among i ++ among j
  | .nil, _ => rfl
  | .node _ next, j => by simpa [Items.append, among] using among_append next j
  | .leaf l next, j => by
    have := among_append next j
    cases l <;> simp [Items.append, among, this]

/-- What the loop that makes the list leaves. -/
def ListsPi (r : Option (AxlList PI)) (xs : List PI) : Prop :=
  match r with
  | none => xs = []
  | some l => xs ≠ [] ∧ HoldsPi l xs

theorem piTargetLoop_spec : ∀ (i : Items) (r : Option (AxlList PI)) (xs : List PI), ListsPi r xs →
    ∃ r', Items.piTargetLoop r i = some r' ∧ ListsPi r' (xs ++ among i)
  | .nil, r, xs, H => ⟨r, rfl, by simpa [among] using H⟩
  | .node _ next, r, xs, H => by simpa [Items.piTargetLoop, among] using piTargetLoop_spec next r xs H
  | .leaf l next, r, xs, H => by
    cases l with
    | pi p =>
      have H0 : HoldsPi (r.getD newPiTargets) xs := by
        cases r with
        | none => cases H; exact holdsPi_new
        | some l => exact H.2
      obtain ⟨l, e, H1⟩ := H0.add p
      obtain ⟨r', e', H'⟩ := piTargetLoop_spec next (some l) (xs ++ [p]) ⟨by simp, H1⟩
      exact ⟨r', by simp [Items.piTargetLoop, e, e'], by simpa [among] using H'⟩
    | _ => simpa [Items.piTargetLoop, among] using piTargetLoop_spec next r xs H

end Axl
