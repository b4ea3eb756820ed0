/-
C42: processing instructions.
-/
import Verif.Proofs.Pi
import Verif.Model.Lit

namespace Axl
open Spec.Pi

/-- Add instructions to a document, oldest first. -/
def docAddPis (l : AxlList PI) : List PI → Option (AxlList PI)
  | [] => some l
  | p :: ps => (docAddPiTarget l p.name p.content).bind fun l => docAddPis l ps

/-- **C42**, documents: after adding any instructions to a document, axl_doc_has_pi_target holds
exactly for the targets added and axl_doc_get_pi_target_content gives the content of the first
instruction added with the target (NULL if it was added without content, or if there is none). -/
theorem C42_document (ps : List PI) (target : List Char) :
    ∃ l, docAddPis newPiTargets ps = some l ∧ AxlList.Observes l ps ∧
      docHasPiTarget l target = some (decide (∃ p ∈ ps, p.name = target)) ∧
      docGetPiTargetContent l target = some ((first ps target).bind (·.content)) := by
  have key : ∀ (ps xs : List PI) (l : AxlList PI), HoldsPi l xs → ∃ l', docAddPis l ps = some l' ∧ HoldsPi l' (xs ++ ps) := by
    intro ps
    induction ps with
    | nil => intro xs l H; exact ⟨l, rfl, by simpa using H⟩
    | cons p ps ih =>
      intro xs l H
      obtain ⟨l1, e1, H1⟩ := H.add p
      obtain ⟨l2, e2, H2⟩ := ih _ _ H1
      refine ⟨l2, ?_, by simpa using H2⟩
      simp only [docAddPis, docAddPiTarget, PI.create]
      rw [e1]
      exact e2
  obtain ⟨l, e, H⟩ := key ps [] _ holdsPi_new
  rw [List.nil_append] at H
  refine ⟨l, e, H.observes, ?_, (docPi_spec H target).2⟩
  rw [(docPi_spec H target).1]
  congr 1
  rw [Bool.eq_iff_iff]
  simp [first, List.find?_isSome]

def somePis : List PI := [⟨c!"a", some c!"1"⟩, ⟨c!"b", none⟩, ⟨c!"a", some c!"2"⟩, ⟨c!"b", some c!"3"⟩]
example : first somePis c!"a" = some ⟨c!"a", some c!"1"⟩ ∧ first somePis c!"c" = none := by decide
example : (docAddPis newPiTargets somePis).bind (fun l => docGetPiTargetContent l c!"a") = some (some c!"1") := by
  obtain ⟨l, e, _, _, h⟩ := C42_document somePis c!"a"
  rw [e]
  exact h.trans (by decide)

/-- **C42**, nodes: the same for the instructions among the items of a node, wherever they are;
adding one puts it last; and axl_node_get_pi_target_list gives a list of all of them in order, NULL
if there is none. -/
theorem C42_node (i : Items) (target : List Char) :
    (i.hasPiTarget target = true ↔ ∃ p ∈ among i, p.name = target) ∧
    i.getPiTargetContent target = (first (among i) target).bind (·.content) ∧
    (∀ name content, among (i.addPiTarget name content) = among i ++ [⟨name, content⟩]) ∧
    ∃ r, i.getPiTargetList = some r ∧ (r = none ↔ among i = []) ∧ ∀ l, r = some l → AxlList.Observes l (among i) := by
  refine ⟨?_, getPi_spec target i, fun n c => by rw [Items.addPiTarget, among_append]; rfl, ?_⟩
  · rw [hasPi_spec]
    simp [first, List.find?_isSome]
  · obtain ⟨r, e, H⟩ := piTargetLoop_spec i none [] rfl
    rw [List.nil_append] at H
    refine ⟨r, e, ?_, ?_⟩
    · cases r with
      | none => exact ⟨fun _ => H, fun _ => rfl⟩
      | some l => exact ⟨fun h => by simp at h, fun h => (H.1 h).elim⟩
    · rintro l rfl
      exact H.2.observes

def someItems : Items :=
  .leaf (.content c!"x") (.leaf (.pi ⟨c!"a", some c!"1"⟩) (.node (.mk c!"n" Attrs.empty (.leaf (.pi ⟨c!"z", none⟩) .nil))
    (.leaf (.pi ⟨c!"b", none⟩) (.leaf (.pi ⟨c!"a", some c!"2"⟩) .nil))))
example : among someItems = [⟨c!"a", some c!"1"⟩, ⟨c!"b", none⟩, ⟨c!"a", some c!"2"⟩] := by decide
example : someItems.hasPiTarget c!"b" = true ∧ someItems.hasPiTarget c!"z" = false ∧
    someItems.getPiTargetContent c!"a" = some c!"1" := by decide

end Axl
