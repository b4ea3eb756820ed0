/-
Property C80: a document that was read can be edited and written.
-/
import Verif.Proofs.Load
import Verif.Props.TreeDump
import Verif.Props.Parse

namespace Axl
open Spec.Tree Spec.Tree.Forest Spec.Dump Spec.RoundTrip Spec.Load Dump Parse
open Str hiding split

theorem noRefs_leaves : ∀ {ls : List Leaf} {i : Items}, (∀ l ∈ ls, NoRef l) → NoRefsIn i → NoRefsIn (Spec.Xml.leaves ls i)
  | [], _, _, h => h
  | l :: ls, i, H, h => by
    simp only [Spec.Xml.leaves, NoRefsIn]
    exact ⟨H l (by simp), noRefs_leaves (fun l hl => H l (by simp [hl])) h⟩

theorem noRefs_misc {t : List Char} {ls : List Leaf} (h : Spec.Xml.Misc t ls) : ∀ l ∈ ls, NoRef l := by
  induction h with
  | nil => simp
  | blank _ _ ih => exact ih
  | comment _ _ ih =>
    intro l hl
    rcases List.mem_cons.mp hl with rfl | hl
    · trivial
    · exact ih l hl
  | pi _ _ ih =>
    intro l hl
    rcases List.mem_cons.mp hl with rfl | hl
    · trivial
    · exact ih l hl

mutual
theorem noRefs_element : ∀ {t : List Char} {n : Node}, Spec.Xml.Element t n → NoRefs n
  | _, _, .empty _ _ => by simp only [NoRefs, NoRefsIn]
  | _, _, .pair _ _ hc _ => by simp only [NoRefs]; exact noRefs_content hc
theorem noRefs_content : ∀ {t : List Char} {i : Items}, Spec.Xml.Content t i → NoRefsIn i
  | _, _, .nil => trivial
  | _, _, .misc hm hc => noRefs_leaves (noRefs_misc hm) (noRefs_content hc)
  | _, _, .text _ _ hc => ⟨trivial, noRefs_content hc⟩
  | _, _, .cdata _ hc => ⟨trivial, noRefs_content hc⟩
  | _, _, .element hm _ he hc => noRefs_leaves (noRefs_misc hm) ⟨noRefs_element he, noRefs_content hc⟩
end

/-- The parser makes no references. -/
theorem noRefs_parse {s : List Char} {d : Doc} (h : parse s = .ok d) : NoRefs d.root := by
  cases C28_accepts_partial s d h with
  | mk _ _ _ he => exact noRefs_element he

/-- **C80**: for every document that is accepted, the calls of the parser make nodes in memory that stand for the tree read; its dump is
the dump of the document, with any layout. -/
theorem C80_read (s : List Char) (d : Doc) (hs : parse s = .ok d) :
    ∃ h, Heap.empty.run (Load.root d) = some h ∧ IsTree (Forest.empty.run (Load.root d)) (Load.extra d) 0 d.root ∧
      (d.noValue = [] → ∀ pretty tabular,
        h.dumpDoc (Load.extra d) 0 d.encoding d.standalone pretty tabular = Dump.dumpDoc d pretty tabular) := by
  obtain ⟨F, ht, _⟩ := Load.root_spec d (noRefs_parse hs)
  obtain ⟨h, e, H⟩ := C79_dump _ F
  refine ⟨h, e, ht, fun hv pretty tabular => ?_⟩
  rw [(H _ _ _ ht).2.1]
  obtain ⟨enc, alone, root, pis, nv⟩ := d
  cases hv
  rfl

/-- **C80** (partial): and then, after every history of calls on its nodes and on new ones, what is written is the tree that the calls
leave, and a document that can be read again (C27) is read as that tree.  The histories are those of C24. -/
theorem C80_edit_partial (s : List Char) (d : Doc) (hs : parse s = .ok d) (edits : List Op)
    (hf : (Forest.empty.run (Load.root d)).Fits edits = true) :
    ∃ h, Heap.empty.run (Load.root d ++ edits) = some h ∧
      ∀ (x : Extra) (n : Nat), ((Forest.empty.run (Load.root d)).run edits).live n = true →
        ∃ t, IsTree ((Forest.empty.run (Load.root d)).run edits) x n t ∧
          ∀ (encoding : Option (List Char)) (standalone : Bool),
            (∀ pretty tabular, h.dumpDoc x n encoding standalone pretty tabular =
              Dump.dumpDoc ⟨encoding, standalone, t, [], []⟩ pretty tabular) ∧
            (FineDoc .plain ⟨encoding, standalone, t, [], []⟩ → ∃ (text : List Char) (d' : Doc),
              h.dumpDoc x n encoding standalone false 0 = some (some (text ++ [NUL], (text.length : Int))) ∧
              parse text = .ok d' ∧ SameDoc ⟨encoding, standalone, t, [], []⟩ d') := by
  obtain ⟨F, ht, _⟩ := Load.root_spec d (noRefs_parse hs)
  have hfit : Forest.empty.Fits (Load.root d ++ edits) = true := by rw [Load.fits_append, F, hf]; rfl
  obtain ⟨h, e, I⟩ := Heap.inv_run _ Heap.inv_empty hfit
  rw [Heap.forest_run_append] at I
  refine ⟨h, e, fun x n hn => ?_⟩
  obtain ⟨t, ht⟩ := I.tree x hn
  refine ⟨t, ht, fun encoding standalone => ⟨I.dumpDoc ht encoding standalone, fun hd => ?_⟩⟩
  rw [I.dumpDoc ht]
  exact C27_round_trip_partial _ hd

/-- A document, and calls that edit it: the first child is taken out and freed, a new one is placed after a comment, and what was in the
second is moved to the new one. -/
def editedText : List Char := c!"<a x='1'><b>gone</b><!-- note --><c y='2'>kept<?p q?></c></a>"
def editedDoc : Doc := (parse editedText).toOption.getD ⟨none, false, .mk [] Attrs.empty .nil, [], []⟩
def edits : List Op := [.removeNode 1 true, .create c!"new", .setAfter 0 0 (.node 3), .transfer 2 3]

theorem edited_ok : parse editedText = .ok editedDoc := by
  have h : ∀ r : Res Doc, r.toOption.isSome = true → r = .ok (r.toOption.getD ⟨none, false, .mk [] Attrs.empty .nil, [], []⟩) := by
    intro r hr
    cases r <;> simp_all [Res.toOption]
  exact h _ (by decide +kernel)

example : (Forest.empty.run (Load.root editedDoc)).Fits edits = true := by decide +kernel
example : editedDoc.noValue = [] := by decide +kernel
example : (Heap.empty.run (Load.root editedDoc ++ edits)).bind (fun h => h.dumpDoc (Load.extra editedDoc) 0 none false false 0) =
    some (some (c!"<?xml version='1.0' ?><a x='1'><!-- note --><new>kept<?p q?></new><c y='2' /></a>" ++ [NUL], 81)) := by decide +kernel

end Axl
