/-
Property C47: reading a DTD ends, with references to parameter entities.
-/
import Verif.Proofs.DtdEntity
import Verif.Props.DtdText

namespace Axl.Dtd
open Str

/-- **C47, it ends** (partial): for the texts whose parameter entities meet "No Recursion" of XML and have no markup in their values,
and whose elements, if they are read, are not within themselves.  References are allowed, to any depth.  Missing: recursive
entities and elements, see `C47_recursive_entity` and `C46_recursive`; declarations in the value of an entity. -/
theorem C47_ends_entities_partial (text : List Char) (hnul : NUL ∉ text) (hrec : NotRecursive text) (hmark : NoMarkup text)
    (hac : ∀ fuel d, declarations fuel text = .ok d → Acyclic d.elements) : ∃ N, ∀ fuel, N ≤ fuel → parse fuel text ≠ .loop :=
  parse_ends_entities hnul hrec hmark hac

/-- Two entities, the second with a reference to the first. -/
def nestedText : List Char := c!"<!ENTITY % a 'CDATA #IMPLIED'>\n<!ENTITY % b 'CDATA #IMPLIED y %a;'>\n<!ELEMENT r EMPTY><!ATTLIST r x %b; z %a;>"

theorem nested_notRecursive : NotRecursive nestedText :=
  notRecursive_of_check (height := fun n => if n = c!"b" then 1 else 0) (by decide +kernel)

theorem nested_noMarkup : NoMarkup nestedText := noMarkup_of_check (by decide +kernel)

/-- What is read. -/
def nestedDtd : Dtd :=
  ⟨[⟨c!"r", .empty⟩], [⟨c!"r", [⟨c!"x", .cdata, .implied, none⟩, ⟨c!"y", .cdata, .implied, none⟩, ⟨c!"z", .cdata, .implied, none⟩]⟩], none, false, false,
    [⟨c!"a", .parameter, some c!"CDATA #IMPLIED"⟩, ⟨c!"b", .parameter, some c!"CDATA #IMPLIED y %a;"⟩]⟩

theorem nested_read : declarations 10 nestedText = .ok nestedDtd := by rfl

example : ∃ N, ∀ fuel, N ≤ fuel → parse fuel nestedText ≠ .loop := by
  refine C47_ends_entities_partial nestedText (by decide +kernel) nested_notRecursive nested_noMarkup ?_
  intro fuel d h
  have : d = nestedDtd := by
    rcases Nat.le_total 10 fuel with hf | hf
    · have := declarations_mono hf (by rw [nested_read]; simp)
      rw [h, nested_read] at this
      exact Res.ok.inj this
    · have := declarations_mono hf (by rw [h]; simp)
      rw [nested_read, h] at this
      exact (Res.ok.inj this).symm
  subst this
  exact ⟨fun _ => 0, by simp [nestedDtd, Element.Mentions, Element.list]⟩

/-- The text of `C47_recursive_entity` is recursive. -/
example : ¬ NotRecursive c!"<!ENTITY % e 'CDATA #IMPLIED x %e;'><!ATTLIST a x %e;>" := by
  rintro ⟨height, h⟩
  have hd : DeclaresEntity c!"<!ENTITY % e 'CDATA #IMPLIED x %e;'><!ATTLIST a x %e;>" c!"e" c!"CDATA #IMPLIED x %e;" :=
    ⟨[], c!" ", c!" ", c!" ", '\'', c!"><!ATTLIST a x %e;>", by decide, by simp, by decide, by simp, by simp, by decide, by decide, by decide, by decide⟩
  exact absurd (h _ _ hd c!"CDATA #IMPLIED x " c!"e" [] _ (by decide) hd) (Nat.lt_irrefl _)

end Axl.Dtd
