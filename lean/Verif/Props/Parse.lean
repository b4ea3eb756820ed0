/-
Properties C28 and C29: what axl_doc_parse accepts, and that it always ends; C43: it has no undefined
behaviour but for one malformed header.
-/
import Verif.Proofs.ParseHeader
import Verif.Proofs.Dump

namespace Axl
open Str Parse Spec.Xml

theorem Res.eq_ub {α : Type} {r : Res α} (h : r.isUb = true) : r = .ub := by
  cases r <;> first | rfl | cases h

theorem Res.eq_error {α : Type} {r : Res α} (h : r.isError = true) : r = .error := by
  cases r <;> first | rfl | cases h

theorem Res.exists_ok {α : Type} {r : Res α} (h : r.toOption.isSome = true) : ∃ a, r = .ok a := by
  cases r with
  | ok a => exact ⟨a, rfl⟩
  | _ => cases h

/-- **C29**.  axl_doc_parse ends for every input. -/
theorem C29_parse_ends (s : List Char) : parse s ≠ .loop := by
  intro h
  have := parse_sat s
  rw [h] at this
  exact this

/-- **C28** (partial).  When axl_doc_parse gives a document, the input is a prolog, comments and
instructions, one element, whose tags are closed in order with equal names and have each attribute once,
and something after it that is not read; and the document has exactly the nodes, the attributes, the
texts, the comments and the instructions of that text, in that order.  Missing: that nothing else
follows the root (see `C28_text_after_root`) and that `>` is the end of a tag (see `C28_late_slash`). -/
theorem C28_accepts_partial (s : List Char) (d : Doc) (h : parse s = .ok d) : Document s d := by
  have := parse_sat s
  rw [h] at this
  exact this

/-- A document with all kinds of items. -/
def C28_example : List Char :=
  c!"<?xml version='1.0' encoding='utf-8' ?><!DOCTYPE a><?p q?><a x='1' y=\"2\"> <b>t</b >u<c/><!-- n --><![CDATA[<]]></a>"

example : ∃ d, parse C28_example = .ok d ∧ Document C28_example d := by
  obtain ⟨d, h⟩ := Res.exists_ok (r := parse C28_example) (by decide +kernel)
  exact ⟨d, h, C28_accepts_partial _ _ h⟩

/-- The tree of that document, written again. -/
example : (parse C28_example).toOption.map (fun d => (d.encoding, d.pis, Spec.Dump.nodeText Dump.written .plain 0 d.root)) =
    some (some c!"utf-8", [⟨c!"p", some c!"q"⟩], c!"<a x='1' y='2'><b>t</b>u<c /><!-- n --><![CDATA[<]]></a>") := by decide +kernel

/-- **C28** (error, partial).  An input that is not of this form is rejected with an error. -/
theorem C28_rejects_partial (s : List Char) (h : ¬ ∃ d, Document s d) (hs : ¬ ShortStandalone s) : parse s = .error := by
  have := parse_sat s
  cases hp : parse s with
  | ok d => rw [hp] at this; exact absurd ⟨d, this⟩ h
  | error => rfl
  | ub => rw [hp] at this; exact absurd this hs
  | loop => rw [hp] at this; exact this.elim

example : parse c!"<a><b></a></b>" = .error := Res.eq_error (by decide +kernel)
example : parse c!"<a x='1' x='2'></a>" = .error := Res.eq_error (by decide +kernel)
example : parse c!"<a><b></b>" = .error := Res.eq_error (by decide +kernel)

/-- **C28 fails** in one point: what follows the root is not read. -/
theorem C28_text_after_root : ∃ d, parse c!"<a></a><b></c>" = .ok d := Res.exists_ok (by decide +kernel)

/-- **C28 fails** in another: `<name>/>` is taken for an empty element, so a tag is never closed. -/
theorem C28_late_slash : (∃ d, parse c!"<a>/>" = .ok d) ∧ (∃ d, parse c!"<r><a>/></r>" = .ok d) :=
  ⟨Res.exists_ok (by decide +kernel), Res.exists_ok (by decide +kernel)⟩

/-- **C43** (partial).  axl_doc_parse does not read or write out of its memory, or use NULL, on any
input, unless the value of standalone in the header has less than two bytes. -/
theorem C43_no_undefined_behaviour_partial (s : List Char) (h : ¬ ShortStandalone s) : parse s ≠ .ub := by
  intro hp
  have := parse_sat s
  rw [hp] at this
  exact h this

/-- **C43 fails** then: three bytes of a block of two are compared. -/
theorem C43_short_standalone : parse c!"<?xml version='1.0' standalone='y'?><a/>" = .ub :=
  Res.eq_ub (by decide +kernel)

end Axl
