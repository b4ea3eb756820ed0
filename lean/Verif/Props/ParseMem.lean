/-
Property C53: what axl_doc_parse leaves in memory and the error it tells, whatever the text.
-/
import Verif.Proofs.ParseMem
import Verif.Props.Parse

namespace Axl
open Str Blocks Spec.ParseMem Spec.Xml

/-- **C53** (partial).  For any text, given as memory with its size or up to a NUL, axl_doc_parse returns, and what it
returns is what `Parse.parse` says.  With a document, only the document and what it owns is in memory, and no error was
stored; without one, exactly one error about that text was stored, if it was asked for, and nothing of the parse
is in memory.  Missing: the header of C43, and a text that ends with an instruction and a name after it, where one
block may stay (see `C53_leak`). -/
theorem C53_parse_memory_partial {source src : List Char} {size : Int} (hg : Given source size src) (ask : Bool)
    (hs : ¬ ShortStandalone src) :
    ∃ ok w, docParse (some source) size (World.start ask) = .ret ok w ∧
      ((ok = true ∧ OnlyDocument w ∧ NoError ask w ∧ ∃ doc, Parse.parse src = .ok doc ∧ w.document = some doc ∧ Document src doc) ∨
       (ok = false ∧ Parse.parse src = .error ∧ OneError src ask w ∧ (AllReleased w ∨ (StrayName src ∧ OneLeft w)))) := by
  have h := docParse_ref hg ask
  cases hp : Parse.parse src with
  | ok doc =>
    rw [hp] at h
    cases hm : docParse (some source) size (World.start ask) with
    | ret ok w =>
      rw [hm] at h
      exact ⟨ok, w, rfl, .inl ⟨h.1, h.2.only, h.2.errors, doc, rfl, h.2.document, C28_accepts_partial _ _ hp⟩⟩
    | _ => rw [hm] at h; exact h.elim
  | error =>
    rw [hp] at h
    cases hm : docParse (some source) size (World.start ask) with
    | ret ok w =>
      rw [hm] at h
      exact ⟨ok, w, rfl, .inr ⟨h.1, rfl, h.2.error, h.2.released⟩⟩
    | _ => rw [hm] at h; exact h.elim
  | ub => exact absurd hp (C43_no_undefined_behaviour_partial src hs)
  | loop => exact absurd hp (C29_parse_ends src)

/-- **C53**.  Nothing of a parse that fails stays in memory. -/
theorem C53_all_released_partial {source src : List Char} {size : Int} (hg : Given source size src) (ask : Bool)
    (hs : ¬ ShortStandalone src) (hn : ¬ StrayName src) {w : World}
    (h : docParse (some source) size (World.start ask) = .ret false w) : AllReleased w := by
  obtain ⟨ok, w', e, hx⟩ := C53_parse_memory_partial hg ask hs
  rw [h] at e
  cases e
  rcases hx with ⟨hx, _⟩ | ⟨_, _, _, hx⟩
  · cases hx
  · exact hx.resolve_right fun hy => hn hy.1

/-- **C53**.  The memory given is never left, a block is never released twice or used after that, a document or a stream
that was released is never used: the outcome is undefined exactly when that of the header of C43 is. -/
theorem C53_defined {source src : List Char} {size : Int} (hg : Given source size src) (ask : Bool) :
    (docParse (some source) size (World.start ask) = .ub ↔ Parse.parse src = .ub) ∧
      docParse (some source) size (World.start ask) ≠ .loop := by
  have h := docParse_ref hg ask
  have hl := C29_parse_ends src
  cases hp : Parse.parse src <;> cases hm : docParse (some source) size (World.start ask) <;> simp_all [Ref]

/-- **C53**.  Without a text there is no document: one error, nothing in memory. -/
theorem C53_null (size : Int) (ask : Bool) :
    ∃ w, docParse none size (World.start ask) = .ret false w ∧ AllReleased w ∧ OneError [] ask w := by
  refine ⟨_, rfl, ⟨rfl, rfl, fun _ => rfl⟩, ?_⟩
  cases ask with
  | true => exact ⟨_, rfl, by decide, by simp, by simp⟩
  | false => rfl

/-- A text of the kind of C53: all kinds of items, then a tag that is not closed. -/
def C53_example : List Char :=
  c!"<?xml version='1.0' encoding='utf-8' standalone='yes' ?><!DOCTYPE a><?p q?><a x='1'> <b>t</b >u<c/><!-- n --><![CDATA[<]]></d>"

/-- How a parse ended. -/
structure C53_End where
  ok     : Bool
  blocks : List Nat
  errors : Option (List (Int × Option (Nat × Nat)))
deriving DecidableEq, Repr

/-- How a parse ended: what it returned, the blocks still there, the codes of the errors and the places they tell. -/
def C53_ending : Out Bool → Option C53_End
  | .ret ok w => some ⟨ok, (List.range w.next).filter fun i => (w.heap i).isSome,
      w.errors.map fun es => es.map fun e => (e.code, e.place.map fun p => (p.index, p.global))⟩
  | _ => none

example : Given (C53_example ++ [NUL, 'x']) (-1) C53_example := .inl ⟨rfl, by decide +kernel, ['x'], rfl⟩

example : Given C53_example 126 C53_example := .inr ⟨by decide +kernel, [], by simp⟩

example : ¬ ShortStandalone c!"<a>  <b></c>" := by
  rintro ⟨pre, value, post, q, q', _, _, h, _⟩
  have : 's' ∈ c!"<a>  <b></c>" := by rw [h]; simp
  exact absurd this (by decide)

example : ¬ StrayName c!"<a>  <b></c>" := by
  rintro ⟨before, blank, name, h, _⟩
  have : '?' ∈ c!"<a>  <b></c>" := by rw [h]; simp
  exact absurd this (by decide)

/-- It fails with one error, and nothing stays. -/
example : C53_ending (docParse (some C53_example) 126 (World.start true)) = some ⟨false, [], some [(-1, some (126, 126))]⟩ := by
  decide +kernel

/-- With the tag closed there is a document, and it keeps its encoding and the strings of its factory. -/
example : C53_ending (docParse (some c!"<?xml version='1.0' encoding='utf-8'?><a x='1'>t<b/></a>") 56 (World.start true)) =
    some ⟨true, [0, 2, 3, 4, 5, 6], some []⟩ := by decide +kernel

theorem C53_ending_left {src : List Char} {n : Int} (hg : Given src n src) (hs : Parse.parse src = .error) {i : Nat}
    {es : Option (List (Int × Option (Nat × Nat)))} (h : C53_ending (docParse (some src) n (World.start true)) = some ⟨false, [i], es⟩) :
    ∃ w, docParse (some src) n (World.start true) = .ret false w ∧ OneLeft w := by
  have hr := docParse_ref hg true
  rw [hs] at hr
  cases hm : docParse (some src) n (World.start true) with
  | ret a w =>
    rw [hm] at h hr
    simp only [C53_ending, Option.some.injEq, C53_End.mk.injEq] at h
    obtain ⟨rfl, h2, _⟩ := h
    refine ⟨w, rfl, ?_⟩
    rcases hr.2.released with hx | hx
    · have : i ∈ (List.range w.next).filter fun i => (w.heap i).isSome := by rw [h2]; simp
      have := (List.mem_filter.1 this).2
      rw [hx.2.2 i] at this
      cases this
    · exact hx.2
  | _ => rw [hm] at hr; exact hr.elim

/-- **C53 fails** in one point: with an instruction before a name that is not in a tag, the text of the instruction
stays in memory, and nothing points to it. -/
theorem C53_leak : (∃ w, docParse (some c!"<?xml version='1.0'?><?a b?>xyz") 31 (World.start true) = .ret false w ∧ OneLeft w) ∧
    ∃ w, docParse (some c!"<!DOCTYPE a><?p q?>xyz") 22 (World.start true) = .ret false w ∧ OneLeft w :=
  ⟨C53_ending_left (.inr ⟨by decide, [], rfl⟩) (Res.eq_error (by decide +kernel))
      (show C53_ending _ = some ⟨false, [3], some [(-2, some (28, 28))]⟩ by decide +kernel),
    C53_ending_left (.inr ⟨by decide, [], rfl⟩) (Res.eq_error (by decide +kernel))
      (show C53_ending _ = some ⟨false, [3], some [(-2, some (19, 19))]⟩ by decide +kernel)⟩

/-- **C53 fails** in another: the index that an error calls global is not a place of the text, it counts blanks twice. -/
theorem C53_global_index : C53_ending (docParse (some c!"<a>  xyz") 8 (World.start true)) = some ⟨false, [], some [(-1, some (3, 5))]⟩ ∧
    C53_ending (docParse (some c!"<a>  x  y  z") 12 (World.start true)) = some ⟨false, [], some [(-1, some (3, 5))]⟩ := by
  decide +kernel

end Axl
