/-
C26: the size that is told before a document is written; no document, or no root.
-/
import Verif.Model.DumpSize
import Verif.Props.Dump

namespace Axl
namespace Dump
open Str hiding split
open Spec.Dump

theorem size_of_dumpDoc {d : Doc} {pretty : Bool} {tabular : Int} {m : List Char} {n : Int}
    (h : dumpDoc d pretty tabular = some (some (m, n))) : docSizeOf d pretty tabular = some n := by
  unfold dumpDoc at h
  cases hs : docSizeOf d pretty tabular with
  | none => simp [hs] at h
  | some size =>
    simp only [hs, Option.bind_eq_bind, Option.bind_some] at h
    obtain ⟨_, _, h⟩ := Option.bind_eq_some_iff.mp h
    obtain ⟨_, _, h⟩ := Option.bind_eq_some_iff.mp h
    obtain ⟨_, _, h⟩ := Option.bind_eq_some_iff.mp h
    obtain ⟨_, _, h⟩ := Option.bind_eq_some_iff.mp h
    obtain ⟨_, _, h⟩ := Option.bind_eq_some_iff.mp h
    obtain ⟨_, _, h⟩ := Option.bind_eq_some_iff.mp h
    obtain ⟨_, _, h⟩ := Option.bind_eq_some_iff.mp h
    split at h
    · simp at h
    · simp at h; rw [h.2]

/-- **C26** (size, partial).  `axl_doc_get_flat_size` and `axl_doc_get_flat_size_pretty` tell exactly how many bytes
`axl_doc_dump` and `axl_doc_dump_pretty` give, which put a NUL after them. -/
theorem C26_flat_size_partial (d : DocPtr) (r : Node) (hr : d.root = some r) (hv : d.noValue = []) (hw : Writable r) :
    (∃ text, dumpPtr (some d) false 0 = some (some (text ++ [NUL], (text.length : Int))) ∧
      flatSize (some d) = some (text.length : Int)) ∧
    ∀ tabular : Nat, ∃ text, dumpPtr (some d) true tabular = some (some (text ++ [NUL], (text.length : Int))) ∧
      flatSizePretty (some d) tabular = some (text.length : Int) := by
  have key : ∀ {pretty tabular y}, Describes pretty tabular y →
      ∃ text, dumpPtr (some d) pretty tabular = some (some (text ++ [NUL], (text.length : Int))) ∧
        flatSizeCommon (some d) pretty tabular = some (text.length : Int) := by
    intro pretty tabular y h
    have := dumpDoc_spec h (d.withRoot r) hv hw
    exact ⟨_, by simpa [dumpPtr, hr] using this, by simpa [flatSizeCommon, hr] using size_of_dumpDoc this⟩
  exact ⟨key (y := .plain) rfl, fun t => key (y := .pretty t) ⟨rfl, rfl⟩⟩

/-- **C26**.  No document: the size is -1 and the dump fails. -/
theorem C26_no_document (pretty : Bool) (tabular : Int) :
    flatSize none = some (-1) ∧ flatSizePretty none tabular = some (-1) ∧ dumpPtr none pretty tabular = some none := ⟨rfl, rfl, rfl⟩

/-- **C26**.  A document without root is not written, in both layouts: the dump fails, and what it wrote of the header was
inside of its block, to the last byte of it. -/
theorem C26_no_root_refused (d : DocPtr) (hr : d.root = none) (pretty : Bool) (tabular : Nat) :
    dumpPtr (some d) pretty tabular = some none := by
  obtain ⟨y, h⟩ : ∃ y, Describes pretty tabular y := by
    cases pretty with
    | false => exact ⟨.plain, rfl⟩
    | true => exact ⟨.pretty tabular, rfl, rfl⟩
  have he : Step (fun o => dumpEncoding o d.encoding) (encodingText d.encoding) := by
    cases d.encoding with
    | none => exact Step.id
    | some e =>
      exact ((step_emit _ 10 rfl).bind ((step_emit e _ rfl).bind (step_emit _ 2 rfl))).congr (fun o => rfl) (by simp [encodingText])
  have hs : Step (fun o => dumpStandalone o d.standalone) (if d.standalone then c!"standalone='yes' " else []) := by
    cases d.standalone
    · exact Step.id
    · exact step_emit _ 17 rfl
  have hall := (step_emit c!"<?xml version='1.0' " 20 rfl).bind (he.bind (hs.bind ((step_emit c!"?>" 2 rfl).bind
    (step_newlineIf h))))
  have e1 : c!"<?xml version='1.0' ".length = 20 := rfl
  have e2 : c!"?>".length = 2 := rfl
  have e3 : c!"encoding='".length = 10 := rfl
  have e4 : c!"' ".length = 2 := rfl
  have e5 : c!"standalone='yes' ".length = 17 := rfl
  have hline : (y.line.length : Int) = if pretty then 1 else 0 := by
    have hl := pad_line_length h 0
    have hpad : (y.pad 0).length = 0 := by cases y <;> rfl
    rw [hpad] at hl
    cases pretty <;> simp at hl ⊢ <;> omega
  have hst : ((if d.standalone = true then c!"standalone='yes' " else []).length : Int) = if d.standalone then 17 else 0 := by
    cases d.standalone
    · rfl
    · simp only [if_true, e5]; rfl
  have henc : (((encodingText d.encoding).length : Nat) : Int) = encodingSize d.encoding := by
    cases d.encoding with
    | none => rfl
    | some e => simp only [encodingText, encodingSize, List.length_append, e3, e4]; omega
  obtain ⟨t, ht⟩ : ∃ t, t = c!"<?xml version='1.0' " ++ (encodingText d.encoding ++ ((if d.standalone = true then c!"standalone='yes' " else []) ++
    (c!"?>" ++ y.line))) := ⟨_, rfl⟩
  rw [← ht] at hall
  have hlen : (t.length : Int) = 22 + (if pretty then 1 else 0) + (if d.standalone then 17 else 0) + encodingSize d.encoding := by
    rw [ht]
    simp only [List.length_append, Int.natCast_add, hst, henc, hline, e1, e2]
    omega
  have hpos : 0 < t.length := by rw [ht, List.length_append, e1]; omega
  have hsize : flatSizeCommon (some d) pretty tabular = some ((t.length - 1 : Nat) : Int) := by
    simp only [flatSizeCommon, hr, ← hlen]
    congr 1
    omega
  have hrun := hall [] (List.replicate (t.length - 1 + 1) NUL) (by simp; omega)
  simp only [List.nil_append, List.length_nil] at hrun
  have hne : ((t.length - 1 : Nat) : Int) ≠ -1 := by omega
  simp only [dumpPtr, hr, hsize, Option.bind_eq_bind, Option.bind_some, if_neg hne, alloc_nat]
  obtain ⟨o1, h1, hrun⟩ := Option.bind_eq_some_iff.mp hrun
  obtain ⟨o2, h2, hrun⟩ := Option.bind_eq_some_iff.mp hrun
  obtain ⟨o3, h3, hrun⟩ := Option.bind_eq_some_iff.mp hrun
  obtain ⟨o4, h4, hrun⟩ := Option.bind_eq_some_iff.mp hrun
  simp only [h1, h2, h3, h4, hrun, Option.bind_some, ne_eq, hne, not_false_eq_true, if_true]

/-- **C26**: not of the code.  The size of a document without root, which cannot be written, is not -1: it is that of the
header less one. -/
theorem C26_no_root_size (e : Option (List Char)) (s : Bool) :
    flatSize (some ⟨e, s, none, []⟩) = some (21 + (if s then 17 else 0) + encodingSize e) ∧ 0 ≤ encodingSize e := by
  refine ⟨?_, ?_⟩
  · simp only [flatSize, flatSizeCommon]
    congr 1
    simp
    omega
  · cases e <;> simp [encodingSize]
    omega

example : flatSize (some ⟨some c!"utf-8", true, some C26_example, []⟩) = some 136 := by
  have := (C26_flat_size_partial ⟨some c!"utf-8", true, some C26_example, []⟩ _ rfl rfl C26_writable).1
  obtain ⟨t, h1, h2⟩ := this
  have h3 := dumpDoc_spec (pretty := false) (tabular := 0) (y := .plain) rfl (DocPtr.withRoot ⟨some c!"utf-8", true, some C26_example, []⟩ C26_example) rfl C26_writable
  simp only [dumpPtr] at h1
  rw [h3] at h1
  simp at h1
  rw [h2, ← h1.2]
  decide +kernel

example : dumpPtr (some ⟨none, true, none, []⟩) true 4 = some none := C26_no_root_refused _ rfl _ 4

end Dump
end Axl
