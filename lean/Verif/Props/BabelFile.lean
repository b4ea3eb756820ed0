/-
Property C71: after `axl_babel_init`, a document parsed from a file is the document parsed from the content of that file.
-/
import Verif.Proofs.BabelSplit
import Verif.Props.FileParse
import Verif.Props.BabelParse

namespace Axl
open Spec.Encoding
open Spec.File (FarLead NoLead Simple EndsWhite)
open Spec.Utf8 (WellShaped)
open BabelFile (parseFile)
open Babel (decl_of named_of)
open BabelFile (noIso_of_check)
open FileParse (farLead_of_check noLead_of_check)

/-- **C71**.  A file that cannot be opened is an error. -/
theorem C71_missing : parseFile none = .error := rfl

/-- **C71** (partial).  A file of up to 8192 bytes that declares no part of ISO 8859: what is parsed from it, a document,
an error or nothing, is what is parsed from its content in memory, if no text that begins with white space is at
the end of the file.  Missing: such texts (see `C55_leading_white`), and the parts of ISO 8859, which are cut in
memory and not in the file (see `C71_iso`). -/
theorem C71_fits_partial (content : List Char) (hsize : content.length ≤ 8192) (ht : FarLead content) (hi : NoIso content) :
    parseFile (some content) = Babel.parse content :=
  BabelFile.read_small (by decide) hsize ht hi

/-- **C71** (partial).  A file of any size in 7 bits that ends with white space: each document that is parsed from its content is
parsed from the file.  Missing: other characters (see `C71_split_character`), and what is missing in
`C55_any_size_partial`. -/
theorem C71_any_size_partial {begin text rest : List Char} (hm : begin = [] ∨ begin = mark8) (h7 : SevenBits text)
    (hb : Spec.File.Begun text rest) (hs : Simple rest) (ht : NoLead (begin ++ text)) (hw : EndsWhite text) (hi : NoIso text)
    {d : Option Doc} (hp : Babel.parse (begin ++ text) = .ok d) : parseFile (some (begin ++ text)) = .ok d :=
  BabelFile.read_big (by decide) hm h7 hb hs ht hw hi hp

/-- **C71**: not of the code.  For every document that declares UTF-8 and whose first 8192 bytes end inside of a character, or
are not UTF-8 for another reason, the file gives no document, and no error: what is in the buffer is checked as
if it were the whole content. -/
theorem C71_split {enc u v : List Char} {c : Char} (he : '"' ∉ enc ∧ '\'' ∉ enc ∧ Char.ofNat 0 ∉ enc) (hn : Named enc c!"utf8")
    (hc : c ≠ '!') (hu : 10 ≤ u.length) (hlen : (c!"<?xml version='1.0' encoding='" ++ enc ++ c!"'?>" ++ '<' :: c :: u).length = 8192)
    (hw : ¬ WellShaped (octets ('<' :: c :: u))) :
    parseFile (some (c!"<?xml version='1.0' encoding='" ++ enc ++ c!"'?>" ++ '<' :: c :: u ++ v)) = .ok none :=
  BabelFile.split_none hu he hc hn hlen hw

/-- What comes after the declaration in a document of 8197 bytes: the two bytes of `é` are the last one of the first 8192 bytes
and the first one behind them. -/
def splitRoot : List Char := '<' :: 'a' :: (List.replicate 8148 ' ' ++ c!"b='\xC3") ++ c!"\xA9'/>\n"

/-- That document. -/
def splitDoc : List Char := c!"<?xml version='1.0' encoding='UTF-8'?>" ++ splitRoot

theorem shaped_last {b : List UInt8} (h : WellShaped b) : ∀ x ∈ b.getLast?, x.toNat / 128 = 0 ∨ Spec.Utf8.Continues x := by
  obtain ⟨chars, rfl, h⟩ := h
  intro x hx
  rcases List.eq_nil_or_concat chars with rfl | ⟨init, c, rfl⟩
  · simp at hx
  · have hc := h c (by simp)
    rw [List.concat_eq_append, List.flatten_append, List.flatten_singleton] at hx
    match c, hc with
    | [a], hc => simp at hx; subst hx; exact .inl hc
    | [a, b], hc => simp at hx; subst hx; exact .inr hc.2
    | [a, b, c], hc => simp at hx; subst hx; exact .inr hc.2.2
    | [a, b, c, d], hc => simp at hx; subst hx; exact .inr hc.2.2.2

theorem shaped_append {a b : List UInt8} (ha : WellShaped a) (hb : WellShaped b) : WellShaped (a ++ b) := by
  obtain ⟨x, rfl, hx⟩ := ha
  obtain ⟨y, rfl, hy⟩ := hb
  refine ⟨x ++ y, by simp, ?_⟩
  intro c hc
  rcases List.mem_append.1 hc with h | h
  · exact hx c h
  · exact hy c h

theorem splitRoot_shaped : WellShaped (octets splitRoot) := by
  have h1 : WellShaped (octets ('<' :: 'a' :: (List.replicate 8148 ' ' ++ c!"b='"))) := BabelFile.wellShaped_seven (by
    intro c hc
    simp only [List.mem_cons, List.mem_append, List.mem_replicate, List.not_mem_nil, or_false] at hc
    rcases hc with rfl | rfl | ⟨-, rfl⟩ | rfl | rfl | rfl <;> decide)
  have h2 : WellShaped [0xC3, 0xA9] := ⟨[[0xC3, 0xA9]], rfl, by simp [Spec.Utf8.Shaped, Spec.Utf8.Continues]⟩
  have h3 : WellShaped (octets c!"'/>\n") := BabelFile.wellShaped_seven (by unfold SevenBits; decide)
  have := shaped_append h1 (shaped_append h2 h3)
  have e : octets splitRoot = octets ('<' :: 'a' :: (List.replicate 8148 ' ' ++ c!"b='")) ++ ([0xC3, 0xA9] ++ octets c!"'/>\n") := by
    unfold splitRoot octets
    simp only [List.map_append, List.map_cons, List.cons_append, List.append_assoc]
    rfl
  rw [e]
  exact this

/-- The answer is a document. -/
def gives : Res (Option Doc) → Bool
  | .ok (some _) => true
  | _ => false

/-- **C71**: not of the code.  A document in UTF-8 that is parsed from memory is not parsed from a file, and there is no error. -/
theorem C71_split_character : gives (Babel.parse splitDoc) = true ∧ WellShaped (octets splitRoot) ∧ parseFile (some splitDoc) = .ok none := by
  refine ⟨?_, splitRoot_shaped, ?_⟩
  · have := Babel.C54_utf8_partial (bom := []) (m := []) (rest := splitRoot) (Or.inl rfl) (decl_of (enc := c!"UTF-8") (by decide)) (by decide)
      (named_of (by decide)) .nil (by simp) (by decide +kernel) (by decide +kernel)
    rw [if_pos splitRoot_shaped] at this
    have e : Babel.parse splitDoc = same (Parse.parse splitDoc) := this
    rw [e]
    have hd : isDoc (Parse.parse splitDoc) = true := by decide +kernel
    cases h : Parse.parse splitDoc with
    | ok d => rfl
    | error => rw [h] at hd; simp [isDoc] at hd
    | ub => rw [h] at hd; simp [isDoc] at hd
    | loop => rw [h] at hd; simp [isDoc] at hd
  · refine C71_split (enc := c!"UTF-8") (u := List.replicate 8148 ' ' ++ c!"b='\xC3") (v := c!"\xA9'/>\n") (by decide)
      (named_of (by decide)) (by decide) (by simp only [List.length_append, List.length_cons, List.length_nil, List.length_replicate]; omega) ?_ ?_
    · simp only [List.length_append, List.length_cons, List.length_nil, List.length_replicate]
    · intro h
      have := shaped_last h 0xC3 (by
        rw [Option.mem_def, ← List.cons_append, ← List.cons_append]
        unfold octets
        rw [List.map_append, List.getLast?_append]
        rfl)
      revert this
      simp [Spec.Utf8.Continues]

/-- The text at the beginning of the root. -/
def rootText : Res (Option Doc) → Option (List Char)
  | .ok (some d) =>
    match d.root.items with
    | .leaf (.content s) _ => some s
    | _ => none
  | _ => none

/-- **C71**: not of the code.  A document in ISO 8859-1 that is an error in memory, since its end is lost, is read in full from a
file. -/
theorem C71_iso :
    (Babel.parse c!"<?xml version='1.0' encoding='iso-8859-1'?><a>\xE9</a>").isError ∧
      rootText (parseFile (some c!"<?xml version='1.0' encoding='iso-8859-1'?><a>\xE9</a>")) = some ['\xC3', '\xA9'] := by
  decide +kernel

/-- A file that fits: a mark, a declaration of UTF-8 and a character of two bytes. -/
example : parseFile (some (mark8 ++ c!"<?xml version='1.0' encoding='UTF-8'?>\n<a>\xC3\xA9<b/>\n</a>")) =
    Babel.parse (mark8 ++ c!"<?xml version='1.0' encoding='UTF-8'?>\n<a>\xC3\xA9<b/>\n</a>") :=
  C71_fits_partial _ (by decide) (farLead_of_check (by decide +kernel)) (noIso_of_check (by decide +kernel))


/-- A file with a declaration of UTF-8 and 7 bits. -/
example : ∃ d, parseFile (some c!"<?xml version='1.0' encoding='utf-8'?>\n<a>x <b/>\n</a>\n") = .ok (some d) := by
  have hg : gives (Babel.parse c!"<?xml version='1.0' encoding='utf-8'?>\n<a>x <b/>\n</a>\n") = true := by decide +kernel
  cases h : Babel.parse c!"<?xml version='1.0' encoding='utf-8'?>\n<a>x <b/>\n</a>\n" with
  | ok d =>
    obtain _ | d := d
    · rw [h] at hg; simp [gives] at hg
    refine ⟨d, C71_any_size_partial (begin := []) (.inl rfl) (by unfold SevenBits; decide)
      (.declared c!" " [] c!"'1.0'" c!" encoding='utf-8'?>\n<a>x <b/>\n</a>\n" ?_ ?_ (.inr rfl))
      ⟨?_, ?_, ?_⟩ ?_ ⟨c!"<?xml version='1.0' encoding='utf-8'?>\n<a>x <b/>\n</a>", '\n', by simp [Spec.Xml.White], rfl⟩ ?_ h⟩
    · simp [Spec.Xml.White]
    · simp [Spec.Xml.White]
    · decide +kernel
    · decide +kernel
    · decide +kernel
    · exact noLead_of_check (by decide +kernel)
    · exact noIso_of_check (by decide +kernel)
  | error => rw [h] at hg; simp [gives] at hg
  | ub => rw [h] at hg; simp [gives] at hg
  | loop => rw [h] at hg; simp [gives] at hg

end Axl
