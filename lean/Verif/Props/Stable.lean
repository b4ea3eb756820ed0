/-
Property C52: a document that was read can be written and read again, and the second text is the same.
-/
import Verif.Proofs.Stable
import Verif.Props.Source

namespace Axl
open Str Parse Dump Spec.Xml Spec.RoundTrip Spec.Source Spec.Dump

namespace Parse

theorem source_fineDoc {prolog : List Char} {encoding : Option (List Char)} {standalone : Bool}
    (hp : Spec.Source.Prolog prolog encoding standalone []) {bom : List Char} (hb : bom = [] ∨ bom = ['ï', '»', '¿'])
    {e : Element} (hv : e.Valid) (hn : NoPreserve e) (hf : FullInstructions e) (hs : NoSlash e) {y : Layout} (hy : y = .plain ∨ Unmixed e) (rest : List Char) :
    ∃ d, parse (bom ++ prolog ++ e.chars ++ rest) = .ok d ∧ Means false e d.root ∧ FineDoc y d := by
  obtain ⟨d, h1, h2, h3, h4, h5, h6⟩ := parse_src hp hb e hv rest
  have h4 := (scoped_sim e [] d.root (noPreserve_scoped e hn) (fun b h => by simp at h) h4).1
  exact ⟨d, h1, h4, by rw [h2]; exact prolog_encoding hp, means_fine y e d.root hv hn hf hs hy h4, h5, h6⟩

/-- The second dump. -/
theorem second_text {y : Layout} {d d' : Doc} (hd : FineDoc y d) (hs : SameDoc d d') (hm : AllMade d'.root) (hf : AllFew d.root) :
    docText written y d' = docText written y d ∧ Writable d'.root := by
  obtain ⟨g1, g2⟩ := same_text y d.root d'.root 0 (fine_writable y d.root hd.root) hf hm hs.root
  refine ⟨?_, g2⟩
  unfold docText
  rw [g1, hs.encoding, hs.standalone]

theorem parsed_made {s : List Char} {d : Doc} (h : parse s = .ok d) : AllMade d.root := by
  have := parse_sat s
  rw [h] at this
  cases this with
  | mk _ _ _ he => exact element_made he

end Parse

/-- **C52** (partial).  Any document written as XML asks, read with axl_doc_parse, is written by
axl_doc_dump as a text that is read as the same document; comments come back with a blank at each side.
Missing: documents with instructions out of the root (they are not written: C27_instructions) or without
content (C26), with xml:space="preserve", and with a content that begins with `/>` (C52_slash_content). -/
theorem C52_read_again_partial (prolog : List Char) (encoding : Option (List Char)) (standalone : Bool)
    (hp : Spec.Source.Prolog prolog encoding standalone []) (bom : List Char) (hb : bom = [] ∨ bom = ['ï', '»', '¿'])
    (e : Element) (hv : e.Valid) (hn : NoPreserve e) (hf : FullInstructions e) (hs : NoSlash e) (rest : List Char) :
    ∃ (d d' : Doc) (text : List Char), parse (bom ++ prolog ++ e.chars ++ rest) = .ok d ∧
      docDumpPlain d = some (some (text ++ [NUL], (text.length : Int))) ∧ parse text = .ok d' ∧ SameDoc d d' := by
  obtain ⟨d, h1, _, h3⟩ := source_fineDoc hp hb hv hn hf hs (y := .plain) (Or.inl rfl) rest
  obtain ⟨d', g1, g2⟩ := parse_fine .plain h3
  exact ⟨d, d', _, h1, dumpDoc_spec (y := .plain) rfl d h3.noValue (fine_writable _ _ h3.root), g1, g2⟩

/-- **C52** (partial): the second text.  If no element has more than ten attributes, the document that was
read again is written as the very same text, so further rounds change nothing. -/
theorem C52_same_text_partial (prolog : List Char) (encoding : Option (List Char)) (standalone : Bool)
    (hp : Spec.Source.Prolog prolog encoding standalone []) (bom : List Char) (hb : bom = [] ∨ bom = ['ï', '»', '¿'])
    (e : Element) (hv : e.Valid) (hn : NoPreserve e) (hf : FullInstructions e) (hs : NoSlash e) (hw : FewAttributes e) (rest : List Char) :
    ∃ (d d' : Doc) (text : List Char), parse (bom ++ prolog ++ e.chars ++ rest) = .ok d ∧
      docDumpPlain d = some (some (text ++ [NUL], (text.length : Int))) ∧ parse text = .ok d' ∧
      docDumpPlain d' = some (some (text ++ [NUL], (text.length : Int))) := by
  obtain ⟨d, h1, h2, h3⟩ := source_fineDoc hp hb hv hn hf hs (y := .plain) (Or.inl rfl) rest
  obtain ⟨d', g1, g2⟩ := parse_fine .plain h3
  obtain ⟨k1, k2⟩ := second_text h3 g2 (parsed_made g1) (means_few e d.root hw hn h2)
  refine ⟨d, d', _, h1, dumpDoc_spec (y := .plain) rfl d h3.noValue (fine_writable _ _ h3.root), g1, ?_⟩
  rw [← k1]
  exact dumpDoc_spec (y := .plain) rfl d' (by rw [g2.noValue, h3.noValue]) k2

/-- **C52** for axl_doc_dump_pretty, with any number of blanks, if no text is beside an element, a comment
or an instruction: read again it is the same document, and with no more than ten attributes for each
element it is written again as the same text. -/
theorem C52_pretty_partial (prolog : List Char) (encoding : Option (List Char)) (standalone : Bool)
    (hp : Spec.Source.Prolog prolog encoding standalone []) (bom : List Char) (hb : bom = [] ∨ bom = ['ï', '»', '¿'])
    (e : Element) (hv : e.Valid) (hn : NoPreserve e) (hf : FullInstructions e) (hs : NoSlash e) (hu : Unmixed e) (tabular : Nat) (rest : List Char) :
    ∃ (d d' : Doc) (text : List Char), parse (bom ++ prolog ++ e.chars ++ rest) = .ok d ∧
      docDumpPretty d tabular = some (some (text ++ [NUL], (text.length : Int))) ∧ parse text = .ok d' ∧ SameDoc d d' ∧
      (FewAttributes e → docDumpPretty d' tabular = some (some (text ++ [NUL], (text.length : Int)))) := by
  obtain ⟨d, h1, h2, h3⟩ := source_fineDoc hp hb hv hn hf hs (y := .pretty tabular) (Or.inr hu) rest
  obtain ⟨d', g1, g2⟩ := parse_fine (.pretty tabular) h3
  refine ⟨d, d', _, h1, dumpDoc_spec (y := .pretty tabular) ⟨rfl, rfl⟩ d h3.noValue (fine_writable _ _ h3.root), g1, g2, ?_⟩
  intro hw
  obtain ⟨k1, k2⟩ := second_text h3 g2 (parsed_made g1) (means_few e d.root hw hn h2)
  rw [← k1]
  exact dumpDoc_spec (y := .pretty tabular) ⟨rfl, rfl⟩ d' (by rw [g2.noValue, h3.noValue]) k2

/-! ### A document for each -/

theorem sample45_element_full : FullInstructions sample45 := by
  simp only [sample45, FullInstructions, FullInstructionsParts, FineLeaf]
  refine ⟨trivial, trivial, ⟨by decide +kernel, ?_, _, rfl, by decide, by decide +kernel, by decide⟩, trivial⟩
  rintro ⟨x, m, l, h, _⟩
  cases h

theorem sample45_element_few : FewAttributes sample45 := by
  simp only [sample45, FewAttributes, FewAttributesParts]
  decide

theorem sample45_element_noSlash : NoSlash sample45 := by
  simp only [sample45, NoSlash, NoSlashParts]
  exact ⟨by decide +kernel, ⟨by decide +kernel, trivial⟩, trivial, trivial⟩

theorem sample52_prolog : Spec.Source.Prolog c!"<!--y-->" none false (instructions [.comment c!"y"]) :=
  .bare (Misc.comment (u := []) (Comment.mk (text := c!"y") (by decide) (by decide +kernel)) .nil) (by decide +kernel)

example : ∃ (d d' : Doc) (text : List Char),
    parse c!"<!--y--><a x='1'\n y=\"it's\" > <b>t</b >u<c/><!--n--> v<?p q?><![CDATA[<]]></a>\n" = .ok d ∧
    docDumpPlain d = some (some (text ++ [NUL], (text.length : Int))) ∧ parse text = .ok d' ∧ SameDoc d d' :=
  C52_read_again_partial _ _ _ sample52_prolog [] (Or.inl rfl) sample45 sample45_element_valid sample45_element_plain sample45_element_full sample45_element_noSlash c!"\n"

example : ∃ (d d' : Doc) (text : List Char),
    parse c!"<!--y--><a x='1'\n y=\"it's\" > <b>t</b >u<c/><!--n--> v<?p q?><![CDATA[<]]></a>\n" = .ok d ∧
    docDumpPlain d = some (some (text ++ [NUL], (text.length : Int))) ∧ parse text = .ok d' ∧
    docDumpPlain d' = some (some (text ++ [NUL], (text.length : Int))) :=
  C52_same_text_partial _ _ _ sample52_prolog [] (Or.inl rfl) sample45 sample45_element_valid sample45_element_plain sample45_element_full
    sample45_element_noSlash sample45_element_few c!"\n"

/-- `<r> <b>t</b><!--n--></r>` -/
def sample52 : Element :=
  .pair c!"r" [] [] (.text c!" " (.element (.pair c!"b" [] [] (.text c!"t" .nil) []) (.comment c!"n" .nil))) []

theorem sample52_element_valid : sample52.Valid := by
  simp only [sample52, Element.Valid, Parts.Valid, Spec.Source.isText]
  exact ⟨by decide +kernel, sample45_noAttrs, by decide +kernel, ⟨by decide +kernel, by decide +kernel, by decide +kernel, id,
    ⟨by decide +kernel, sample45_noAttrs, by decide +kernel, ⟨by decide +kernel, by decide +kernel, by decide +kernel, id, trivial⟩, by decide +kernel, by decide +kernel, by decide +kernel⟩,
    by decide +kernel, by decide +kernel, trivial⟩, by decide +kernel, by decide +kernel, by decide +kernel⟩

theorem sample52_element_plain : NoPreserve sample52 := by
  simp only [sample52, NoPreserve, Spec.Source.NoPreserveParts, Spec.Source.asksPreserve]
  refine ⟨?_, ⟨?_, trivial⟩, trivial⟩
  · rintro ⟨a, ha, _⟩; simp at ha
  · rintro ⟨a, ha, _⟩; simp at ha

theorem sample52_element_unmixed : Unmixed sample52 := by
  simp only [sample52, Unmixed, UnmixedParts, hasMarks, noTexts]
  exact ⟨fun _ => ⟨by decide +kernel, trivial⟩, ⟨fun h => h.elim, trivial⟩, trivial⟩

example (tabular : Nat) : ∃ (d d' : Doc) (text : List Char), parse c!"<!--y--><r> <b>t</b><!--n--></r>" = .ok d ∧
    docDumpPretty d tabular = some (some (text ++ [NUL], (text.length : Int))) ∧ parse text = .ok d' ∧ SameDoc d d' ∧
    (FewAttributes sample52 → docDumpPretty d' tabular = some (some (text ++ [NUL], (text.length : Int)))) :=
  C52_pretty_partial _ _ _ sample52_prolog [] (Or.inl rfl) sample52 sample52_element_valid sample52_element_plain
    (by simp only [sample52, FullInstructions, FullInstructionsParts]; trivial)
    (by simp only [sample52, NoSlash, NoSlashParts]; exact ⟨by decide +kernel, ⟨by decide +kernel, trivial⟩, trivial⟩) sample52_element_unmixed tabular []

/-! ### Where it fails -/

/-- Read a text and write the document. -/
def C52_round (s : List Char) : Option (List Char) :=
  match parse s with
  | .ok d =>
    match docDumpPlain d with
    | some (some (t, _)) => some t.dropLast
    | _ => none
  | _ => none

/-- An element with eleven attributes. -/
def C52_eleven : List Char := c!"<a a='1' b='2' c='3' d='4' e='5' f='6' g='7' h='8' i='9' j='0' m='x'/>"

/-- **C52 fails** with more than ten attributes: each round changes their order. -/
theorem C52_eleven_attributes :
    C52_round C52_eleven = some c!"<?xml version='1.0' ?><a c='3' d='4' e='5' f='6' g='7' h='8' i='9' j='0' a='1' m='x' b='2' />" ∧
    (C52_round C52_eleven).bind C52_round =
      some c!"<?xml version='1.0' ?><a c='3' d='4' e='5' f='6' g='7' h='8' i='9' j='0' a='1' b='2' m='x' />" := by
  decide +kernel

/-- **C52 fails** for the instructions out of the root: they are read, not written. -/
theorem C52_instructions : C52_round c!"<?xml version='1.0'?><?p q?><a/>" = some c!"<?xml version='1.0' ?><a />" := by
  decide +kernel

/-- **C52 fails** for an instruction without content: the document is read, and writing it reads a NULL string
(`none` is undefined behaviour). -/
theorem C52_instruction_without_content : ∃ d, parse c!"<a><?p?></a>" = .ok d ∧ docDumpPlain d = none := by
  have h : (match parse c!"<a><?p?></a>" with
    | .ok d => (docDumpPlain d).isNone
    | _ => false) = true := by decide +kernel
  split at h
  · exact ⟨_, by assumption, by simpa using h⟩
  · cases h

/-- **C52 fails** for the white spaces that `xml:space` keeps: those after a comment are lost. -/
theorem C52_preserved : C52_round c!"<a xml:space='preserve'> <!--c--> </a>" = some c!"<?xml version='1.0' ?><a xml:space='preserve'> <!-- c --></a>" := by
  decide +kernel

/-- **C52 fails** for a content that begins with `/>`: it is written just after the tag and read as its end. -/
theorem C52_slash_content : C52_round c!"<a >/>x</a>" = some c!"<?xml version='1.0' ?><a>/>x</a>" ∧
    (C52_round c!"<a >/>x</a>").bind C52_round = some c!"<?xml version='1.0' ?><a />" := by
  decide +kernel

end Axl
