/-
Property C73: documents that are the same are valid for the same DTDs.
-/
import Verif.Proofs.Validates
import Verif.Props.Compare
import Verif.Props.RoundTrip
import Verif.Props.Stable
import Verif.Props.Dtd

namespace Axl
open Str Parse Dump Spec.Compare Spec.RoundTrip Spec.Source
open Spec.Dump (Layout)

/-- **C73, equal documents** (partial).  When axl_doc_are_equal_full says that two documents are equal, with the white space at the
ends of the texts or without, axl_dtd_validate does the same with both, whatever the DTD: it answers true, answers false, or does
not end.  Missing: as in C32, documents with a terminator inside a text or with an instruction without content, for which the
comparison does not mean anything. -/
theorem C73_equal_partial (d e : Doc) (trimmed : Bool) (hd : Made Comparable d.root) (he : Made Comparable e.root)
    (h : d.areEqualFull e trimmed = some true) (dtd : Dtd.Dtd) (fuel : Nat) :
    Dtd.validate fuel dtd d.root = Dtd.validate fuel dtd e.root := by
  obtain ⟨r, h1, h2⟩ := C32_documents_partial d e trimmed hd he
  rw [h] at h1
  cases h1
  exact Validates.validate_same fuel dtd (h2.1 rfl) (good_made (fun _ h => h) _ hd) (good_made (fun _ h => h) _ he)

example : (docOf attrsUp c!"x").areEqualFull (docOf attrsDown c!" x\n") true = some true ∧ Made Comparable (docOf attrsUp c!"x").root ∧
    Made Comparable (docOf attrsDown c!" x\n").root := 
  ⟨by decide +kernel, made_docOf made_attrsUp (by decide), made_docOf made_attrsDown (by decide)⟩

/-- Both answers are given. -/
example : Dtd.validate 20 Dtd.bookDtd (Dtd.book c!"two") = .ok true ∧ Dtd.validate 20 Dtd.bookDtd (Dtd.book c!"three") = .ok false :=
  ⟨rfl, rfl⟩

/-- **C73, copies** (partial).  A copy with its attributes and children is valid for the same DTDs as the node.  Missing: as in
C33, nodes with references to entities, whose copy cannot be used. -/
theorem C73_copy_partial (n : Node) (hn : Made Copiable n) : ∃ m, n.copy true true = some m ∧
    ∀ (dtd : Dtd.Dtd) (fuel : Nat), Dtd.validate fuel dtd m = Dtd.validate fuel dtd n := by
  have g := good_made (fun _ h => h) n hn
  obtain ⟨m, e, hs, hg⟩ := copy_node n g
  exact ⟨m, e, fun dtd fuel => (Validates.validate_same fuel dtd hs g hg).symm⟩

/-- **C73, written and read** (partial).  A document that can be written is valid for the same DTDs as the document that is read
from what axl_doc_dump or axl_doc_dump_pretty give.  Missing: those that cannot be written, `C73_not_blank`. -/
theorem C73_written_partial (y : Layout) (d : Doc) (h : FineDoc y d) : ∃ (text : List Char) (d' : Doc),
    (match y with
      | .plain => docDumpPlain d
      | .pretty tabular => docDumpPretty d tabular) = some (some (text ++ [NUL], (text.length : Int))) ∧
    parse text = .ok d' ∧ ∀ (dtd : Dtd.Dtd) (fuel : Nat), Dtd.validate fuel dtd d'.root = Dtd.validate fuel dtd d.root := by
  obtain ⟨d', h1, h2⟩ := parse_fine y h
  refine ⟨_, d', ?_, h1, fun dtd fuel => (Validates.validate_same fuel dtd (Validates.alike_node h2.root)
    (Validates.good_fine y h.root) (Validates.good_allMade (parsed_made h1))).symm⟩
  cases y with
  | plain => exact dumpDoc_spec (y := .plain) rfl d h.noValue (fine_writable _ _ h.root)
  | pretty t => exact dumpDoc_spec (y := .pretty t) ⟨rfl, rfl⟩ d h.noValue (fine_writable _ _ h.root)

example : FineDoc .plain C27_example := C27_example_fine .plain

/-- **C73, read, written and read** (partial).  Any document written as XML asks, once read, written and read again, is valid for
the same DTDs.  Missing: as in C52. -/
theorem C73_read_again_partial (prolog : List Char) (encoding : Option (List Char)) (standalone : Bool)
    (hp : Spec.Source.Prolog prolog encoding standalone []) (bom : List Char) (hb : bom = [] ∨ bom = ['ï', '»', '¿'])
    (e : Element) (hv : e.Valid) (hn : NoPreserve e) (hf : FullInstructions e) (hs : NoSlash e) (rest : List Char) :
    ∃ (d d' : Doc) (text : List Char), parse (bom ++ prolog ++ e.chars ++ rest) = .ok d ∧
      docDumpPlain d = some (some (text ++ [NUL], (text.length : Int))) ∧ parse text = .ok d' ∧
      ∀ (dtd : Dtd.Dtd) (fuel : Nat), Dtd.validate fuel dtd d'.root = Dtd.validate fuel dtd d.root := by
  obtain ⟨d, h1, _, h3⟩ := source_fineDoc hp hb hv hn hf hs (y := .plain) (Or.inl rfl) rest
  obtain ⟨text, d', h4, h5, h6⟩ := C73_written_partial .plain d h3
  exact ⟨d, d', text, h1, h4, h5, h6⟩

/-- **C73**: not of the code, texts of only white spaces.  A node that is to be empty and has a text of only white spaces is not
valid; written and read it has none, and is. -/
theorem C73_not_blank : ∃ d', C27_read (C27_doc (.leaf (.content c!" ") .nil)) = some d' ∧
    Dtd.validate 9 ⟨[⟨c!"a", .empty⟩], [], some ⟨c!"a", .empty⟩, false, false, []⟩ (C27_doc (.leaf (.content c!" ") .nil)).root = .ok false ∧
    Dtd.validate 9 ⟨[⟨c!"a", .empty⟩], [], some ⟨c!"a", .empty⟩, false, false, []⟩ d'.root = .ok true := by
  rw [C27_read_eq (d := C27_doc (.leaf (.content c!" ") .nil)) (text := c!"<?xml version='1.0' ?><a> </a>") rfl
    ⟨made_empty, trivial, trivial⟩ (by decide +kernel)]
  refine ⟨_, rfl, ?_, ?_⟩
  · rfl
  · rfl

end Axl
