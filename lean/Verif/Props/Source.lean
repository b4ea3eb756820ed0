/-
Properties C45, the documents that axl_doc_parse accepts and their trees, and C41, where it keeps white
spaces.
-/
import Verif.Proofs.Source
import Verif.Props.RoundTrip

namespace Axl
open Str Parse Spec.Xml Spec.RoundTrip
open Spec.Source (Element Parts NoPreserve Scoped Means OneEach)

/-- **C45** (partial).  axl_doc_parse accepts every document written as XML asks, with or without the mark of UTF-8, the
declaration and the document type, and gives a document with the encoding and standalone of the declaration,
the instructions before the root, and the tree that the text stands for: the same names, attributes,
values, texts, comments, sections and instructions, in the same order.  Nothing in the text asks to keep
white spaces: the texts that are only white spaces are not in the tree.  Missing: empty comments, white spaces
around the `=` of an attribute or several in an end tag, `/>` as the beginning of a content, for which it is false
(see the theorems below), and the names that `IsName` leaves out. -/
theorem C45_accepts_partial (prolog : List Char) (encoding : Option (List Char)) (standalone : Bool) (pis : List PI)
    (hp : Spec.Source.Prolog prolog encoding standalone pis) (bom : List Char) (hb : bom = [] ∨ bom = ['ï', '»', '¿'])
    (e : Element) (hv : e.Valid) (hn : NoPreserve e) (rest : List Char) :
    ∃ d, parse (bom ++ prolog ++ e.chars ++ rest) = .ok d ∧ d.encoding = encoding ∧ d.standalone = standalone ∧
      Means false e d.root ∧ d.pis = pis ∧ d.noValue = [] := by
  obtain ⟨d, h1, h2, h3, h4, h5, h6⟩ := parse_src hp hb e hv rest
  exact ⟨d, h1, h2, h3, (scoped_sim e [] d.root (noPreserve_scoped e hn) (fun b h => by simp at h) h4).1, h5, h6⟩

/-- **C41** (partial).  White spaces between marks are kept exactly where the nearest `xml:space` around them says
preserve, in the documents in which every element that asks to preserve, and every one in it, has one
attribute if it has a tag for its end and none if not, and the white spaces do not follow a comment or an
instruction.  Missing: the other documents, for which it is false (see the theorems below). -/
theorem C41_scope_partial (prolog : List Char) (encoding : Option (List Char)) (standalone : Bool) (pis : List PI)
    (hp : Spec.Source.Prolog prolog encoding standalone pis) (bom : List Char) (hb : bom = [] ∨ bom = ['ï', '»', '¿'])
    (e : Element) (hv : e.Valid) (hs : Scoped e) (rest : List Char) :
    ∃ d, parse (bom ++ prolog ++ e.chars ++ rest) = .ok d ∧ Means false e d.root := by
  obtain ⟨d, h1, _, _, h4, _, _⟩ := parse_src hp hb e hv rest
  exact ⟨d, h1, (scoped_sim e [] d.root hs (fun b h => by simp at h) h4).1⟩

/-! ### A document for C45 -/

/-- `<a x='1'` `y="2" > <b>t</b >u<c/><!--n--> v<?p q?><![CDATA[<]]></a>` -/
def sample45 : Element :=
  .pair c!"a" [⟨[' '], c!"x", '\'', c!"1"⟩, ⟨['\n', ' '], c!"y", '"', c!"it's"⟩] [' ']
    (.text c!" " (.element (.pair c!"b" [] [] (.text c!"t" .nil) [' ']) (.text c!"u" (.element (.empty c!"c" [] [])
      (.comment c!"n" (.text c!" v" (.pi c!"<?p q?>" ⟨c!"p", some c!"q"⟩ (.cdata c!"<" .nil)))))))) []

example : sample45.chars = c!"<a x='1'\n y=\"it's\" > <b>t</b >u<c/><!--n--> v<?p q?><![CDATA[<]]></a>" := by decide +kernel

theorem sample45_instruction : Instruction c!"<?p q?>" ⟨c!"p", some c!"q"⟩ := by
  refine Instruction.full (name := c!"p") (content := c!"q") (blank := []) (w := ' ') (by decide +kernel) (by decide +kernel) ?_ (Or.inl rfl)
    (by decide +kernel) (Or.inl ⟨rfl, by decide⟩)
  rintro ⟨x, m, l, h, _⟩
  cases h

theorem sample45_attrs_valid : Spec.Source.ValidAttrs [⟨[' '], c!"x", '\'', c!"1"⟩, ⟨['\n', ' '], c!"y", '"', c!"it's"⟩] := by
  refine ⟨?_, by decide +kernel⟩
  intro a ha
  simp only [List.mem_cons, List.not_mem_nil, or_false] at ha
  rcases ha with rfl | rfl
  · exact ⟨by decide +kernel, by decide +kernel, by decide +kernel, by decide +kernel, by decide +kernel⟩
  · exact ⟨by decide +kernel, by decide +kernel, by decide +kernel, by decide +kernel, by decide +kernel⟩

theorem sample45_noAttrs : Spec.Source.ValidAttrs [] := ⟨fun _ h => by simp at h, List.nodup_nil⟩

theorem sample45_element_valid : sample45.Valid := by
  simp only [sample45, Element.Valid, Parts.Valid, Spec.Source.isText]
  refine ⟨by decide +kernel, sample45_attrs_valid, by decide +kernel, ⟨by decide +kernel, by decide +kernel, by decide +kernel, id,
    ⟨by decide +kernel, sample45_noAttrs, by decide +kernel, ⟨by decide +kernel, by decide +kernel, by decide +kernel, id, trivial⟩, by decide +kernel, by decide +kernel, by decide +kernel⟩,
    by decide +kernel, by decide +kernel, by decide +kernel, id, ⟨by decide +kernel, sample45_noAttrs, by decide +kernel⟩, by decide +kernel, by decide +kernel,
    by decide +kernel, by decide +kernel, by decide +kernel, id, sample45_instruction, by decide +kernel, by decide +kernel, trivial⟩, by decide +kernel, by decide +kernel, by decide +kernel⟩

theorem sample45_element_plain : NoPreserve sample45 := by
  simp only [sample45, NoPreserve, Spec.Source.NoPreserveParts, Spec.Source.asksPreserve]
  refine ⟨?_, ⟨?_, trivial⟩, ?_, trivial⟩
  · rintro ⟨a, ha, h, _⟩
    simp only [List.mem_cons, List.not_mem_nil, or_false] at ha
    rcases ha with rfl | rfl <;> revert h <;> decide +kernel
  · rintro ⟨a, ha, _⟩; simp at ha
  · rintro ⟨a, ha, _⟩; simp at ha

/-- `<?xml version='1.0' encoding="utf-8"?>`, a comment, a document type and a comment and an instruction. -/
theorem sample45_prolog : Spec.Source.Prolog (c!"<?xml version='1.0' encoding=\"utf-8\"?>" ++ c!"<!--x-->" ++ c!"<!DOCTYPE" ++ c!" a" ++ c!">" ++
    (c!"<!--y-->" ++ (c!"<?p q?>" ++ []))) (some c!"utf-8") false [⟨c!"p", some c!"q"⟩] := by
  have hd : Spec.Source.Decl c!"<?xml version='1.0' encoding=\"utf-8\"?>" (some c!"utf-8") false :=
    Spec.Source.Decl.mk (b1 := [' ']) (enc := c!" encoding=\"utf-8\"") (alone := []) (b2 := []) (q := '\'') (a := none)
      (by decide +kernel) (by decide) (Or.inr rfl)
      (Spec.Source.DeclPart.some (gap := [' ']) (value := c!"utf-8") (q := '"') (by decide +kernel) (by decide) (Or.inl rfl) (by decide) (by decide) (by decide))
      .none (Or.inl rfl) (by decide +kernel)
  have hc : Comment c!"<!--x-->" c!"x" := Comment.mk (text := c!"x") (by decide) (by decide +kernel)
  have hc' : Comment c!"<!--y-->" c!"y" := Comment.mk (text := c!"y") (by decide) (by decide +kernel)
  refine Spec.Source.Prolog.declType (ls := [.comment c!"x"]) (ls' := [.comment c!"y", .pi ⟨c!"p", some c!"q"⟩]) hd
    (Misc.comment (u := []) hc .nil) ?_ (by decide) (Misc.comment hc' (Misc.pi sample45_instruction .nil))
  intro l hl
  simp only [List.mem_singleton] at hl
  exact ⟨_, hl⟩

example : ∃ d, parse c!"<?xml version='1.0' encoding=\"utf-8\"?><!--x--><!DOCTYPE a><!--y--><?p q?><a x='1'\n y=\"it's\" > <b>t</b >u<c/><!--n--> v<?p q?><![CDATA[<]]></a>\n" =
    .ok d ∧ d.encoding = some c!"utf-8" ∧ Means false sample45 d.root ∧ d.pis = [⟨c!"p", some c!"q"⟩] := by
  obtain ⟨d, h1, h2, _, h4, h5, _⟩ := C45_accepts_partial _ _ _ _ sample45_prolog [] (Or.inl rfl) sample45 sample45_element_valid sample45_element_plain c!"\n"
  exact ⟨d, h1, h2, h4, h5⟩

/-! ### Where C45 fails -/

/-- **C45 fails** for a content that begins with `/>`: it is lost, and the end tag is not read. -/
theorem C45_slash_content :
    (parse c!"<a>/>x</a>").toOption.map (fun d => (d.root.name, C27_rootItems d)) = some (c!"a", []) ∧
    (parse c!"<a >/>x</a>").toOption.map C27_rootItems = some [some (.content c!"/>x")] ∧
    (parse c!"<r><a>/>x</a></r>").isError = true := by decide +kernel

/-- **C45 fails** for an empty comment. -/
theorem C45_empty_comment : parse c!"<a><!----></a>" = .error := Res.eq_error (by decide +kernel)

/-- **C45 fails** for two white spaces in an end tag. -/
theorem C45_end_tag : (∃ d, parse c!"<a></a >" = .ok d) ∧ parse c!"<a></a  >" = .error :=
  ⟨Res.exists_ok (by decide +kernel), Res.eq_error (by decide +kernel)⟩

/-- **C45 fails** for a white space before the `=` of an attribute, that is taken for a part of its name, or after
it. -/
theorem C45_around_equal :
    (parse c!"<a b ='1'/>").toOption.map (fun d => (d.root.attrs.getValue c!"b", d.root.attrs.getValue c!"b ")) =
      some (some none, some (some c!"1")) ∧
    parse c!"<a b= '1'/>" = .error := ⟨by decide +kernel, Res.eq_error (by decide +kernel)⟩

/-! ### Documents for C41 -/

/-- `<r> <p xml:space="preserve"> <q xml:space="default"> </q> </p> </r>` -/
def sample41 : Element :=
  .pair c!"r" [] [] (.text c!" " (.element (.pair c!"p" [⟨[' '], c!"xml:space", '"', c!"preserve"⟩] []
    (.text c!" " (.element (.pair c!"q" [⟨[' '], c!"xml:space", '"', c!"default"⟩] [] (.text c!" " .nil) []) (.text c!" " .nil))) []) (.text c!" " .nil))) []

theorem sample41_attr_valid (v : List Char) (hv : v = c!"preserve" ∨ v = c!"default") : Spec.Source.ValidAttrs [⟨[' '], c!"xml:space", '"', v⟩] := by
  refine ⟨?_, by simp⟩
  intro a ha
  simp only [List.mem_cons, List.not_mem_nil, or_false] at ha
  subst ha
  rcases hv with rfl | rfl
  · exact ⟨by decide +kernel, by decide +kernel, Or.inl rfl, by decide +kernel, fun _ => Or.inl rfl⟩
  · exact ⟨by decide +kernel, by decide +kernel, Or.inl rfl, by decide +kernel, fun _ => Or.inr rfl⟩

theorem sample41_element_valid : sample41.Valid := by
  simp only [sample41, Element.Valid, Parts.Valid, Spec.Source.isText]
  have ht : c!" " ≠ [] ∧ '<' ∉ c!" " ∧ Char.ofNat 0 ∉ c!" " := by decide +kernel
  exact ⟨by decide +kernel, sample45_noAttrs, by decide +kernel, ⟨ht.1, ht.2.1, ht.2.2, id,
    ⟨by decide +kernel, sample41_attr_valid _ (Or.inl rfl), by decide +kernel, ⟨ht.1, ht.2.1, ht.2.2, id,
      ⟨by decide +kernel, sample41_attr_valid _ (Or.inr rfl), by decide +kernel, ⟨ht.1, ht.2.1, ht.2.2, id, trivial⟩, by decide +kernel, by decide +kernel, by decide +kernel⟩,
      ht.1, ht.2.1, ht.2.2, id, trivial⟩, by decide +kernel, by decide +kernel, by decide +kernel⟩,
    ht.1, ht.2.1, ht.2.2, id, trivial⟩, by decide +kernel, by decide +kernel, by decide +kernel⟩

theorem sample41_element_scoped : Scoped sample41 := by
  simp only [sample41, Scoped, Spec.Source.ScopedParts, OneEach, Spec.Source.OneEachParts]
  exact Or.inl ⟨fun ⟨a, ha, _⟩ => by simp at ha, Or.inr ⟨rfl, ⟨rfl, trivial⟩, trivial⟩, trivial⟩

/-- The texts of a tree, in order. -/
def C41_texts : Node → List (List Char)
  | .mk _ _ items => go items
where go : Items → List (List Char)
  | .nil => []
  | .node n next => C41_texts n ++ go next
  | .leaf (.content s) next => s :: go next
  | .leaf _ next => go next

example : ∃ d, parse sample41.chars = .ok d ∧ Means false sample41 d.root := by
  have h : Spec.Source.Prolog [] none false (instructions []) := .bare .nil (by simp)
  obtain ⟨d, h1, h2⟩ := C41_scope_partial [] none false _ h [] (Or.inl rfl) sample41 sample41_element_valid sample41_element_scoped []
  exact ⟨d, by simpa using h1, h2⟩

example : (parse c!"<r> <p xml:space=\"preserve\"> <q xml:space=\"default\">\n</q>\t</p> </r>").toOption.map (fun d => C41_texts d.root) =
    some [c!" ", c!"\t"] := by decide +kernel

/-- **C41 fails** after an element without attributes: its end also ends the `preserve` around it. -/
theorem C41_end_of_element : (parse c!"<r xml:space='preserve'>\n<b></b> </r>").toOption.map (fun d => C41_texts d.root) = some [c!"\n"] := by
  decide +kernel

/-- **C41 fails** after an element with another attribute: white spaces are kept after its end. -/
theorem C41_two_attributes : (parse c!"<r>\n<a xml:space='preserve' b='1'></a> </r>").toOption.map (fun d => C41_texts d.root) = some [c!" "] := by
  decide +kernel

/-- **C41 fails** after an empty element with `xml:space`: it goes on after it. -/
theorem C41_empty_element : (parse c!"<r>\n<a xml:space='preserve'/> </r>").toOption.map (fun d => C41_texts d.root) = some [c!" "] := by
  decide +kernel

/-- **C41 fails** after a comment: the white spaces that follow it are lost. -/
theorem C41_after_comment : (parse c!"<r xml:space='preserve'>\n<!--c--> </r>").toOption.map (fun d => C41_texts d.root) = some [c!"\n"] := by
  decide +kernel

end Axl
