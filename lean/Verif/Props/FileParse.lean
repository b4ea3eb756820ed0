/-
Property C55: a document parsed from a file is the document parsed from the content of that file.
-/
import Verif.Proofs.FileLed

namespace Axl
open FileParse Spec.File

/-- **C55**.  A file that cannot be opened is an error. -/
theorem C55_missing : parseFile none = .error := rfl

/-- **C55** (partial).  A file of up to 8192 bytes, read at once: what is parsed from it, document or error, is
what is parsed from its content in memory, if no text that begins with white space is at the end of the file.
Missing: such texts at the end (see `C55_leading_white`). -/
theorem C55_fits_partial (content : List Char) (hsize : content.length ≤ 8192) (ht : FarLead content) :
    parseFile (some content) = Parse.parse content :=
  read_small (by decide) hsize ht

/-- **C55** (partial).  A file of any size that ends with white space: each document that is parsed from its content is
parsed from the file.  Missing: documents with comments, instructions or CDATA sections (see
`C55_split_comment`), texts that begin with white space, files that end with the last tag (see `C55_last_tag`),
and that what is not a document in memory is none in the file. -/
theorem C55_any_size_partial {begin text rest : List Char} (hm : begin = [] ∨ begin = mark) (hb : Begun text rest)
    (hs : Simple rest) (ht : NoLead (begin ++ text)) (hw : EndsWhite text) {d : Doc}
    (hp : Parse.parse (begin ++ text) = .ok d) : parseFile (some (begin ++ text)) = .ok d :=
  read_big (by decide) hm hb hs ht hw hp

/-- The text at the beginning of the root, if there is a document. -/
def firstText : Res Doc → Option (List Char)
  | .ok d =>
    match d.root.items with
    | .leaf (.content s) _ => some s
    | _ => none
  | _ => none

/-- **C55**: not of the code.  The white space at the beginning of a text near to the end is in the document parsed from memory,
and not in the one parsed from a file. -/
theorem C55_leading_white :
    firstText (Parse.parse c!"<a>  x</a>") = some c!"  x" ∧ firstText (parseFile (some c!"<a>  x</a>")) = some c!"x" ∧
    firstText (parseFile (some c!"<a>  x</a>    ")) = some c!"  x" := by
  decide +kernel

/-- There is a document. -/
def isDoc : Res Doc → Bool
  | .ok _ => true
  | _ => false

/-- There is an error. -/
def isError : Res Doc → Bool
  | .error => true
  | _ => false

/-- 8193 bytes: white space, and an element. -/
def longTag : List Char := List.replicate 8156 ' ' ++ c!"<abcdefghijklmnop></abcdefghijklmnop>"

/-- 8197 bytes: white space, a comment and an element. -/
def longComment : List Char := List.replicate 8185 ' ' ++ c!"<!-- --><a/>"

/-- A file of two reads that meets `C55_any_size_partial`. -/
theorem two_reads : ∃ d, Parse.parse (longTag ++ ['\n']) = .ok d ∧ parseFile (some (longTag ++ ['\n'])) = .ok d := by
  have : isDoc (Parse.parse (longTag ++ ['\n'])) = true := by decide +kernel
  cases h : Parse.parse (longTag ++ ['\n']) with
  | ok d =>
    refine ⟨d, rfl, C55_any_size_partial (begin := []) (.inl rfl) (.plain _ ?_ ?_ ?_) ⟨?_, ?_, ?_⟩ ?_ ?_ h⟩
    · decide +kernel
    · decide +kernel
    · decide +kernel
    · decide +kernel
    · decide +kernel
    · decide +kernel
    · exact noLead_of_check (by decide +kernel)
    · exact ⟨longTag, '\n', by simp [Spec.Xml.White], rfl⟩
  | error => rw [h] at this; simp [isDoc] at this
  | ub => rw [h] at this; simp [isDoc] at this
  | loop => rw [h] at this; simp [isDoc] at this

/-- **C55**: not of the code.  A document of 8193 bytes is an error when it is read from a file: the `>` that ends it comes
alone in the second read, and it is not found.  With a line end behind it, it is found. -/
theorem C55_last_tag : isDoc (Parse.parse longTag) = true ∧ isError (parseFile (some longTag)) = true ∧
    isDoc (parseFile (some (longTag ++ ['\n']))) = true := by
  refine ⟨by decide +kernel, ?_, ?_⟩
  · have := new_led (k := 8156) (n := 8192) (u := c!"<abcdefghijklmnop></abcdefghijklmnop") (v := c!">") (by decide) (by decide)
    unfold parseFile
    show isError (parseStream (FileStream.new ⟨List.replicate 8156 ' ' ++ (c!"<abcdefghijklmnop></abcdefghijklmnop" ++ c!">"), []⟩ 8192)) = true
    rw [this, parse_led (by decide) (by decide)]
    decide +kernel
  · obtain ⟨d, -, h⟩ := two_reads
    rw [h]
    rfl

/-- **C55**: not of the code.  A document of 8197 bytes is an error when it is read from a file: the `-->` of a comment comes
in two reads, and it is not found. -/
theorem C55_split_comment : isDoc (Parse.parse longComment) = true ∧ isError (parseFile (some longComment)) = true := by
  refine ⟨by decide +kernel, ?_⟩
  have := new_led (k := 8185) (n := 8192) (u := c!"<!-- --") (v := c!"><a/>") (by decide) (by decide)
  unfold parseFile
  show isError (parseStream (FileStream.new ⟨List.replicate 8185 ' ' ++ (c!"<!-- --" ++ c!"><a/>"), []⟩ 8192)) = true
  rw [this, parse_led (by decide) (by decide)]
  decide +kernel

/-- A file that fits: a text, an element and an instruction, with a mark and a declaration. -/
example : parseFile (some (mark ++ c!"<?xml version='1.0'?>\n<a>x <b/>\n</a><?end?>")) =
    Parse.parse (mark ++ c!"<?xml version='1.0'?>\n<a>x <b/>\n</a><?end?>") :=
  C55_fits_partial _ (by decide) (farLead_of_noLead (noLead_of_check (by decide +kernel)))

/-- A file that fits, with a text that begins with white space. -/
example : parseFile (some c!"<a>  x</a>    ") = Parse.parse c!"<a>  x</a>    " :=
  C55_fits_partial _ (by decide) (farLead_of_check (by decide +kernel))

/-- A file with a mark and a declaration. -/
example : ∃ d, parseFile (some (mark ++ c!"<?xml version='1.0' encoding='utf-8'?>\n<a>x <b/>\n</a>\n")) = .ok d := by
  refine ⟨_, C55_any_size_partial (.inr rfl) (.declared c!" " [] c!"'1.0'" c!" encoding='utf-8'?>\n<a>x <b/>\n</a>\n" ?_ ?_ (.inr rfl))
    ⟨?_, ?_, ?_⟩ ?_ ⟨c!"<?xml version='1.0' encoding='utf-8'?>\n<a>x <b/>\n</a>", '\n', by simp [Spec.Xml.White], rfl⟩ rfl⟩
  · simp [Spec.Xml.White]
  · simp [Spec.Xml.White]
  · decide +kernel
  · decide +kernel
  · decide +kernel
  · exact noLead_of_check (by decide +kernel)

end Axl
