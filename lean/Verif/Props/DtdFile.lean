/-
Property C72: a DTD parsed from a file is the DTD parsed from the content of that file.
-/
import Verif.Proofs.DtdFileWhole
import Verif.Proofs.FileLed

namespace Axl
open Dtd DtdFile

/-- **C72**.  A file that cannot be opened is an error. -/
theorem C72_missing (fuel : Nat) : DtdFile.parseFile fuel none = .error := rfl

/-- **C72** (partial).  A file of up to 8192 bytes, read at once: what is parsed from it, DTD or error, is what is parsed from
its content in memory.  Missing: larger files (see `C72_any_size_partial` and `C72_split_comment`). -/
theorem C72_fits_partial (fuel : Nat) (content : List Char) (hsize : content.length ≤ 8192) :
    DtdFile.parseFile fuel (some content) = Dtd.parse fuel content :=
  read_small fuel (by decide) hsize

/-- **C72** (partial).  A file of any size that ends with white space: each DTD that is parsed from its content is parsed from
the file.  Missing: DTDs with comments (see `C72_split_comment`) or a `%`, files that do not end with white space, and
that what is not a DTD in memory is none in the file. -/
theorem C72_any_size_partial (fuel : Nat) {content : List Char} (hs : Spec.File.Simple content) (hr : '%' ∉ content)
    (hw : Spec.File.EndsWhite content) {d : Dtd} (hp : Dtd.parse fuel content = .ok d) :
    DtdFile.parseFile fuel (some content) = .ok d :=
  read_big fuel (by decide) ⟨hs, hr⟩ hw hp

/-- There is a DTD. -/
def isDtd : Res Dtd → Bool
  | .ok _ => true
  | _ => false

/-- There is an error. -/
def isDtdError : Res Dtd → Bool
  | .error => true
  | _ => false

/-- 8211 bytes: white space, a comment and a declaration. -/
def longDtdComment : List Char := List.replicate 8185 ' ' ++ c!"<!-- --><!ELEMENT a EMPTY>"

theorem dtd_led {k n : Nat} {c : Char} {u : List Char} {fd : Option (FileStream.Source Char)} (hc : Str.isWhite c = false) (fuel : Nat)
    (h : FileParse.comments false (FileParse.left (FileParse.led k (c :: u) 0 n fd) + 1) ⟨[], none, [], [], []⟩ (FileParse.led k (c :: u) k n fd) = .error) :
    DtdFile.parseStream fuel (FileParse.led k (c :: u) 0 n fd) = .error := by
  have hs0 : FileParse.skip (FileParse.led k (c :: u) 0 n fd) = .ok (FileParse.led k (c :: u) k n fd) := by
    unfold FileParse.skip
    refine FileParse.led_skip hc k 0 _ (by omega) ?_
    simp only [FileParse.left, FileParse.led, List.length_append, List.length_replicate]
    omega
  have hs1 : FileParse.skip (FileParse.led k (c :: u) k n fd) = .ok (FileParse.led k (c :: u) k n fd) := by
    unfold FileParse.skip
    exact FileParse.led_skip hc 0 k _ (by omega) (by omega)
  have hcm : ∀ f st, FileParse.comments false (f + 1) st (FileParse.led k (c :: u) 0 n fd) = FileParse.comments false (f + 1) st (FileParse.led k (c :: u) k n fd) := by
    intro f st
    unfold FileParse.comments FileParse.comment
    rw [hs0, hs1]
  have hr : FileStream.remains 0 (FileParse.led k (c :: u) 0 n fd) = .ok (true, FileParse.led k (c :: u) 0 n fd) := by
    unfold FileStream.remains
    rw [if_neg]
    simp [FileParse.led]
  unfold DtdFile.parseStream
  rw [show fuel + 5 = (fuel + 4) + 1 from rfl]
  unfold DtdFile.parseLoop DtdFile.dtdComments
  rw [hr, FileParse.ok_bind]
  simp only [if_true]
  rw [hcm, h]
  rfl

/-- **C72**: not of the code.  A DTD of 8211 bytes is an error when it is read from a file: the `-->` of a comment comes in
two reads, and it is not found. -/
theorem C72_split_comment : isDtd (Dtd.parse 9 longDtdComment) = true ∧ ∀ fuel, isDtdError (DtdFile.parseFile fuel (some longDtdComment)) = true := by
  refine ⟨by decide +kernel, fun fuel => ?_⟩
  have := FileParse.new_led (k := 8185) (n := 8192) (u := c!"<!-- --") (v := c!"><!ELEMENT a EMPTY>") (by decide) (by decide)
  unfold DtdFile.parseFile
  show isDtdError (DtdFile.parseStream fuel (FileStream.new ⟨List.replicate 8185 ' ' ++ (c!"<!-- --" ++ c!"><!ELEMENT a EMPTY>"), []⟩ 8192)) = true
  have hcm : ∀ p, FileParse.comments false (FileParse.left (FileParse.led 8185 c!"<!-- --" 0 8192 (some ⟨c!"><!ELEMENT a EMPTY>", []⟩)) + 1) ⟨[], none, [], [], []⟩
      (FileParse.led 8185 c!"<!-- --" 8185 8192 (some ⟨c!"><!ELEMENT a EMPTY>", []⟩)) = p → p = .error := by
    intro p hp
    have : (match FileParse.comments false (FileParse.left (FileParse.led 8185 c!"<!-- --" 0 8192 (some ⟨c!"><!ELEMENT a EMPTY>", []⟩)) + 1) ⟨[], none, [], [], []⟩
      (FileParse.led 8185 c!"<!-- --" 8185 8192 (some ⟨c!"><!ELEMENT a EMPTY>", []⟩)) with | .error => true | _ => false) = true := by decide +kernel
    rw [hp] at this
    cases p with
    | error => rfl
    | _ => simp at this
  rw [this, dtd_led (by decide) fuel (hcm _ rfl)]
  rfl

/-- A file that fits: a comment, a parameter entity and a reference to it. -/
example : DtdFile.parseFile 30 (some c!"<!-- x --><!ENTITY % t 'CDATA'><!ELEMENT a (b, c?)*><!ATTLIST a n %t; #IMPLIED>") =
    Dtd.parse 30 c!"<!-- x --><!ENTITY % t 'CDATA'><!ELEMENT a (b, c?)*><!ATTLIST a n %t; #IMPLIED>" :=
  C72_fits_partial _ _ (by decide)

example : isDtd (Dtd.parse 30 c!"<!-- x --><!ENTITY % t 'CDATA'><!ELEMENT a (b, c?)*><!ATTLIST a n %t; #IMPLIED>") = true := by decide +kernel

/-- 8206 bytes: white space and a declaration, that is in two reads. -/
def longDtd : List Char := List.replicate 8185 ' ' ++ c!"<!ELEMENT a (b, c?)*>"

example : ∃ d, Dtd.parse 30 (longDtd ++ ['\n']) = .ok d ∧ DtdFile.parseFile 30 (some (longDtd ++ ['\n'])) = .ok d := by
  have : isDtd (Dtd.parse 30 (longDtd ++ ['\n'])) = true := by decide +kernel
  cases h : Dtd.parse 30 (longDtd ++ ['\n']) with
  | ok d =>
    refine ⟨d, rfl, C72_any_size_partial 30 ⟨?_, ?_, ?_⟩ ?_ ⟨longDtd, '\n', by simp [Spec.Xml.White], rfl⟩ h⟩
    · decide +kernel
    · decide +kernel
    · decide +kernel
    · decide +kernel
  | error => rw [h] at this; simp [isDtd] at this
  | ub => rw [h] at this; simp [isDtd] at this
  | loop => rw [h] at this; simp [isDtd] at this

end Axl
