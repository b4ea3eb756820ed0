/-
C66: the C header that `axl-knife --dtd-to-c` writes.
-/
import Verif.Proofs.DtdToC
import Verif.Props.StreamZero
import Verif.Model.DtdParse

namespace Axl
open Str hiding split
open FileStream Spec.FileStream Spec.StreamZero Spec.DtdToC StreamZero DtdToC

/-- **C66** (partial): for every DTD without NUL nor backslash, under a path whose last part makes a name of C, and however the
file is read, a header is written.  A C compiler reads it as a comment of three lines, a guard, one macro and the end of the
guard; the guard and the macro are identifiers, with the name of the
file in capital letters and `_` instead of `.` and `-`; the macro is a string, and the words of the string are those of the DTD with
`'` instead of `"`.  The DTD that is written can be without its last byte, if the file was not read in one time.
Missing: backslashes (`C66_not_backslash`), other names (`C66_not_name`), and that the string is a DTD, let alone the same
(`C66_not_dtd`). -/
theorem C66_header_partial {path file : List Char} (hp : GoodPath path file) {content : List Char} (hn : NUL ∉ content)
    (hb : '\\' ∉ content) (sizes1 sizes2 : List Nat) {bufSize : Nat} (h0 : 0 < bufSize) (junk : Nat) :
    ∃ header line constant written,
      dtdToC true path content sizes1 sizes2 bufSize junk = .ok (some header) ∧
      logicalLines header =
        [c!"/**", c!" * C inline representation for DTD " ++ (file ++ c!", created by axl-knife"), c!" */",
          c!"#ifndef " ++ (c!"__" ++ (macroName file ++ c!"_H__")), c!"#define " ++ (c!"__" ++ (macroName file ++ c!"_H__")), line, c!"#endif", []] ∧
      Identifier (c!"__" ++ (macroName file ++ c!"_H__")) ∧ DefinesString line (macroName file) constant ∧
      words constant = words (oneQuote written) ∧
      (written = content ∨ unread (new ⟨content, sizes2⟩ bufSize).fd ≠ [] ∧ ∃ c, content = written ++ [c]) := by
  obtain ⟨ms, s1, e1, -⟩ := C65_file_partial junk content sizes1 h0 '\n' (by decide) (2 * content.length + 1)
    (content.length + 1) (by omega) (by omega)
  obtain ⟨ls, s2, e2, hw⟩ := C65_file_partial junk content sizes2 h0 '\n' (by decide) (2 * content.length + 1)
    (content.length + 1) (by omega) (by omega)
  have hd : dtdToC true path content sizes1 sizes2 bufSize junk = .ok (some (printed path ms ls)) := by
    unfold dtdToC
    rw [e1, e2]
    rfl
  rcases hw with rfl | ⟨hu, t, c, hc, rfl⟩
  · obtain ⟨line, constant, a1, a2, a3, a4⟩ := printed_spec hp hn hb ms
    exact ⟨_, line, constant, content, hd, a1, a2, a3, a4, .inl rfl⟩
  · have h1 : NUL ∉ t := fun h => hn (by rw [hc]; exact List.mem_append_left _ h)
    have h2 : '\\' ∉ t := fun h => hb (by rw [hc]; exact List.mem_append_left _ h)
    obtain ⟨line, constant, a1, a2, a3, a4⟩ := printed_spec hp h1 h2 ms
    exact ⟨_, line, constant, t, hd, a1, a2, a3, a4, .inr ⟨hu, c, hc⟩⟩

/-- The path of the cases. -/
theorem path66 : GoodPath c!"dtds/my-list.dtd" c!"my-list.dtd" :=
  ⟨c!"dtds/", .inr ⟨c!"dtds", rfl⟩, rfl, by decide +kernel, 'm', rfl, by decide +kernel⟩

/-- A case, read in one time and in pieces: what is printed. -/
example : (match dtdToC true c!"dtds/my-list.dtd" c!"<!ELEMENT a\t(b+)>\n<!ENTITY e \"x\">" [4, 100] [100] 64 0 with
    | .ok (some h) => h | _ => []) =
    (c!"/**\n * C inline representation for DTD my-list.dtd, created by axl-knife\n */\n" ++
      c!"#ifndef __MY_LIST_DTD_H__\n#define __MY_LIST_DTD_H__\n#define MY_LIST_DTD \"\\n\\\n" ++
      c!"<!ELEMENT a (b+)>   \\\n<!ENTITY e 'x'>     \\\n\\n\"\n#endif\n") := by decide +kernel

example : ∃ header line constant written,
      dtdToC true c!"dtds/my-list.dtd" c!"<!ELEMENT a\t(b+)>\n<!ENTITY e \"x\">" [4, 100] [100] 64 0 = .ok (some header) ∧
      logicalLines header =
        [c!"/**", c!" * C inline representation for DTD " ++ (c!"my-list.dtd" ++ c!", created by axl-knife"), c!" */",
          c!"#ifndef " ++ (c!"__" ++ (c!"MY_LIST_DTD" ++ c!"_H__")), c!"#define " ++ (c!"__" ++ (c!"MY_LIST_DTD" ++ c!"_H__")), line, c!"#endif", []] ∧
      Identifier (c!"__" ++ (c!"MY_LIST_DTD" ++ c!"_H__")) ∧ DefinesString line c!"MY_LIST_DTD" constant ∧
      words constant = words (oneQuote written) ∧
      (written = c!"<!ELEMENT a\t(b+)>\n<!ENTITY e \"x\">" ∨
        unread (new ⟨c!"<!ELEMENT a\t(b+)>\n<!ENTITY e \"x\">", [100]⟩ 64).fd ≠ [] ∧
          ∃ c, c!"<!ELEMENT a\t(b+)>\n<!ENTITY e \"x\">" = written ++ [c]) :=
  C66_header_partial path66 (by decide) (by decide) _ _ (by decide) _

/-- **C66**: a file that is not a DTD makes no header. -/
theorem C66_invalid (path content : List Char) (sizes1 sizes2 : List Nat) (bufSize junk : Nat) :
    dtdToC false path content sizes1 sizes2 bufSize junk = .ok none := rfl

/-- The line of the macro. -/
def line66 (r : Res (Option (List Char))) : List Char :=
  match r with
  | .ok (some h) => (logicalLines h).getD 5 []
  | _ => []

/-- **C66**: not of the code.  A backslash of the DTD is written as it is, and a C compiler reads it and the next character as
one: `c:\new` is read as `c:`, an end of line and `ew`. -/
theorem C66_not_backslash :
    Dtd.parse 100 c!"<!ENTITY e \"c:\\new\">" matches .ok _ ∧
    DefinesString (line66 (dtdToC true c!"a.dtd" c!"<!ENTITY e \"c:\\new\">" [100] [100] 64 0)) c!"A_DTD"
      c!"\n<!ENTITY e 'c:\new'>   \n" := by
  refine ⟨by decide +kernel, ⟨by decide, by decide⟩, _, (by decide +kernel :
    line66 (dtdToC true c!"a.dtd" c!"<!ENTITY e \"c:\\new\">" [100] [100] 64 0) =
      c!"#define " ++ c!"A_DTD" ++ [' '] ++ c!"\"\\n<!ENTITY e 'c:\\new'>   \\n\""), by decide +kernel⟩

/-- **C66**: not of the code.  The name of the macro is the name of the file with `.` and `-` changed and nothing else: for a
file that begins with a digit it is not an identifier, and for one with a space the macro has another name. -/
theorem C66_not_name :
    line66 (dtdToC true c!"2x.dtd" c!"<!ELEMENT a (b)>" [100] [100] 64 0) = c!"#define 2X_DTD \"\\n<!ELEMENT a (b)>   \\n\"" ∧
    ¬ Identifier c!"2X_DTD" ∧
    line66 (dtdToC true c!"my x.dtd" c!"<!ELEMENT a (b)>" [100] [100] 64 0) = c!"#define MY X_DTD \"\\n<!ELEMENT a (b)>   \\n\"" := by
  refine ⟨by decide +kernel, ?_, by decide +kernel⟩
  intro h
  exact absurd h.1 (by decide)

/-- **C66**: not of the code.  The string is not always a DTD that the library reads: with a `'` between `"`, the `'` is now
the end of the value. -/
theorem C66_not_dtd :
    Dtd.parse 100 c!"<!ENTITY e \"it's\">" matches .ok _ ∧
    DefinesString (line66 (dtdToC true c!"a.dtd" c!"<!ENTITY e \"it's\">" [100] [100] 64 0)) c!"A_DTD"
      c!"\n<!ENTITY e 'it's'>   \n" ∧
    Dtd.parse 100 c!"\n<!ENTITY e 'it's'>   \n" matches .error := by
  refine ⟨by decide +kernel, ⟨⟨by decide, by decide⟩, _, (by decide +kernel :
    line66 (dtdToC true c!"a.dtd" c!"<!ENTITY e \"it's\">" [100] [100] 64 0) =
      c!"#define " ++ c!"A_DTD" ++ [' '] ++ c!"\"\\n<!ENTITY e 'it's'>   \\n\""), by decide +kernel⟩, by decide +kernel⟩

end Axl
