/-
Model of `axl-knife --dtd-to-c` (knife/axl-knife.c): the C header written for a DTD.

Simplifications: the header is the list of the characters printed; files are opened and written without failure; the answer
of `axl_dtd_parse_from_file` is a parameter; the two times that the file is read, its reads can give different sizes.
-/
import Verif.Model.StreamZero
import Verif.Model.Lit

namespace Axl
namespace DtdToC
open Str FileStream

/-- The search of `axl_knife_file_name` (knife/axl-knife.c:93-97), from the end: `iterator + 1`. -/
def lookup (path : List Char) : Nat → Nat
  | 0 => 0
  | n + 1 => if path[n]? ≠ some '/' then lookup path n else n + 1

/-- `axl_knife_file_name` (knife/axl-knife.c:87-107). -/
def fileName (path : List Char) : List Char := path.drop (lookup path path.length)

/-- `axl_knife_clean_name` (knife/axl-knife.c:116-134). -/
def cleanName (path : List Char) : List Char := path.map fun c => if c = '.' then '_' else if c = '-' then '_' else c

/-- The longest line (knife/axl-knife.c:587-600). -/
def longest (lines : List (List Char)) : Nat := lines.foldl (fun n l => if (toStr l).length > n then (toStr l).length else n) 0

/-- The changes to a line (knife/axl-knife.c:630-642). -/
def change (line : List Char) : List Char :=
  (toStr line).map fun c => if c = '\t' then ' ' else if c = '"' then '\'' else c

/-- `fprintf (fstream, format, ref)` with the format `%-Ns  \` and an end of line (knife/axl-knife.c:606-607, 645). -/
def printLine (width : Nat) (line : List Char) : List Char :=
  line ++ (List.replicate (width - line.length) ' ' ++ c!"  \\\n")

/-- What is printed (knife/axl-knife.c:613-655): for the path, the lines when the longest was looked for and the lines when
they were printed. -/
def printed (path : List Char) (measured lines : List (List Char)) : List Char :=
  c!"/**\n" ++ (c!" * C inline representation for DTD " ++ fileName path ++ c!", created by axl-knife\n") ++ c!" */\n" ++
  (c!"#ifndef __" ++ toUpperStr (cleanName (fileName path)) ++ c!"_H__\n") ++
  (c!"#define __" ++ toUpperStr (cleanName (fileName path)) ++ c!"_H__\n") ++
  (c!"#define " ++ toUpperStr (cleanName (fileName path)) ++ c!" \"\\n\\\n") ++
  lines.flatMap (fun l => printLine (longest measured + 1) (change l)) ++
  c!"\\n\"\n" ++ c!"#endif\n"

/-- `axl_knife_dtd_to_c` (knife/axl-knife.c:547-667) for a file: `none` if the file is not a DTD.  `sizes`: what the reads
give each time. -/
def dtdToC (isDtd : Bool) (path content : List Char) (sizes1 sizes2 : List Nat) (bufSize junk : Nat) : Res (Option (List Char)) :=
  if !isDtd then .ok none
  else
    match StreamZero.pieces junk (2 * content.length + 1) '\n' (content.length + 1) (new ⟨content, sizes1⟩ bufSize),
        StreamZero.pieces junk (2 * content.length + 1) '\n' (content.length + 1) (new ⟨content, sizes2⟩ bufSize) with
    | .ok (measured, _), .ok (lines, _) => .ok (some (printed path measured lines))
    | .ub, _ => .ub
    | _, .ub => .ub
    | _, _ => .loop

end DtdToC
end Axl
