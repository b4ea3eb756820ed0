/-
Model of the escaping of contents and attribute values (src/axl_node.c) and of the functions that
store and read contents with it.
-/
import Verif.Model.Str

namespace Axl
namespace Escape
open Str

/-- The check for `]]>` (src/axl_node.c:412 and 5210): the bytes are read from the memory that holds
the content, whatever its size; `none` is a read outside of that memory. -/
def cdataEndAt (mem : List Char) (i : Nat) : Option Bool := do
  let a ← mem[i]?
  if a ≠ ']' then some false
  else
    let b ← mem[i + 1]?
    if b ≠ ']' then some false
    else
      let c ← mem[i + 2]?
      some (c == '>')

/-- The five checks for one character (src/axl_node.c:5169-5207). -/
def scanChar (c : Char) (r : Bool × Nat) : Bool × Nat :=
  let r := if c = '\'' then (true, r.2 + 5) else r
  let r := if c = '"' then (true, r.2 + 5) else r
  let r := if c = '&' then (true, r.2 + 4) else r
  let r := if c = '>' then (true, r.2 + 3) else r
  if c = '<' then (true, r.2 + 3) else r

/-- The loop of `axl_node_has_invalid_chars_internal` (src/axl_node.c:5168-5230). -/
def scanLoop (mem : List Char) (size : Nat) (cdata : Bool) : Nat → Nat → Bool × Nat → Option (Bool × Nat)
  | 0, _, _ => none
  | fuel + 1, i, r =>
    if i < size then
      match mem[i]? with
      | none => none
      | some c =>
        match cdataEndAt mem i with
        | none => none
        | some true => scanLoop mem size cdata fuel (i + 3) (true, (scanChar c r).2 + (if cdata then 15 else 3))
        | some false => scanLoop mem size cdata fuel (i + 1) (scanChar c r)
    else some r

/-- `axl_node_has_invalid_chars_internal` (src/axl_node.c:5148-5237) with a size that is not -1:
whether there is something to escape, and the additional size. -/
def hasInvalidChars (mem : List Char) (size : Nat) (cdata : Bool) : Option (Bool × Nat) :=
  scanLoop mem size cdata (size + 1) 0 (false, 0)

/-- The loop of `__axl_node_content_copy_and_escape` (src/axl_node.c:370-432): the bytes written, one
after the other from the beginning of the result. -/
def copyLoop (mem : List Char) (size : Nat) (cdata : Bool) : Nat → Nat → List Char → Option (List Char)
  | 0, _, _ => none
  | fuel + 1, i, out =>
    if i < size then
      match mem[i]? with
      | none => none
      | some c =>
        if c = '\'' then copyLoop mem size cdata fuel (i + 1) (out ++ "&apos;".toList)
        else if c = '"' then copyLoop mem size cdata fuel (i + 1) (out ++ "&quot;".toList)
        else if c = '&' then copyLoop mem size cdata fuel (i + 1) (out ++ "&amp;".toList)
        else if c = '>' then copyLoop mem size cdata fuel (i + 1) (out ++ "&gt;".toList)
        else if c = '<' then copyLoop mem size cdata fuel (i + 1) (out ++ "&lt;".toList)
        else match cdataEndAt mem i with
          | none => none
          | some true =>
            if cdata then copyLoop mem size cdata fuel (i + 3) (out ++ "]]>]]&gt;<![CDATA[".toList)
            else copyLoop mem size cdata fuel (i + 3) (out ++ "]]&gt;".toList)
          | some false => copyLoop mem size cdata fuel (i + 1) (out ++ [c])
    else some out

/-- `__axl_node_content_copy_and_escape` (src/axl_node.c:356-436): the array allocated, zeroed, with
the bytes written; `none` if they do not fit. -/
def copyAndEscape (mem : List Char) (size additional : Nat) (cdata : Bool) : Option (List Char) := do
  let out ← copyLoop mem size cdata (size + 1) 0 []
  if out.length ≤ size + additional + 1 then
    some (out ++ List.replicate (size + additional + 1 - out.length) NUL)
  else none

/-- The loop of `axl_node_content_translate_defaults` (src/axl_node.c:475-533), in place. -/
def transLoop (size : Nat) : Nat → Nat → Nat → List Char → Option (List Char × Nat)
  | 0, _, _, _ => none
  | fuel + 1, i, j, b =>
    if i < size then
      let at_ (ent : List Char) : Option Bool := streamCmp (toStr (b.drop i)) ent ent.length
      match at_ "&apos;".toList, at_ "&quot;".toList, at_ "&amp;".toList, at_ "&gt;".toList, at_ "&lt;".toList with
      | some true, _, _, _, _ => (wr b j '\'').bind (transLoop size fuel (i + 6) (j + 1))
      | some false, some true, _, _, _ => (wr b j '"').bind (transLoop size fuel (i + 6) (j + 1))
      | some false, some false, some true, _, _ => (wr b j '&').bind (transLoop size fuel (i + 5) (j + 1))
      | some false, some false, some false, some true, _ => (wr b j '>').bind (transLoop size fuel (i + 4) (j + 1))
      | some false, some false, some false, some false, some true =>
        (wr b j '<').bind (transLoop size fuel (i + 4) (j + 1))
      | some false, some false, some false, some false, some false =>
        if j ≠ i then
          match rd b i with
          | none => none
          | some c => (wr b j c).bind (transLoop size fuel (i + 1) (j + 1))
        else transLoop size fuel (i + 1) (j + 1) b
      | _, _, _, _, _ => none
    else (wr b j NUL).map (fun b => (b, j))

/-- The size used by `axl_node_content_translate_defaults` (src/axl_node.c:471-472). -/
def transSize (b : List Char) (size : Int) : Option Nat :=
  if size = 0 ∨ size = -1 then strlen b else some size.toNat

/-- `axl_node_content_translate_defaults` (src/axl_node.c:461-535): the array and the size. -/
def translate (b : List Char) (size : Int) : Option (List Char × Nat) :=
  (transSize b size).bind (fun size => transLoop size (size + 1) 0 0 b)

/-! ### Contents -/

/-- A stored content: its memory and its size (`axlNodeContent`, src/axl_node.c:44-60). -/
structure Content where
  mem : List Char
  size : Nat
deriving DecidableEq, Repr

/-- The size used when -1 is given (src/axl_node.c:2799-2800, 2984-2985). -/
def sizeOr (mem : List Char) (size : Int) : Option Nat := if size = -1 then strlen mem else some size.toNat

/-- The content stored by `axl_node_set_content` (src/axl_node.c:2788-2830). -/
def setContent (mem : List Char) (size : Int) : Option Content := do
  let size ← sizeOr mem size
  let (invalid, additional) ← hasInvalidChars mem size false
  if invalid then
    let m ← copyAndEscape mem size additional false
    some { mem := m, size := size + additional }
  else if size ≤ mem.length then some { mem := mem.take size ++ [NUL], size := size }
  else none

/-- The content stored by `axl_node_set_cdata_content` (src/axl_node.c:2973-3004).  Without escapes
the string is duplicated up to its terminator. -/
def setCdataContent (mem : List Char) (size : Int) : Option Content := do
  let size ← sizeOr mem size
  let (invalid, additional) ← hasInvalidChars mem size true
  if invalid then
    let m ← copyAndEscape mem size additional true
    some { mem := m, size := size + additional }
  else do
    let _ ← strlen mem
    some { mem := toStr mem ++ [NUL], size := size }

/-- `memcpy` of a content into memory allocated for its size and a terminator. -/
def copyOut (c : Content) : Option (List Char) := if c.size ≤ c.mem.length then some (c.mem.take c.size) else none

/-- The copies of `axl_node_get_content_trans_copy` (src/axl_node.c:3214-3241). -/
def copyAll : List Content → Option (List Char)
  | [] => some []
  | c :: cs => do
    let a ← copyOut c
    let r ← copyAll cs
    some (a ++ r)

/-- `axl_node_get_content_copy` (src/axl_node.c:3086-3118) for a node whose first content is `c`: the
memory returned and the size reported. -/
def getContentCopy (c : Content) : Option (List Char × Nat) := do
  let n ← strlen c.mem
  if n = 0 then some ([NUL], c.size)
  else
    let m ← copyOut c
    some (m ++ [NUL], c.size)

/-- `axl_node_get_content_trans` (src/axl_node.c:3258-3315) for a node with these contents (text and
CDATA, in order): NULL, or the memory returned and the size reported. -/
def getContentTrans (contents : List Content) : Option (Option (List Char × Nat)) :=
  let finish (r : List Char × Nat) : Option (Option (List Char × Nat)) := do
    let n ← strlen r.1
    if n = 0 then some (some r)
    else (translate r.1 r.2).map some
  match contents with
  | [] => some none
  | [c] => (getContentCopy c).bind finish
  | contents => do
    let total := (contents.map Content.size).sum
    let m ← copyAll contents
    finish (m ++ [NUL], total)

/-- The value stored by `axl_node_set_attribute` (src/axl_node.c:1190-1202; the same for the name,
1175-1187). -/
def setValue (mem : List Char) : Option (List Char) := do
  let size ← strlen mem
  let (invalid, additional) ← hasInvalidChars mem size false
  if invalid then copyAndEscape mem size additional false
  else some (toStr mem ++ [NUL])

/-- `axl_node_get_attribute_value_trans` (src/axl_node.c:1547-1563) on the value stored. -/
def getValueTrans (value : List Char) : Option (List Char) := do
  let size ← strlen value
  let r ← translate (toStr value ++ [NUL]) size
  some r.1

end Escape
end Axl
