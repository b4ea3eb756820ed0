/-
Model of babel/axl_babel.c: the check for UTF-8 and the decoder of single byte encodings.

Bytes are `UInt8` here, as `unsigned char` in the code.
-/
import Verif.Model.Lit

namespace Axl
namespace Babel

/-- `content[i]` as an unsigned char, read only where the index is below the length. -/
def byteAt (content : List UInt8) (i : Nat) : Nat := (content[i]?.getD 0).toNat

/-- `value >= 128 && value <= 191` -/
def isTail (value : Nat) : Bool := 128 ≤ value && value ≤ 191

/-- The branch for 4 octets, inside its condition (babel/axl_babel.c:496-517): if the three tests pass. -/
def fourOk (content : List UInt8) (i : Nat) : Bool :=
  if isTail (byteAt content (i + 1)) && decide (i + 2 < content.length) then
    if isTail (byteAt content (i + 2)) && decide (i + 3 < content.length) then
      isTail (byteAt content (i + 3))
    else false
  else false

/-- The branch for 3 octets, inside its condition (babel/axl_babel.c:523-539). -/
def threeOk (content : List UInt8) (i : Nat) : Bool :=
  if isTail (byteAt content (i + 1)) && decide (i + 2 < content.length) then
    isTail (byteAt content (i + 2))
  else false

/-- One pass of the loop (babel/axl_babel.c:492-569): the step of the iterator, or the error. -/
def checkStep (content : List UInt8) (i : Nat) : Option Nat :=
  let value := byteAt content i
  if 240 ≤ value ∧ value ≤ 247 ∧ i + 1 < content.length then
    if fourOk content i then some 4 else none
  else if 224 ≤ value ∧ value ≤ 239 ∧ i + 1 < content.length then
    if threeOk content i then some 3 else none
  else if 192 ≤ value ∧ value ≤ 223 ∧ i + 1 < content.length then
    if isTail (byteAt content (i + 1)) then some 2 else none
  else if value ≤ 127 then some 1
  else none

/-- What the check answers: `axl_true`, or `axl_false` with `*index_error`; `loop` when it has not
ended after the passes given. -/
inductive Verdict where
  | good
  | bad (index : Nat)
  | loop
deriving DecidableEq, Repr

/-- The loop of `axl_babel_check_utf8_content` (babel/axl_babel.c:491-574). -/
def checkLoop (content : List UInt8) : Nat → Nat → Verdict
  | fuel, i =>
    if i < content.length then
      match fuel with
      | 0 => .loop
      | fuel + 1 =>
        match checkStep content i with
        | some n => checkLoop content fuel (i + n)
        | none => .bad i
    else .good

/-- `axl_babel_check_utf8_content` (babel/axl_babel.c:473-575).  `content`: the memory, `none` is NULL;
`length`: `content_length`, with -1 for the length of the string.  The length given must be that of
memory: reading beyond is undefined behaviour (outer `none`). -/
def checkUtf8 (content : Option (List UInt8)) (length : Int) : Option Verdict :=
  match content with
  | none => some (.bad 0)
  | some mem =>
    if length < -1 then some (.bad 0)
    else if length = -1 then
      if mem.contains 0 then some (checkLoop (mem.takeWhile (· ≠ 0)) (mem.length) 0) else none
    else if length.toNat ≤ mem.length then some (checkLoop (mem.take length.toNat) (mem.length) 0)
    else none

/-- `output[iterator2] = …`: outside of the memory is undefined behaviour. -/
def put (output : List UInt8) (i : Nat) (b : UInt8) : Option (List UInt8) :=
  if i < output.length then some (output.set i b) else none

/-- The inner loop of `axl_babel_single_to_utf8` (babel/axl_babel.c:285-293). -/
def putAll (output : List UInt8) (i : Nat) : List UInt8 → Option (List UInt8)
  | [] => some output
  | b :: bs => (put output i b).bind fun output => putAll output (i + 1) bs

/-- What `axl_babel_single_to_utf8` gives: the result (1 or 2), the memory of the output,
`*output_converted` and, with 2, `*remain_source_index`. -/
structure Decoded where
  result    : Nat
  output    : List UInt8
  converted : Nat
  remain    : Nat
deriving DecidableEq, Repr

/-- The loop of `axl_babel_single_to_utf8` (babel/axl_babel.c:271-298) and its end; `source` is what remains of it
from `iterator`.  The table gives the bytes `buffer[0 .. size)`. -/
def singleLoop (table : UInt8 → List UInt8) (outputSize : Nat) :
    List UInt8 → Nat → Nat → List UInt8 → Option Decoded
  | [], _, iterator2, output => some ⟨1, output, iterator2, 0⟩
  | value :: source, iterator, iterator2, output =>
    if iterator2 < outputSize then
      if iterator2 + (table value).length > outputSize then some ⟨2, output, iterator2, iterator⟩
      else (putAll output iterator2 (table value)).bind fun output =>
        singleLoop table outputSize source (iterator + 1) (iterator2 + (table value).length) output
    else some ⟨2, output, iterator2, iterator⟩

/-- `axl_babel_single_to_utf8` (babel/axl_babel.c:252-312). -/
def single (table : UInt8 → List UInt8) (source output : List UInt8) (outputSize : Nat) : Option Decoded :=
  singleLoop table outputSize source 0 0 output

end Babel
end Axl
