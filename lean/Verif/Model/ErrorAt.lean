/-
`axl_error_new` with a stream (src/axl_error.c:139-177), and the functions that tell where the stream
is and what is around.

Simplifications: the blocks `last_near_to` and `last_get_following` of the stream are not represented
here (their memory is in `Model/DtdMem.lean`); an `int` has no limit.
-/
import Verif.Model.Error

namespace Axl.Err
open Str Printf

/-- What is read here of `struct _axlStream` (src/axl_stream.c:83-222): the memory of `stream`, `stream_size`,
`stream_index` and `global_index`. -/
structure At.Stream where
  memory : List Char
  size : Int
  index : Int
  globalIndex : Int
deriving DecidableEq, Repr

/-- `memcpy` of `n` bytes from `memory + i` to a new block with one byte more, as a string; `none`: outside of the memory. -/
def copyText (memory : List Char) (i n : Int) : Option (List Char) :=
  if 0 ≤ i ∧ 0 ≤ n ∧ i + n ≤ memory.length then some (((memory.drop i.toNat).take n.toNat).takeWhile (· ≠ NUL)) else none

/-- `axl_stream_get_near_to` (src/axl_stream.c:1661-1691); `some none`: NULL. -/
def nearTo (s : At.Stream) (count : Int) : Option (Option (List Char)) :=
  if count > 0 then
    let first := if s.index - count ≤ 0 then 0 else s.index - count
    let last := if s.index + count ≥ s.size - 1 then s.size - first else s.index + count - first
    (copyText s.memory first last).map some
  else some none

/-- `axl_stream_get_following` (src/axl_stream.c:1703-1728). -/
def following (s : At.Stream) (count : Int) : Option (Option (List Char)) :=
  if s.index ≥ s.size then some none
  else
    let count := if count + s.index > s.size then s.size - s.index else count
    (copyText s.memory s.index count).map some

/-- An argument of a format: an `int` or a string. -/
inductive FArg where
  | int (n : Int)
  | str (s : List Char)
deriving DecidableEq, Repr

/-- The format (src/axl_error.c:163). -/
def atFormat : List Char :=
  "Error found (stream size: %d, at byte %d (global index: %d), near to ...%s..., while reading: %s): %s\n".toList

/-- `axl_error_new` with a stream (src/axl_error.c:139-177).  A NULL text is not given with a stream. -/
def newAt (has : Bool) (L : Libc FArg) (s : St) (mem : Bool) (code : Int) (text : List Char) (stream : At.Stream)
    (out : Option Nat) : Option St :=
  match out with
  | none => some s
  | some v =>
    if !mem then some s
    else do
      let follow ← following stream 10
      let near ← nearTo stream 10
      let near ← near
      let (s, q) ← match ← strdupPrintf has L (some atFormat) [.int stream.size, .int stream.index, .int stream.globalIndex,
          .str near, .str (follow.getD []), .str text] with
        | .null => some (s, none)
        | .block b => let (s, q) := alloc s (.str b); some (s, some q)
        | .wild => none
      let (s, p) := alloc s (.err code q magic)
      some (store s v (some p))

end Axl.Err
