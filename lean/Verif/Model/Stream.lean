/-
Model of the reading side of src/axl_stream.c for a stream in memory (`STREAM_MEM`).

The stream is the list of the characters not read yet: `stream->stream + stream->stream_index`, up to
`stream->stream_size`.  Simplifications: `previous_inspect` is not represented, `axl_stream_peek`
followed by `axl_stream_accept` reads the chunk as `axl_stream_inspect` does; `global_index`, used in
error messages, is not represented; the text returned is a copy in both forms of get_until, the
NUL that the one by reference writes in the stream falls on a terminator already read.
-/
import Verif.Model.Str

namespace Axl
namespace Stream
open Str

/-- What `axl_stream_inspect` answers: -1 when the stream is shorter than the chunk, 0, or 1 and the
stream after the chunk. -/
inductive Look where
  | short
  | no
  | yes (rest : List Char)
deriving DecidableEq, Repr

/-- `axl_stream_common_inspect` (src/axl_stream.c:616-634) with the chunk accepted
(`axl_stream_inspect`, src/axl_stream.c:669-675). -/
def inspect (s chunk : List Char) : Look :=
  if s.length < chunk.length then .short
  else if chunk.isPrefixOf s then .yes (s.drop chunk.length)
  else .no

/-- `axl_stream_inspect (stream, chunk, size) > 0`. -/
def eat (s chunk : List Char) : Option (List Char) :=
  match inspect s chunk with
  | .yes rest => some rest
  | _ => none

/-- `axl_stream_peek (stream, chunk, size) > 0` (src/axl_stream.c:714-720). -/
def peek (s chunk : List Char) : Bool := (eat s chunk).isSome

/-- `axl_stream_inspect_several` (src/axl_stream.c:751-803) with two chunks of the same size. -/
def inspectTwo (s a b : List Char) : Look :=
  match inspect s a with
  | .yes rest => .yes rest
  | .short => .short
  | .no => inspect s b

/-- `axl_stream_consume_white_spaces` (src/axl_stream.c:1959-2001). -/
def skip (s : List Char) : List Char := s.dropWhile isWhite

/-- The walk over the chunks at one place of the stream (src/axl_stream.c:1426-1454): which one is there and its
length.  The chunk " " has length 0 there and is not compared (src/axl_stream.c:1306-1313, 1433). -/
def firstChunk (s : List Char) : Nat → List (List Char) → Option (Nat × Nat)
  | _, [] => none
  | i, chunk :: chunks =>
    if chunk ≠ [' '] ∧ chunk ≠ [] ∧ chunk.isPrefixOf s then some (i, chunk.length)
    else firstChunk s (i + 1) chunks

/-- The checks at one place of the stream (src/axl_stream.c:1400-1454): the chunk " " stands for any white
space and is tried first. -/
def matchAt (chunks : List (List Char)) (c : Char) (s : List Char) : Option (Nat × Nat) :=
  if chunks.contains [' '] && isWhite c then some (chunks.idxOf [' '], 1)
  else firstChunk (c :: s) 0 chunks

/-- What get_until found: the text before, which chunk, the stream at the chunk and after it. -/
structure Found where
  text  : List Char
  chunk : Nat
  at_   : List Char
  after : List Char
deriving DecidableEq, Repr

/-- `__axl_stream_get_untilv_wide` (src/axl_stream.c:1279-1530): `none` is the NULL result, the stream does
not move then. -/
def getUntil (chunks : List (List Char)) : List Char → Option Found
  | [] => none
  | c :: s =>
    match matchAt chunks c s with
    | some (i, n) => some ⟨[], i, c :: s, (c :: s).drop n⟩
    | none => (getUntil chunks s).map fun f => { f with text := c :: f.text }

/-- `axl_stream_get_until_ref` with the terminator accepted (src/axl_stream.c:1071-1094): a text without
bytes gives NULL, because its size is also the flag that asks for a reference
(src/axl_stream.c:1496, 1516-1517), though the stream moves. -/
def getUntilRef (chunks : List (List Char)) (s : List Char) : Option (List Char) × List Char :=
  match getUntil chunks s with
  | none => (none, s)
  | some f => if f.text = [] then (none, f.after) else (some f.text, f.after)

end Stream
end Axl
