/-
Model of `axl_stream_push`, `axl_stream_peek`, `axl_stream_inspect`, `axl_stream_accept`, `axl_stream_move` and
`axl_stream_step` over the bytes of a stream in memory (src/axl_stream.c).

`none` is undefined behaviour: a byte is read or written out of its block.  Simplifications: an allocation does not fail
and gives zeros (`axl_new` is calloc); the other fields of the stream (`last_chunk`, `global_index`) are in
`Model/MemStream`; the sizes given are not negative; a chunk comes with its length.
-/
import Verif.Model.Str

namespace Axl
namespace StreamPush
open Str

/-- `struct _axlStream` (src/axl_stream.c:83-222): `stream`, `temp`, `buffer_size`, `stream_size`, `stream_index` and
`previous_inspect`. -/
structure S where
  mem    : List Char
  temp   : Option (List Char)
  buffer : Nat
  size   : Nat
  index  : Nat
  prev   : Nat
deriving DecidableEq, Repr

/-- `memcpy`: `n` bytes of `src` from byte `from_`, to `dst` at byte `at_`. -/
def memcpy (dst : List Char) (at_ : Nat) (src : List Char) (from_ n : Nat) : Option (List Char) :=
  if at_ + n ≤ dst.length ∧ from_ + n ≤ src.length then
    some (dst.take at_ ++ ((src.drop from_).take n ++ dst.drop (at_ + n)))
  else none

/-- `axl_new (char, n)`. -/
def zeros (n : Nat) : List Char := List.replicate n NUL

/-- `axl_stream_new` with a chunk of memory (src/axl_stream.c:561-590). -/
def new (source : List Char) (size : Nat) : Option S := do
  let mem ← memcpy (zeros (size + 1)) 0 source 0 size
  let mem ← memcpy mem size [NUL] 0 1
  pure ⟨mem, none, size, size, 0, 0⟩

/-- `axl_stream_accept` (src/axl_stream.c:812-826). -/
def accept (s : S) : S := { s with index := s.index + s.prev, prev := 0 }

/-- The two buffers, once there is room for the content (src/axl_stream.c:853-866, 874-883): `content` and what was not
read are put in `temp`, that is copied to `mem`. -/
def displace (s : S) (temp mem content : List Char) (size : Nat) : Option (List Char × List Char) := do
  if s.index ≤ s.size then do
    let temp ← memcpy temp 0 content 0 size
    let temp ← memcpy temp size s.mem s.index (s.size - s.index)
    let mem ← memcpy mem 0 temp 0 (s.size - s.index + size)
    pure (temp, mem)
  else none

/-- `axl_stream_push` (src/axl_stream.c:837-898).  A count that would be negative is undefined behaviour in
`displace`. -/
def push (s : S) (content : List Char) (size : Nat) : Option S := do
  if s.index < size then do
    let buffer := s.size + size - s.index
    let (temp, mem) ← displace s (zeros (buffer + 1)) (zeros (buffer + 1)) content size
    pure (accept { s with mem := mem, temp := some temp, buffer := buffer, size := s.size - s.index + size, index := 0 })
  else do
    let (temp, mem) ← displace s (s.temp.getD (zeros (s.buffer + 1))) s.mem content size
    pure (accept { s with mem := mem, temp := some temp, size := s.size - s.index + size, index := 0 })

/-- The loop of `axl_stream_common_inspect` (src/axl_stream.c:621-634) from byte `i`. -/
def sameBytes (mem : List Char) : List Char → Nat → Option Bool
  | [], _ => some true
  | c :: cs, i =>
    match mem[i]? with
    | none => none
    | some b => if b = NUL then some false else if c ≠ b then some false else sameBytes mem cs (i + 1)

/-- `axl_stream_peek` (src/axl_stream.c:714-720, 616-634).  An empty chunk is not found. -/
def peek (s : S) (chunk : List Char) : Option (Int × S) :=
  if chunk.length + s.index > s.size then some (-1, s)
  else if chunk.isEmpty then some (0, s)
  else
    match sameBytes s.mem chunk s.index with
    | none => none
    | some true => some (1, { s with prev := chunk.length })
    | some false => some (0, s)

/-- `axl_stream_inspect` (src/axl_stream.c:669-675, 616-634). -/
def inspect (s : S) (chunk : List Char) : Option (Int × S) :=
  match peek s chunk with
  | none => none
  | some (r, s) => some (r, if r = 1 then accept s else s)

/-- `axl_stream_move` (src/axl_stream.c:911-919). -/
def move (s : S) (index : Nat) : S := { accept s with index := index }

/-- `axl_stream_step` (src/axl_stream.c:928-937). -/
def step (s : S) (bytes : Nat) : S := { accept s with index := (accept s).index + bytes }

/-- A call. -/
inductive Call where
  | push (content : List Char) (size : Nat)
  | peek (chunk : List Char)
  | inspect (chunk : List Char)
  | accept
  | move (index : Nat)
  | step (bytes : Nat)

/-- One call: its answer, 0 if it has none, and the stream. -/
def call (s : S) : Call → Option (Int × S)
  | .push content size => (push s content size).map (0, ·)
  | .peek chunk => peek s chunk
  | .inspect chunk => inspect s chunk
  | .accept => some (0, accept s)
  | .move index => some (0, move s index)
  | .step bytes => some (0, step s bytes)

/-- Calls one after another: the answers and the stream. -/
def calls (s : S) : List Call → Option (List Int × S)
  | [] => some ([], s)
  | c :: cs => do
    let (r, s) ← call s c
    let (rs, s) ← calls s cs
    pure (r :: rs, s)

end StreamPush
end Axl
