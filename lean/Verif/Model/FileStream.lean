/-
Model of src/axl_stream.c for a stream that reads from a file descriptor (`STREAM_FD`): the buffer, its
refill, the decoding of what is read and the functions that read from it.

A stream in memory (`STREAM_MEM`) is one whose descriptor is closed: `axl_stream_prebuffer` gives
`axl_false` for both.  Simplifications: `read` never fails (-1), `realloc` never fails; the buffer is the
list of its valid bytes, so a read of a byte behind `stream_size` (left from an earlier content) is
undefined behaviour; `previous_inspect` and `global_index` are not represented.
-/
import Verif.Model.Parse
import Verif.Model.Babel

namespace Axl
namespace FileStream

/-- What `read` has to give: the bytes left and how many bytes each of the following calls gives at most (a call
gives at least one byte while there are).  When the list ends, as many as asked for. -/
structure Source (α : Type) where
  rest  : List α
  sizes : List Nat

/-- `read (fd, memory, room)`: the bytes, none at the end of the file. -/
def Source.read {α : Type} (s : Source α) (room : Nat) : List α × Source α :=
  match s.sizes with
  | [] => (s.rest.take room, ⟨s.rest.drop room, []⟩)
  | n :: ns => (s.rest.take (min (max n 1) room), ⟨s.rest.drop (min (max n 1) room), ns⟩)

/-- The decoder: from the source and the room, the output and what remains of the source; `none` is
undefined behaviour. -/
abbrev Decoder (α : Type) := List α → Nat → Option (List α × List α)

/-- `struct _axlStream` (src/axl_stream.c:83-222). -/
structure FS (α : Type) where
  /-- `stream[0 .. stream_size)` -/
  data    : List α
  /-- `stream_index` -/
  index   : Nat
  /-- `buffer_size` -/
  bufSize : Nat
  /-- `fd`: `none` is -1 -/
  fd      : Option (Source α)
  /-- `decode_f` -/
  decoder : Option (Decoder α)
  /-- `decode_temp[0 .. decode_temp_last)` -/
  temp    : List α
  /-- `decode_temp_size` -/
  tempSize : Nat
  /-- `needs_expansion` -/
  expand  : Bool
  /-- `check_f` -/
  check   : Option (List α → Bool)

section
variable {α : Type}

/-- The place made in the buffer before reading (src/axl_stream.c:269-337). -/
def shift (s : FS α) : FS α :=
  if s.index > 0 ∧ s.index < s.data.length then
    { s with data := s.data.drop s.index, index := 0 }
  else if (s.data.length = s.bufSize ∧ s.index = 0) ∨ s.expand then
    { s with bufSize := s.bufSize + s.bufSize, expand := false, index := 0 }
  else
    { s with data := if s.data.length = s.index then [] else s.data, index := 0 }

/-- `check_f` accepts the bytes, if there is one (src/axl_stream.c:424-430, 3615-3631). -/
def accepts (s : FS α) (bytes : List α) : Bool :=
  match s.check with
  | none => true
  | some f => f bytes

/-- The read without decoder (src/axl_stream.c:411-443). -/
def readPlain (s : FS α) (src : Source α) : Bool × FS α :=
  let (bytes, src) := src.read (s.bufSize - s.data.length)
  if !accepts s bytes then (false, { s with fd := some src })
  else if bytes.isEmpty then (false, { s with fd := none })
  else (true, { s with data := s.data ++ bytes, fd := some src })

/-- The read into `decode_temp` (src/axl_stream.c:387-397). -/
def readTemp (s : FS α) : FS α :=
  match s.fd with
  | none => s
  | some src =>
    let (bytes, src) := src.read (s.tempSize - s.temp.length)
    if bytes.isEmpty then { s with fd := none }
    else { s with temp := s.temp ++ bytes, fd := some src }

/-- `axl_stream_decode` (src/axl_stream.c:3520-3607) with the bytes put at the end of the buffer, and the flag
set after it (src/axl_stream.c:348-373): the result of the decoder and the stream. -/
def decode (f : Decoder α) (s : FS α) : Res (Nat × FS α) :=
  match f s.temp (s.bufSize - s.data.length) with
  | none => .ub
  | some (out, rest) =>
    if rest.isEmpty then .ok (1, { s with data := s.data ++ out, temp := [] })
    else .ok (2, { s with data := s.data ++ out, temp := rest, expand := s.expand || out.isEmpty })

/-- The call to the decoder when something waits for it (src/axl_stream.c:348-373). -/
def decodeIf (f : Decoder α) (op : Nat) (s : FS α) : Res (Nat × FS α) :=
  if s.temp.isEmpty then .ok (op, s) else decode f s

/-- The loop of `axl_stream_prebuffer` with a decoder (src/axl_stream.c:341-409).  `op`: the value of
`op_result`, which is not initialised before the first call to the decoder. -/
def decodeLoop (f : Decoder α) : Nat → Nat → FS α → Res (Bool × FS α)
  | 0, _, _ => .loop
  | fuel + 1, op, s => do
    let (op, s) ← decodeIf f op s
    if op = 2 then .ok (true, s)
    else if s.data.length < s.bufSize then
      if (readTemp s).temp.isEmpty && (readTemp s).fd.isNone then .ok (true, readTemp s)
      else decodeLoop f fuel op (readTemp s)
    else .ok (true, s)

/-- `axl_stream_prebuffer` (src/axl_stream.c:253-452).  `junk`: the value of `op_result` at the beginning. -/
def prebuffer (junk : Nat) (s : FS α) : Res (Bool × FS α) :=
  match s.fd with
  | none => .ok (false, s)
  | some src =>
    match s.decoder with
    | none => .ok (readPlain (shift s) src)
    | some f => decodeLoop f ((shift s).bufSize + 3) junk (shift s)

/-- `axl_stream_new` for a descriptor (src/axl_stream.c:546-594). -/
def new (src : Source α) (bufSize : Nat) : FS α :=
  (readPlain ⟨[], 0, bufSize, some src, none, [], 0, false, none⟩ src).2

/-- `axl_stream_new` for a memory chunk (src/axl_stream.c:571-594). -/
def newMem (content : List α) : FS α := ⟨content, 0, content.length, none, none, [], 0, false, none⟩

/-- `axl_stream_setup_decode` (src/axl_stream.c:3651-3703). -/
def setupDecode (f : Decoder α) (s : FS α) : Res (FS α) :=
  match f (s.data.drop s.index) (s.bufSize - s.index) with
  | none => .ub
  | some (out, rest) => .ok { s with
      decoder := some f, tempSize := s.bufSize * 2 + 1, temp := rest, data := s.data.take s.index ++ out }

/-- `axl_stream_setup_check` (src/axl_stream.c:3725-3751). -/
def setupCheck (f : List α → Bool) (s : FS α) : Option (FS α) :=
  if f (s.data.drop s.index) then some { s with check := some f } else none

end

open Str Stream

/-- The loop of `axl_stream_consume_white_spaces` (src/axl_stream.c:1959-2001). -/
def skip (junk : Nat) : Nat → FS Char → Res (FS Char)
  | 0, _ => .loop
  | fuel + 1, s =>
    match s.data[s.index]? with
    | some c => if isWhite c then skip junk fuel { s with index := s.index + 1 } else .ok s
    | none => do
      let (more, s) ← prebuffer junk s
      if more then
        match s.data[s.index]? with
        | some c => if isWhite c then skip junk fuel { s with index := s.index + 1 } else .ok s
        | none => .ub
      else .ok s

/-- The comparison of `axl_stream_common_inspect` (src/axl_stream.c:621-634): `none` is a byte behind the
content. -/
def compare : List Char → List Char → Option Bool
  | [], _ => some true
  | c :: chunk, x :: data => if c = x then compare chunk data else some false
  | _ :: _, [] => none

/-- The comparison and, if the chunk is there, its acceptance (src/axl_stream.c:621-634, 812-826). -/
def inspectHere (s : FS Char) (chunk : List Char) (accept : Bool) : Res (Look × FS Char) :=
  match compare chunk (s.data.drop s.index) with
  | none => .ub
  | some false => .ok (.no, s)
  | some true =>
    .ok (.yes (s.data.drop (s.index + chunk.length)),
      if accept then { s with index := s.index + chunk.length } else s)

/-- `axl_stream_inspect` and `axl_stream_peek` (src/axl_stream.c:616-720) with `axl_stream_fall_outside`
(src/axl_stream.c:2090-2099). -/
def inspect (junk : Nat) (s : FS Char) (chunk : List Char) (accept : Bool) : Res (Look × FS Char) :=
  if chunk.length + s.index > s.data.length then do
    let (more, s) ← prebuffer junk s
    if more then inspectHere s chunk accept else .ok (.short, s)
  else inspectHere s chunk accept

/-- `axl_stream_remains` (src/axl_stream.c:2131-2149). -/
def remains (junk : Nat) (s : FS Char) : Res (Bool × FS Char) :=
  if s.index ≥ s.data.length then prebuffer junk s else .ok (true, s)

/-- The chunk found at a place of the buffer (src/axl_stream.c:1400-1454): `none` outside is undefined behaviour. -/
def matchHere (chunks : List (List Char)) (data : List Char) (at_ : Nat) : Option (Option (Nat × Nat)) :=
  match data.drop at_ with
  | c :: rest => some (matchAt chunks c rest)
  | [] => if chunks.contains [' '] then none else some none

/-- The text found and the stream after it (src/axl_stream.c:1478-1520). -/
structure Got where
  text  : List Char
  chunk : Nat
deriving DecidableEq, Repr

/-- The end of get_until (src/axl_stream.c:1474-1520). -/
def finish (accept : Bool) (s : FS Char) (i chunk length : Nat) : Option Got × FS Char :=
  (some ⟨(s.data.drop s.index).take i, chunk⟩,
    { s with index := s.index + i + (if accept then length else 0) })

/-- The checks at one place, with the refill that a more specific chunk asks for
(src/axl_stream.c:1400-1470): what was found and the stream. -/
def scan (junk : Nat) (chunks : List (List Char)) (maxLen : Nat) :
    Nat → FS Char → Nat → Res (Option (Nat × Nat) × FS Char)
  | 0, _, _ => .loop
  | fuel + 1, s, i =>
    match matchHere chunks s.data (s.index + i) with
    | none => .ub
    | some none => .ok (none, s)
    | some (some (chunk, length)) =>
      if length < maxLen ∧ s.index + i + length = s.data.length then do
        let (more, s) ← prebuffer junk s
        if more then scan junk chunks maxLen fuel s i else .ok (some (chunk, length), s)
      else .ok (some (chunk, length), s)

/-- The loop of `__axl_stream_get_untilv_wide` (src/axl_stream.c:1337-1526).  `remains` is the value at the
beginning of the pass and `i` is `index`. -/
def untilLoop (junk : Nat) (chunks : List (List Char)) (maxLen : Nat) (accept : Bool) (fuel2 : Nat) :
    Nat → Int → Nat → FS Char → Res (Option Got × FS Char)
  | 0, _, _, _ => .loop
  | fuel + 1, remains, i, s =>
    if remains - 1 < 0 then do
      let (more, s) ← prebuffer junk s
      if more then do
        let (found, s') ← scan junk chunks maxLen fuel2 s (i - 1)
        match found with
        | some (chunk, length) => .ok (finish accept s' (i - 1) chunk length)
        | none => untilLoop junk chunks maxLen accept fuel2 fuel (s.data.length - i - 1 : Int) (i - 1 + 1) s'
      else .ok (none, s)
    else do
      let (found, s') ← scan junk chunks maxLen fuel2 s i
      match found with
      | some (chunk, length) => .ok (finish accept s' i chunk length)
      | none => untilLoop junk chunks maxLen accept fuel2 fuel (remains - 1) (i + 1) s'

/-- The longest chunk, with 0 for the chunk " " (src/axl_stream.c:1306-1320). -/
def maxLength (chunks : List (List Char)) : Nat :=
  (chunks.map fun c => if c = [' '] then 0 else c.length).foldl max 0

/-- `axl_stream_get_until` (src/axl_stream.c:994-1014, 1279-1594): `none` is the NULL result. -/
def getUntil (junk : Nat) (fuel : Nat) (chunks : List (List Char)) (accept : Bool) (s : FS Char) :
    Res (Option Got × FS Char) :=
  untilLoop junk chunks (maxLength chunks) accept fuel fuel ((s.data.length : Int) - s.index) 0 s

/-- The decoder of a single byte encoding as `axl_stream_decode` uses it (src/axl_stream.c:3520-3607): the bytes
converted go to the buffer, in the room given, and what the decoder has not consumed is moved to the
beginning of the temporal memory. -/
def isoDecoder (table : UInt8 → List UInt8) : Decoder UInt8 := fun source room =>
  match Babel.single table source (List.replicate room 0) room with
  | none => none
  | some d => some (d.output.take d.converted, if d.result = 1 then [] else source.drop d.remain)

end FileStream
end Axl
