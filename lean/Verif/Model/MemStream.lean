/-
Model of the memory that `axl_doc_parse` uses: the stream of src/axl_stream.c with its buffer, the
blocks it allocates, keeps and releases, the document linked to it and the error filled
(src/axl_error.c).

A `World` has one stream and one document, those of the parse.  Blocks are named by numbers; a block that is
not in the heap was released or was never allocated.  Using it, releasing it again, releasing one that belongs
to the string factory of the document, reading or writing out of the bytes of a block, and any use
of a stream or of a document already released is undefined behaviour.

Simplifications: an allocation does not fail; `chunks`, `lengths` and the structure of the stream are released with
it and are not blocks of their own; the tree of the document is not made of blocks here (see C24 for it):
the document is released as a whole.
-/
import Verif.Model.Parse

namespace Axl
namespace Blocks
open Str

/-- A block of memory: its bytes, and if it comes from the string factory of the document
(`axl_string_factory_alloc`, src/axl_factory.c:293-331). -/
structure Block where
  data    : List Char
  factory : Bool
deriving DecidableEq, Repr

/-- `struct _axlStream` (src/axl_stream.c:83-222) for a stream in memory.  `linked`: the document is in
`elements_linked` with `axl_doc_free`. -/
structure MStream where
  mem       : List Char
  index     : Nat
  size      : Nat
  global    : Nat
  prev      : Nat
  lastChunk : Option Nat
  nearTo    : Option Nat
  following : Option Nat
  factory   : Bool
  linked    : Bool

/-- `struct _axlDoc` (src/axl_doc.c:306-405).  `cleaned`: `parentNode` was released (src/axl_doc.c:481-490). -/
structure MDoc where
  st       : Parse.St
  encoding : Option Nat
  alone    : Bool
  header   : Bool
  cleaned  : Bool

/-- Where an error was found: what `axl_error_new` prints about the stream (src/axl_error.c:160-169). -/
structure Place where
  size      : Nat
  index     : Nat
  global    : Nat
  near      : List Char
  following : List Char
deriving DecidableEq, Repr

/-- An `axlError`: its code, the text given and the place printed with it. -/
structure Err where
  code  : Int
  text  : List Char
  place : Option Place
deriving DecidableEq, Repr

/-- The memory.  `errors`: the errors stored where the caller asked for them, `none` when the caller gave NULL.
Storing one over another loses the first. -/
structure World where
  heap   : Nat → Option Block
  next   : Nat
  stream : Option MStream
  doc    : Option MDoc
  errors : Option (List Err)

/-- The outcome of a C function: it returns, it has undefined behaviour, or a loop has not ended after the
steps given. -/
inductive Out (α : Type) where
  | ret (a : α) (w : World)
  | ub
  | loop

/-- A C function over the memory. -/
def M (α : Type) : Type := World → Out α

namespace M

protected def pure {α : Type} (a : α) : M α := fun w => .ret a w

protected def bind {α β : Type} (m : M α) (f : α → M β) : M β := fun w =>
  match m w with
  | .ret a w' => f a w'
  | .ub => .ub
  | .loop => .loop

instance : Monad M where
  pure := M.pure
  bind := M.bind

/-- `none` is undefined behaviour. -/
def ofOption {α : Type} : Option α → M α
  | some a => pure a
  | none => fun _ => .ub

end M

/-- The stream, that must not have been released. -/
def getS : M MStream := fun w =>
  match w.stream with
  | some s => .ret s w
  | none => .ub

/-- Updates the stream. -/
def setS (s : MStream) : M Unit := fun w => .ret () { w with stream := some s }

/-- The document, that must not have been released. -/
def getD : M MDoc := fun w =>
  match w.doc with
  | some d => .ret d w
  | none => .ub

/-- Updates the document. -/
def setD (d : MDoc) : M Unit := fun w => .ret () { w with doc := some d }

/-- `axl_new (char, n)` (src/axl_decl.h, calloc) or the handler of the document, filled with these bytes. -/
def alloc (data : List Char) (factory : Bool) : M Nat := fun w =>
  .ret w.next { w with heap := fun i => if i = w.next then some ⟨data, factory⟩ else w.heap i, next := w.next + 1 }

/-- `axl_free`: of a block that is there and is not a piece of the factory. -/
def free (id : Nat) : M Unit := fun w =>
  match w.heap id with
  | some b => if b.factory then .ub else .ret () { w with heap := fun i => if i = id then none else w.heap i }
  | none => .ub

/-- `axl_free`, or nothing for NULL. -/
def freeOpt : Option Nat → M Unit
  | some id => free id
  | none => pure ()

/-- The bytes of a block. -/
def readBlock (id : Nat) : M (List Char) := fun w =>
  match w.heap id with
  | some b => .ret b.data w
  | none => .ub

/-- Updates the bytes of a block. -/
def writeBlock (id : Nat) (data : List Char) : M Unit := fun w =>
  match w.heap id with
  | some b => .ret () { w with heap := fun i => if i = id then some ⟨data, b.factory⟩ else w.heap i }
  | none => .ub

/-- The C string in some bytes: they must have a terminator. -/
def cstr (data : List Char) : Option (List Char) :=
  if NUL ∈ data then some (toStr data) else none

/-- The C string at a block. -/
def readStr (id : Nat) : M (List Char) := do
  let data ← readBlock id
  M.ofOption (cstr data)

/-- `axl_strdup` (src/axl_stream.c:3503-3506, 2364-2379). -/
def strdup (id : Nat) : M Nat := do
  let s ← readStr id
  alloc (s ++ [NUL]) false

/-- `memcpy` of `n` bytes from `mem + start`. -/
def copyBytes (mem : List Char) (start n : Nat) : Option (List Char) :=
  if start + n ≤ mem.length then some ((mem.drop start).take n) else none

/-- `axl_stream_new` for a block of memory (src/axl_stream.c:561-594), without the check for NULL, that is in
`parseCommon`: size -1 is the length of the string. -/
def streamNew (source : List Char) (size : Int) : M Unit := do
  let size ← M.ofOption (if size = -1 then (strlen source).map Int.ofNat else some size)
  let data ← M.ofOption (if size < 0 then none else copyBytes source 0 size.toNat)
  setS ⟨data ++ [NUL], 0, size.toNat, 0, 0, none, none, none, false, false⟩

/-- `axl_stream_fall_outside` (src/axl_stream.c:2090-2099, 57). -/
def fallOutside (s : MStream) (n : Nat) : Bool := decide (n + s.index > s.size)

/-- The loop of `axl_stream_common_inspect` (src/axl_stream.c:621-634) and of `_memcmp` (src/axl_decl.h:951-960), from
byte `i` of the memory. -/
def sameBytes (mem : List Char) : List Char → Nat → Option Bool
  | [], _ => some true
  | c :: cs, i =>
    match mem[i]? with
    | none => none
    | some b => if b = NUL then some false else if c ≠ b then some false else sameBytes mem cs (i + 1)

/-- Releases `last_chunk` and forgets it (src/axl_stream.c:821-823, 1482-1485). -/
def freeLast : M Unit := do
  let s ← getS
  freeOpt s.lastChunk
  let s ← getS
  setS { s with lastChunk := none }

/-- `axl_stream_accept` (src/axl_stream.c:812-826). -/
def accept : M Unit := do
  let s ← getS
  setS { s with index := s.index + s.prev, global := s.global + s.prev, prev := 0 }
  freeLast

/-- `axl_stream_common_inspect` (src/axl_stream.c:616-634): `axl_stream_inspect` (src/axl_stream.c:669-675) and
`axl_stream_peek` (src/axl_stream.c:714-720), with a chunk that is not empty and its length. -/
def commonInspect (chunk : List Char) (alsoAccept : Bool) : M Int := do
  let s ← getS
  if fallOutside s chunk.length then pure (-1)
  else do
    let same ← M.ofOption (sameBytes s.mem chunk s.index)
    if same then do
      setS { s with prev := chunk.length }
      if alsoAccept then do
        accept
        pure 1
      else pure 1
    else pure 0

/-- `axl_stream_inspect` (src/axl_stream.c:669-675). -/
def inspect (chunk : List Char) : M Int := commonInspect chunk true

/-- `axl_stream_peek` (src/axl_stream.c:714-720). -/
def peek (chunk : List Char) : M Int := commonInspect chunk false

/-- The loop of `axl_stream_inspect_several` (src/axl_stream.c:765-802): which chunk was found, from 1, or the
last answer kept. -/
def inspectSeveral (iterator last : Int) : List (List Char) → M Int
  | [] => pure last
  | chunk :: chunks => do
    let r ← inspect chunk
    if r = -1 then inspectSeveral (iterator + 1) (-1) chunks
    else if r = 0 then inspectSeveral (iterator + 1) last chunks
    else pure (iterator + 1)

/-- `axl_stream_check` (src/axl_stream.c:2113-2120). -/
def check (chunk : List Char) : M Bool := do
  let s ← getS
  M.ofOption (sameBytes s.mem chunk s.index)

/-- `axl_stream_move` (src/axl_stream.c:911-919). -/
def move (index : Nat) : M Unit := do
  accept
  let s ← getS
  setS { s with index := index }

/-- `axl_stream_remains` (src/axl_stream.c:2131-2149). -/
def remains : M Bool := do
  let s ← getS
  pure (decide (s.index < s.size))

/-- `axl_stream_set_buffer_alloc` (src/axl_stream.c:1222-1233): the handler of the document or none. -/
def setAlloc (factory : Bool) : M Unit := do
  let s ← getS
  setS { s with factory := factory }

/-- `axl_stream_nullify (stream, LAST_CHUNK)` (src/axl_stream.c:1250-1270). -/
def nullify : M Unit := do
  let s ← getS
  setS { s with lastChunk := none }

/-- The loop of `axl_stream_consume_white_spaces` (src/axl_stream.c:1959-2001); the number is `remains`. -/
def skipLoop : Nat → M Unit
  | 0 => pure ()
  | remains + 1 => do
    let s ← getS
    let c ← M.ofOption s.mem[s.index]?
    if isWhite c then do
      setS { s with index := s.index + 1, global := s.global + 1, prev := 0 }
      skipLoop remains
    else pure ()

/-- `axl_stream_consume_white_spaces` (src/axl_stream.c:1959-2001). -/
def skip : M Unit := do
  let s ← getS
  skipLoop (s.size - s.index)

/-- One chunk at byte `i` of the memory (src/axl_stream.c:1428-1447).  The chunk " " has length 0 there
(src/axl_stream.c:1306-1313). -/
def chunkAt (mem : List Char) (size i : Nat) : List Char → Option Bool
  | [] => some false
  | c :: cs =>
    if (c = ' ' ∧ cs = []) ∨ size < i + (cs.length + 1) then some false
    else
      match mem[i]? with
      | none => none
      | some b => if c = b then sameBytes mem cs (i + 1) else some false

/-- The walk over the chunks (src/axl_stream.c:1426-1454): which and its length. -/
def firstChunk (mem : List Char) (size i : Nat) : Nat → List (List Char) → Option (Option (Nat × Nat))
  | _, [] => some none
  | k, chunk :: chunks =>
    match chunkAt mem size i chunk with
    | none => none
    | some true => some (some (k, chunk.length))
    | some false => firstChunk mem size i (k + 1) chunks

/-- The checks at byte `i` of the memory (src/axl_stream.c:1400-1454). -/
def matchAt (mem : List Char) (size : Nat) (chunks : List (List Char)) (i : Nat) : Option (Option (Nat × Nat)) :=
  if chunks.contains [' '] then
    match mem[i]? with
    | none => none
    | some b => if isWhite b then some (some (chunks.idxOf [' '], 1)) else firstChunk mem size i 0 chunks
  else firstChunk mem size i 0 chunks

/-- The search of `__axl_stream_get_untilv_wide` (src/axl_stream.c:1330-1394, 1523-1526); the number is `remains`.  What is
found is `index`, the chunk and its length; `some none` is the NULL result. -/
def findLoop (mem : List Char) (size base : Nat) (chunks : List (List Char)) : Nat → Nat → Option (Option (Nat × Nat × Nat))
  | 0, _ => some none
  | remains + 1, index =>
    match matchAt mem size chunks (base + index) with
    | none => none
    | some (some (k, n)) => some (some (index, k, n))
    | some none => findLoop mem size base chunks remains (index + 1)

/-- The search, from the place of the stream. -/
def find (s : MStream) (chunks : List (List Char)) : Option (Option (Nat × Nat × Nat)) :=
  findLoop s.mem s.size s.index chunks (s.size - s.index) 0

/-- The stream after a search (src/axl_stream.c:1505-1512). -/
def advance (acceptTerminator : Bool) (index length : Nat) : M Unit := do
  let s ← getS
  setS { s with index := s.index + (if acceptTerminator then length else 0) + index,
                global := s.global + (if acceptTerminator then length else 0) + index, prev := 0 }

/-- `axl_stream_get_until` (src/axl_stream.c:994-1014, 1279-1530, 1559-1594): the block and the chunk matched. -/
def getUntil (acceptTerminator : Bool) (chunks : List (List Char)) : M (Option (Nat × Nat)) := do
  let s ← getS
  let found ← M.ofOption (find s chunks)
  match found with
  | none => pure none
  | some (index, k, length) => do
    freeLast
    let s ← getS
    let text ← M.ofOption (copyBytes s.mem s.index index)
    let id ← alloc (text ++ [NUL]) s.factory
    let s ← getS
    setS { s with lastChunk := some id }
    advance acceptTerminator index length
    pure (some (id, k))

/-- `axl_stream_get_until_ref` with the terminator accepted (src/axl_stream.c:1071-1094, 1279-1530): the place in the
memory of the stream and the size.  With size 0 it is `last_chunk`, just released, that is given: NULL
(src/axl_stream.c:1496, 1516-1517). -/
def getUntilRef (chunks : List (List Char)) : M (Option (Nat × Nat)) := do
  let s ← getS
  let found ← M.ofOption (find s chunks)
  match found with
  | none => pure none
  | some (index, _, length) => do
    freeLast
    let s ← getS
    let mem ← M.ofOption (wr s.mem (s.index + index : Nat) NUL)
    setS { s with mem := mem }
    advance true index length
    pure (if index = 0 then none else some (s.index, index))

/-- The first byte of the text near (src/axl_stream.c:1669-1673). -/
def nearFirst (s : MStream) (count : Nat) : Nat := if s.index ≤ count then 0 else s.index - count

/-- How many bytes the text near has (src/axl_stream.c:1675-1679). -/
def nearSize (s : MStream) (count : Nat) : Nat :=
  if s.size ≤ s.index + count + 1 then s.size - nearFirst s count else s.index + count - nearFirst s count

/-- `axl_stream_get_near_to` (src/axl_stream.c:1661-1691). -/
def getNear (count : Nat) : M Nat := do
  let s ← getS
  freeOpt s.nearTo
  let s ← getS
  let data ← M.ofOption (copyBytes s.mem (nearFirst s count) (nearSize s count))
  let id ← alloc (data ++ [NUL]) false
  let s ← getS
  setS { s with nearTo := some id }
  pure id

/-- `axl_stream_get_following` (src/axl_stream.c:1703-1728). -/
def getFollowing (count : Nat) : M (Option Nat) := do
  let s ← getS
  if s.size ≤ s.index then pure none
  else do
    let count := if s.size < count + s.index then s.size - s.index else count
    freeOpt s.following
    let s ← getS
    let data ← M.ofOption (copyBytes s.mem s.index count)
    let id ← alloc (data ++ [NUL]) false
    let s ← getS
    setS { s with following := some id }
    pure (some id)

/-- The string at a block, or the empty one for NULL (src/axl_error.c:168). -/
def readOpt : Option Nat → M (List Char)
  | some id => readStr id
  | none => pure []

/-- Stores an error, if the caller asked for it (src/axl_error.c:174-175, 228-229). -/
def putError (e : Err) : M Unit := fun w =>
  .ret () { w with errors := w.errors.map (· ++ [e]) }

/-- If the caller asked for errors. -/
def asked : M Bool := fun w => .ret w.errors.isSome w

/-- `axl_error_new` with a stream (src/axl_error.c:139-177). -/
def errorNew (code : Int) (text : List Char) : M Unit := do
  let ask ← asked
  if ask then do
    let following ← getFollowing 10
    let near ← getNear 10
    let s ← getS
    let n ← readStr near
    let f ← readOpt following
    putError ⟨code, text, some ⟨s.size, s.index, s.global, n, f⟩⟩
  else pure ()

/-- Releases the pieces of the string factory (`axl_string_factory_free`, src/axl_factory.c:338-362). -/
def freeFactory : M Unit := fun w =>
  .ret () { w with heap := fun i => (w.heap i).filter fun b => !b.factory }

/-- The structure of the document is released (src/axl_doc.c:3313). -/
def dropDoc : M Unit := fun w => .ret () { w with doc := none }

/-- The structure of the stream is released (src/axl_stream.c:1909). -/
def dropStream : M Unit := fun w => .ret () { w with stream := none }

/-- `axl_doc_free` (src/axl_doc.c:3264-3316). -/
def docFree : M Unit := do
  let d ← getD
  freeFactory
  freeOpt d.encoding
  dropDoc

/-- `axl_stream_free` (src/axl_stream.c:1869-1912). -/
def streamFree : M Unit := do
  let s ← getS
  if s.linked then docFree else pure ()
  freeOpt s.lastChunk
  freeOpt s.nearTo
  freeOpt s.following
  dropStream

/-- `axl_stream_link` with the document (src/axl_stream.c:1782-1834). -/
def link : M Unit := do
  let s ← getS
  setS { s with linked := true }

/-- `axl_stream_unlink` (src/axl_stream.c:1841-1861). -/
def unlink : M Unit := do
  let s ← getS
  setS { s with linked := false }

end Blocks
end Axl
