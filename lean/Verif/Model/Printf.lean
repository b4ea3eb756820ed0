/-
Model of the functions of src/axl_stream.c that print with a format, copy a number of bytes, and count
and free an array of strings.

What the C library makes of a format is a parameter: for a format and arguments `vsnprintf` makes a
text, or fails in the middle of one and gives -1.  A `va_list` that was given to a function of the
`v…printf` family cannot be read again (C11 7.16): it is `none` after that.

Simplifications: an `int` has no limit; an allocation does not fail; the branches for Windows are not
modelled.
-/
import Verif.Model.Str

namespace Axl.Printf
open Str

/-- What the C library makes of a format: a text, or part of one and -1. -/
inductive Rendered where
  | text (s : List Char)
  | fail (part : List Char)
deriving DecidableEq, Repr

/-- The C library: the text of a format, and how many arguments the format reads. -/
structure Libc (Arg : Type) where
  render : List Char → List Arg → Rendered
  reads : List Char → Nat

variable {Arg : Type}

/-- The arguments behind a `va_list`: `none` if it was used. -/
def Libc.args (L : Libc Arg) (fmt : List Char) : Option (List Arg) → Option (List Arg)
  | some l => some l
  | none => if L.reads fmt = 0 then some [] else none

/-- `vsnprintf` (C11 7.21.6.12): the buffer and the number returned.  Nothing is written for size 0. -/
def vsnprintf (L : Libc Arg) (buf : Option (List Char)) (size : Nat) (fmt : List Char) (va : Option (List Arg)) :
    Option (Option (List Char) × Int) := do
  let l ← L.args fmt va
  let (s, n) : List Char × Int := match L.render fmt l with
    | .text s => (s, s.length)
    | .fail s => (s, -1)
  if size = 0 then some (buf, n)
  else do
    let b ← buf
    let out := s.take (size - 1) ++ [NUL]
    if out.length ≤ b.length then some (some (out ++ b.drop out.length), n) else none

/-- `vasprintf`: a block with the text, or -1 and a pointer that must not be used. -/
def vasprintf (L : Libc Arg) (fmt : List Char) (va : Option (List Arg)) : Option (Option (List Char) × Int) := do
  let l ← L.args fmt va
  match L.render fmt l with
  | .text s => some (some (s ++ [NUL]), s.length)
  | .fail _ => some (none, -1)

/-- `axl_stream_vprintf_len` (src/axl_stream.c:2453-2475). -/
def vprintfLen (L : Libc Arg) (fmt : Option (List Char)) (va : Option (List Arg)) : Option Int :=
  match fmt with
  | none => some 0
  | some f => do
    let (_, n) ← vsnprintf L none 0 f va
    some (n + 1)

/-- `axl_stream_printf_len` (src/axl_stream.c:2579-2592). -/
def printfLen (L : Libc Arg) (fmt : Option (List Char)) (args : List Arg) : Option Int := vprintfLen L fmt (some args)

/-- An `int` given as a `size_t`. -/
def sizeT (n : Int) : Nat := if n < 0 then (2 ^ 64 + n).toNat else n.toNat

/-- `axl_stream_printf_buffer` (src/axl_stream.c:2505-2565): the buffer, the number returned and
`real_size`. -/
def printfBuffer (L : Libc Arg) (buffer : List Char) (size : Int) (fmt : Option (List Char)) (args : List Arg) :
    Option (List Char × Int × Int) :=
  match fmt with
  | none => some (buffer, 0, 0)
  | some f => do
    let (b, n) ← vsnprintf L (some buffer) (sizeT size) f (some args)
    let b ← b
    some (b, if n > size - 1 then size - 1 else n, n)

/-- A pointer to a string: NULL, a block, or a pointer that must not be used. -/
inductive Ptr where
  | null
  | block (b : List Char)
  | wild
deriving DecidableEq, Repr

/-- `axl_stream_strdup_printfv` (src/axl_stream.c:2637-2675), built with `vasprintf` or without it.
Without it the `va_list` is used twice. -/
def strdupPrintfv (has : Bool) (L : Libc Arg) (chunk : Option (List Char)) (va : Option (List Arg)) : Option Ptr :=
  match chunk with
  | none => some .null
  | some f =>
    if has then do
      let (b, n) ← vasprintf L f va
      if n = -1 then some .null
      else match b with
        | some b => some (.block b)
        | none => some .wild
    else do
      let size ← vprintfLen L (some f) va
      if size = -1 then some .null
      else do
        let result := List.replicate (size + 2).toNat NUL
        let (b, _) ← vsnprintf L (some result) (sizeT (size + 1)) f none
        let b ← b
        some (.block b)

/-- `axl_stream_strdup_printf` (src/axl_stream.c:2603-2620). -/
def strdupPrintf (has : Bool) (L : Libc Arg) (chunk : Option (List Char)) (args : List Arg) : Option Ptr :=
  match chunk with
  | none => some .null
  | some f => strdupPrintfv has L (some f) (some args)

/-- `axl_stream_strdup_printf_len` (src/axl_stream.c:2692-2746): the string and `chunk_size`, that is not
written (`none`) when NULL is returned.  The arguments are opened again before the second use. -/
def strdupPrintfLen (has : Bool) (L : Libc Arg) (chunk : Option (List Char)) (args : List Arg) :
    Option (Ptr × Option Int) :=
  match chunk with
  | none => some (.null, none)
  | some f =>
    if has then do
      let (b, n) ← vasprintf L f (some args)
      match b with
      | some b => some (.block b, some n)
      | none => some (.wild, some n)
    else do
      let size ← vprintfLen L (some f) (some args)
      if size = -1 then some (.null, none)
      else do
        let result := List.replicate (size + 2).toNat NUL
        let (b, n) ← vsnprintf L (some result) (sizeT (size + 1)) f (some args)
        let b ← b
        some (.block b, some n)

/-- `axl_stream_strdup_n` (src/axl_stream.c:2393-2404).  `chunk` is the memory from the pointer on. -/
def strdupN (chunk : Option (List Char)) (n : Int) : Option Ptr :=
  match chunk with
  | none => some .null
  | some m =>
    if n = 0 then some .null
    else if sizeT n ≤ m.length then some (.block (m.take (sizeT n) ++ [NUL]))
    else none

/-- `axl_stream_strv_num` (src/axl_stream.c:3235-3248), on the array from the position `i` on. -/
def strvNum : List (Option Nat) → Int → Option Int
  | [], _ => none
  | none :: _, i => some i
  | some _ :: l, i => strvNum l (i + 1)

/-- `axl_stream_strv_num`: -1 for NULL. -/
def strvNumOf : Option (List (Option Nat)) → Option Int
  | none => some (-1)
  | some l => strvNum l 0

/-- `axl_free` of a block: the blocks that are left, or nothing if it is not there. -/
def free (live : List Nat) (b : Nat) : Option (List Nat) := if b ∈ live then some (live.erase b) else none

/-- The loop of `axl_stream_freev` (src/axl_stream.c:3262-3266). -/
def freevLoop : List Nat → List (Option Nat) → Option (List Nat)
  | _, [] => none
  | live, none :: _ => some live
  | live, some b :: l => do
    let live ← free live b
    freevLoop live l

/-- `axl_stream_freev` (src/axl_stream.c:3256-3273): the array is the block `arr`. -/
def freev (live : List Nat) (arr : Option (Nat × List (Option Nat))) : Option (List Nat) :=
  match arr with
  | none => some live
  | some (a, l) => do
    let live ← freevLoop live l
    free live a

end Axl.Printf
