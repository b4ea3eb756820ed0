/-
Model of `axl_stream_get_until_zero` (src/axl_stream.c), over the streams of `Verif.Model.FileStream`, with its
simplifications, and of the loop that reads a text to its end with it (knife/axl-knife.c:588-600, 627-651).
-/
import Verif.Model.FileStream

namespace Axl
namespace StreamZero
open FileStream

/-- What the function gives: the text and `chunk_matched`, where `none` is -2. -/
structure Got where
  text  : List Char
  chunk : Option Nat
deriving DecidableEq, Repr

/-- The variable `length` when no chunk was found at a place: that of the last chunk (src/axl_stream.c:1426-1454). -/
def lastLength (chunks : List (List Char)) : Nat :=
  match chunks.getLast? with
  | some c => if c = [' '] then 0 else c.length
  | none => 0

/-- The end of the function (src/axl_stream.c:1474-1520). -/
def finish (accept : Bool) (s : FS Char) (i : Nat) (chunk : Option Nat) (length : Nat) : Got × FS Char :=
  (⟨(s.data.drop s.index).take i, chunk⟩, { s with index := s.index + i + (if accept then length else 0) })

/-- The loop of `__axl_stream_get_untilv_wide` when `stream->zero` is set (src/axl_stream.c:1337-1526).  `remains` is the
value at the beginning of the pass, `i` is `index` and `length` the variable. -/
def zeroLoop (junk : Nat) (chunks : List (List Char)) (maxLen : Nat) (accept : Bool) (fuel2 : Nat) :
    Nat → Int → Nat → Nat → FS Char → Res (Got × FS Char)
  | 0, _, _, _, _ => .loop
  | fuel + 1, remains, i, length, s =>
    if remains - 1 < 0 then do
      let (more, s) ← prebuffer junk s
      if more then do
        let (found, s') ← scan junk chunks maxLen fuel2 s (i - 1)
        match found with
        | some (chunk, length) => .ok (finish accept s' (i - 1) (some chunk) length)
        | none => zeroLoop junk chunks maxLen accept fuel2 fuel (s.data.length - i - 1 : Int) (i - 1 + 1) (lastLength chunks) s'
      else .ok (finish accept s i none length)
    else do
      let (found, s') ← scan junk chunks maxLen fuel2 s i
      match found with
      | some (chunk, length) => .ok (finish accept s' i (some chunk) length)
      | none => zeroLoop junk chunks maxLen accept fuel2 fuel (remains - 1) (i + 1) (lastLength chunks) s'

/-- `axl_stream_get_until_zero` (src/axl_stream.c:1161-1183). -/
def getUntilZero (junk : Nat) (fuel : Nat) (chunks : List (List Char)) (accept : Bool) (s : FS Char) : Res (Got × FS Char) :=
  zeroLoop junk chunks (maxLength chunks) accept fuel fuel ((s.data.length : Int) - s.index) 0 0 s

/-- Reading with it, accepting the separator, until `chunk_matched` is -2: the texts, and the stream left. -/
def pieces (junk : Nat) (fuel : Nat) (sep : Char) : Nat → FS Char → Res (List (List Char) × FS Char)
  | 0, _ => .loop
  | turns + 1, s => do
    let (g, s) ← getUntilZero junk fuel [[sep]] true s
    match g.chunk with
    | none => .ok ([g.text], s)
    | some _ => do
      let (r, s) ← pieces junk fuel sep turns s
      .ok (g.text :: r, s)

end StreamZero
end Axl
