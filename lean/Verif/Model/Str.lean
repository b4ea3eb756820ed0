/-
Model of the string utilities of src/axl_stream.c.

A string that is only read is the `List Char` before its terminator; a pointer into it is the rest
of the string, `[]` being a pointer to the terminator.  A string changed in place is the array of
its bytes, terminator included, with bounds checked reads and writes (`none` is out of bounds).
-/
namespace Axl
namespace Str

/-- The terminator. -/
def NUL : Char := Char.ofNat 0

/-- `_memcmp` (src/axl_decl.h:951-960) from position `i`: true as soon as `size` bytes agreed. -/
def memcmpFrom (size : Int) : Int → List Char → List Char → Bool
  | i, a :: s, b :: t =>
    if a ≠ b then false
    else if i + 1 = size then true
    else memcmpFrom size (i + 1) s t
  | _, _, _ => false

/-- `axl_memcmp` (src/axl_stream.c:3487-3492). -/
def memcmp (s t : List Char) (size : Int) : Bool := memcmpFrom size 0 s t

/-- `axl_cmp` (src/axl_stream.c:3411-3438) on strings that are not NULL. -/
def cmpLoop : List Char → List Char → Bool
  | a :: s, b :: t => if a ≠ b then false else cmpLoop s t
  | [], [] => true
  | _, _ => false

/-- `axl_cmp` (src/axl_stream.c:3411-3438). -/
def cmp : Option (List Char) → Option (List Char) → Bool
  | some a, some b => cmpLoop a b
  | _, _ => false

/-- `axl_stream_cmp` (src/axl_stream.c:2020-2039) on strings that are not NULL.  Comparing from
`chunk + 1` when the chunk is empty reads outside of it. -/
def streamCmp (a b : List Char) (size : Int) : Option Bool :=
  if size < 0 then some false
  else match a, b with
    | x :: s, y :: t =>
      if x = y then some (size == 1 || memcmp s t (size - 1)) else some false
    | [], [] => if size = 1 then some true else none
    | _, _ => some false

/-- `tolower` of the C locale. -/
def toLower (c : Char) : Char := if 'A'.toNat ≤ c.toNat ∧ c.toNat ≤ 'Z'.toNat then Char.ofNat (c.toNat + 32) else c

/-- `toupper` of the C locale. -/
def toUpper (c : Char) : Char := if 'a'.toNat ≤ c.toNat ∧ c.toNat ≤ 'z'.toNat then Char.ofNat (c.toNat - 32) else c

/-- `strncasecmp (s, t, n) == 0` as the C library defines it. -/
def strncasecmpEq : List Char → List Char → Nat → Bool
  | _, _, 0 => true
  | [], [], _ + 1 => true
  | a :: s, b :: t, n + 1 => if toLower a = toLower b then strncasecmpEq s t n else false
  | _, _, _ + 1 => false

/-- `axl_stream_casecmp` (src/axl_stream.c:2056-2072) on strings that are not NULL. -/
def streamCaseCmp (a b : List Char) (size : Int) : Bool :=
  if size < 0 then false else strncasecmpEq a b size.toNat

/-- `axl_casecmp` (src/axl_stream.c:3450-3467). -/
def caseCmp : Option (List Char) → Option (List Char) → Bool
  | some a, some b => if a.length ≠ b.length then false else streamCaseCmp a b a.length
  | _, _ => false

/-- `axl_stream_to_lower` / `axl_stream_to_upper` and the `_copy` variants
(src/axl_stream.c:3284-3393). -/
def toLowerStr (s : List Char) : List Char := s.map toLower
def toUpperStr (s : List Char) : List Char := s.map toUpper

/-- `axl_stream_concat` (src/axl_stream.c:3180-3222): the inner `none` is the NULL result when both
are NULL; the array is allocated with the sum of the lengths plus one. -/
def concat : Option (List Char) → Option (List Char) → Option (List Char)
  | none, none => none
  | none, some b => some b
  | some a, none => some a
  | some a, some b => some (a ++ b)

/-! ### Arrays -/

/-- Read a byte of an array; a negative index or one beyond the end is undefined behaviour. -/
def rd (b : List Char) (i : Int) : Option Char := if i < 0 then none else b[i.toNat]?

/-- Write a byte of an array. -/
def wr (b : List Char) (i : Int) (c : Char) : Option (List Char) :=
  if 0 ≤ i ∧ i.toNat < b.length then some (b.set i.toNat c) else none

/-- `strlen`: position of the first terminator; `none` if there is none in the array. -/
def strlen : List Char → Option Nat
  | [] => none
  | c :: b => if c = NUL then some 0 else (strlen b).map (· + 1)

/-- The string in an array. -/
def toStr (b : List Char) : List Char := b.takeWhile (· ≠ NUL)

/-- `axl_stream_is_white_space` (src/axl_stream.c:1931-1948). -/
def isWhite (c : Char) : Bool := c == ' ' || c == '\n' || c == '\t' || c == '\r'

/-- The first loop of `axl_stream_trim_with_size` (src/axl_stream.c:2216-2226). -/
def trimBegin (b : List Char) : Nat → Int → Option Int
  | 0, _ => none
  | fuel + 1, i => do
    let c ← rd b i
    if c = NUL then some i
    else if !isWhite c then some i
    else trimBegin b fuel (i + 1)

/-- The second loop of `axl_stream_trim_with_size` (src/axl_stream.c:2241-2250). -/
def trimEnd (b : List Char) : Nat → Int → Option Int
  | 0, _ => none
  | fuel + 1, e => do
    let c ← rd b e
    if c = NUL then some e
    else if !isWhite c then some e
    else trimEnd b fuel (e - 1)

/-- The copy loops of `axl_stream_trim_with_size` (src/axl_stream.c:2257-2264) and
`axl_stream_remove` (src/axl_stream.c:2326-2330): `n` bytes from `src` to `dst`, ascending. -/
def moveBytes (dst src : Int) : Nat → Int → List Char → Option (List Char)
  | 0, _, b => some b
  | n + 1, i, b => do
    let c ← rd b (src + i)
    let b ← wr b (dst + i) c
    moveBytes dst src n (i + 1) b

/-- `axl_stream_trim_with_size` (src/axl_stream.c:2197-2272): the array afterwards and the number of
bytes trimmed.  `axl_stream_trim` is the same without the number (src/axl_stream.c:2180-2186). -/
def trimWithSize (b : List Char) : Option (List Char × Int) := do
  let len ← strlen b
  if len = 0 then some (b, 0)
  else
    let it ← trimBegin b (len + 1) 0
    if it = len then
      let b ← wr b 0 NUL
      some (b, it)
    else
      let total : Int := (len : Int) - 1
      let e ← trimEnd b (len + 1) total
      let total := total - e + it
      let b ← moveBytes 0 it (e - it + 1).toNat 0 b
      let b ← wr b (e - it + 1) NUL
      some (b, total)

/-- Move the content after the occurrence over it, if there is any (src/axl_stream.c:2325-2331). -/
def shiftOver (b : List Char) (it v rest : Int) : Option (List Char) :=
  if rest > 0 then moveBytes it (it + v) rest.toNat 0 b else some b

/-- The loop of `axl_stream_remove` (src/axl_stream.c:2321-2346) and the final write (2349).  The
comparison reads the array up to a terminator, whatever `length` says. -/
def removeLoop (value : List Char) (first : Bool) : Nat → Int → Int → List Char → Option (List Char)
  | 0, _, _, _ => none
  | fuel + 1, it, length, b =>
    if it < length then
      if memcmp (toStr (b.drop it.toNat)) value value.length then
        match shiftOver b it value.length (length - it - value.length) with
        | none => none
        | some b =>
          if first then wr b (length - value.length) NUL
          else removeLoop value first fuel it (length - value.length) b
      else removeLoop value first fuel (it + 1) length b
    else wr b length NUL

/-- `axl_stream_remove` (src/axl_stream.c:2292-2351): the array afterwards. -/
def remove (b : List Char) (value : List Char) (first : Bool) : Option (List Char) := do
  let length ← strlen b
  if length = value.length then
    if cmpLoop (toStr b) value then wr b 0 NUL else some b
  else if length < value.length then some b
  else removeLoop value first (2 * length + 1) 0 length b

/-! ### Split, join, replace -/

/-- The search for a separator at the current position (src/axl_stream.c:2810-2827, 2846-2879): the
length of the first separator found there. -/
def matchSep (rest : List Char) : List (List Char) → Option Nat
  | [] => none
  | sep :: seps => if memcmp rest sep sep.length then some sep.length else matchSep rest seps

/-- The counting loop of `axl_stream_split` (src/axl_stream.c:2805-2831). -/
def splitCount (chunk : List Char) (seps : List (List Char)) : Nat → Nat → Nat → Option Nat
  | 0, _, _ => none
  | fuel + 1, index, count =>
    if index < chunk.length then
      match matchSep (chunk.drop index) seps with
      | some len => splitCount chunk seps fuel (index + (len - 1) + 1) (count + 1)
      | none => splitCount chunk seps fuel (index + 1) count
    else if index = chunk.length then some count
    else none

/-- The second loop of `axl_stream_split` (src/axl_stream.c:2838-2892): the pieces. -/
def splitLoop (chunk : List Char) (seps : List (List Char)) :
    Nat → Nat → Nat → List (List Char) → Option (List (List Char))
  | 0, _, _, _ => none
  | fuel + 1, index, prev, acc =>
    if index < chunk.length then
      match matchSep (chunk.drop index) seps with
      | some len =>
        let acc := acc ++ [(chunk.drop prev).take (index - prev)]
        if index + len = chunk.length then some (acc ++ [[]])
        else splitLoop chunk seps fuel (index + len - 1 + 1) (index + len) acc
      | none => splitLoop chunk seps fuel (index + 1) prev acc
    else if index = chunk.length then
      if index ≠ prev then some (acc ++ [(chunk.drop prev).take (index - prev)]) else some acc
    else none

/-- `axl_stream_split` (src/axl_stream.c:2776-2899): the pieces in the NULL terminated array.  The
array has room for `count + 2` pointers; filling it leaves no terminator. -/
def split (chunk : List Char) (seps : List (List Char)) : Option (List (List Char)) := do
  let count ← splitCount chunk seps (chunk.length + 1) 0 0
  let pieces ← splitLoop chunk seps (chunk.length + 1) 0 0 []
  if pieces.length + 1 ≤ count + 2 then some pieces else none

/-- `axl_stream_clean_split` (src/axl_stream.c:2909-2948): at an empty string the following ones
move one position down and the position is looked at again. -/
def cleanSplitLoop : Nat → Nat → List (List Char) → Option (List (List Char))
  | 0, _, _ => none
  | fuel + 1, i, a =>
    match a[i]? with
    | none => some a
    | some s => if s.length = 0 then cleanSplitLoop fuel i (a.eraseIdx i) else cleanSplitLoop fuel (i + 1) a

/-- `axl_stream_clean_split` (src/axl_stream.c:2909-2948). -/
def cleanSplit (a : List (List Char)) : Option (List (List Char)) := cleanSplitLoop (a.length + 1) 0 a

/-- The copy loop of `axl_stream_join` (src/axl_stream.c:3005-3031): `next_sep` and the strings from
the iterator on. -/
def joinLoop (separator : List Char) : Bool → List (List Char) → List Char
  | _, [] => []
  | false, s :: rest => s ++ joinLoop separator true rest
  | true, s :: rest => separator ++ joinLoop separator false (s :: rest)
termination_by nextSep rest => 2 * rest.length + nextSep.toNat
decreasing_by all_goals simp <;> omega

/-- `axl_stream_join` (src/axl_stream.c:2966-3035).  Inner `none` is NULL (no strings); the outer
one says that the memory allocated is not enough. -/
def join (strings : List (List Char)) (separator : List Char) : Option (Option (List Char)) :=
  match strings with
  | [] => some none
  | [s] => some (some s)
  | strings =>
    let length := (strings.map List.length).sum + separator.length * (strings.length - 1) + 1
    let result := joinLoop separator false strings
    if result.length + 1 ≤ length then some (some result) else none

/-- The counting loop of `axl_stream_replace` (src/axl_stream.c:3092-3107). -/
def replaceCount (source string : List Char) : Nat → Nat → Nat → Option Nat
  | 0, _, _ => none
  | fuel + 1, it, count =>
    if (it : Int) + string.length - 1 < source.length then
      if memcmp (source.drop it) string string.length then
        replaceCount source string fuel (it + string.length) (count + 1)
      else replaceCount source string fuel (it + 1) count
    else some count

/-- The second loop of `axl_stream_replace` (src/axl_stream.c:3120-3141): the bytes written. -/
def replaceLoop (source string replacement : List Char) : Nat → Nat → List Char → Option (List Char)
  | 0, _, _ => none
  | fuel + 1, it, acc =>
    if it < source.length then
      if (it : Int) + string.length - 1 < source.length ∧ memcmp (source.drop it) string string.length then
        replaceLoop source string replacement fuel (it + string.length) (acc ++ replacement)
      else do
        let c ← source[it]?
        replaceLoop source string replacement fuel (it + 1) (acc ++ [c])
    else some acc

/-- `axl_stream_replace` (src/axl_stream.c:3070-3148) with sizes that are the lengths of the strings
(or -1): the string afterwards and the size returned.  The bytes written must fill the memory
allocated, except its terminator. -/
def replace (source string replacement : List Char) : Option (List Char × Int) := do
  let count ← replaceCount source string (source.length + 2) 0 0
  if count = 0 then some (source, source.length)
  else
    let size : Int := source.length - string.length * count + replacement.length * count
    let result ← replaceLoop source string replacement (source.length + 1) 0 []
    if (result.length : Int) ≤ size then some (result, size) else none

end Str
end Axl
