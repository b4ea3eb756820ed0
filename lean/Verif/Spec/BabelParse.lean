/-
Documents and their encodings, for the parse after `axl_babel_init`.
-/
import Verif.Spec.Source
import Verif.Model.Parse
import Verif.Spec.Iso8859
import Verif.Spec.Utf8
import Verif.Spec.Str

namespace Axl.Spec.Encoding
open Spec.Str

/-- The mark of UTF-8. -/
def mark8 : List Char := ['\xEF', '\xBB', '\xBF']
/-- The mark of UTF-16 with the low byte first. -/
def mark16 : List Char := ['\xFF', '\xFE']

/-- A document begins as one of those known: a mark, `<?xm`, or `<` and something that is not `<` or `>`. -/
def Begun (s : List Char) : Prop :=
  mark8 <+: s ∨ mark16 <+: s ∨ c!"<?xm" <+: s ∨ ∃ c r, s = '<' :: c :: r ∧ c ≠ '<' ∧ c ≠ '>'

/-- A small letter for a capital one. -/
def small (c : Char) : Char := if 65 ≤ c.toNat ∧ c.toNat ≤ 90 then Char.ofNat (c.toNat + 32) else c

/-- The declared name, without white spaces around, `-` and `_` and in small letters, is this one: `UTF-8`, `utf_8` and `Utf8`
stand all for `utf8`. -/
def Named (declared name : List Char) : Prop :=
  ∃ t, Trimmed declared t ∧ name = (t.filter fun c => c ≠ '-' ∧ c ≠ '_').map small

/-- The names of ISO 8859: `iso88591` … `iso88599` and `iso885915`. -/
def isoName (part : Nat) : List Char :=
  c!"iso8859" ++ (if part < 10 then [Char.ofNat (48 + part)] else [Char.ofNat (48 + part / 10), Char.ofNat (48 + part % 10)])

/-- The names that are supported. -/
def known : List (List Char) := c!"utf8" :: Iso8859.parts.map isoName

/-- The bytes of a text. -/
def octets (s : List Char) : List UInt8 := s.map fun c => UInt8.ofNat c.toNat

/-- The text of some bytes. -/
def text (b : List UInt8) : List Char := b.map fun v => Char.ofNat v.toNat

/-- The conversion to UTF-8 of a text in ISO 8859, cut at the last character that is complete within the size that the text
had before. -/
def CutAt (part : Nat) (s u : List Char) : Prop :=
  ∃ k ≤ s.length, octets u = Utf8.encode (Iso8859.text part (octets (s.take k))) ∧ u = text (octets u) ∧ u.length ≤ s.length ∧
    (k = s.length ∨ s.length < (Utf8.encode (Iso8859.text part (octets (s.take (k + 1))))).length)

/-- The same document, with the encoding that says `utf-8`. -/
def inUtf8 (d : Doc) : Doc := { d with encoding := some c!"utf-8" }

/-- The same answer: the same document in UTF-8, or the same failure. -/
def same : Res Doc → Res (Option Doc)
  | .ok d => .ok (some (inUtf8 d))
  | .error => .error
  | .ub => .ub
  | .loop => .loop

end Axl.Spec.Encoding
