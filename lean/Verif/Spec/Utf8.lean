/-
What UTF-8 is, for the properties about encodings.
-/
namespace Axl
namespace Spec
namespace Utf8

/-- A byte 10xxxxxx. -/
def Continues (b : UInt8) : Prop := b.toNat / 64 = 2

/-- The bytes of one character by its form: a first byte 0xxxxxxx, 110xxxxx, 1110xxxx or
11110xxx, followed by none, one, two or three bytes 10xxxxxx. -/
def Shaped : List UInt8 → Prop
  | [a] => a.toNat / 128 = 0
  | [a, b] => a.toNat / 32 = 6 ∧ Continues b
  | [a, b, c] => a.toNat / 16 = 14 ∧ Continues b ∧ Continues c
  | [a, b, c, d] => a.toNat / 8 = 30 ∧ Continues b ∧ Continues c ∧ Continues d
  | _ => False

/-- A sequence of properly led and continued characters. -/
def WellShaped (bytes : List UInt8) : Prop :=
  ∃ chars : List (List UInt8), bytes = chars.flatten ∧ ∀ c ∈ chars, Shaped c

/-- The character at `index` is the first bad one: before it all are good and none starts there. -/
def FirstBad (bytes : List UInt8) (index : Nat) : Prop :=
  index < bytes.length ∧ WellShaped (bytes.take index) ∧
    ¬ ∃ c rest, Shaped c ∧ bytes.drop index = c ++ rest

/-- The UTF-8 encoding of a text: `String.utf8EncodeChar` is Lean's own. -/
def encode (text : List Char) : List UInt8 := text.flatMap String.utf8EncodeChar

end Utf8
end Spec
end Axl
