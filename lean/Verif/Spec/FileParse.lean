/-
What a document in a file is asked for to be read as in memory.
-/
import Verif.Spec.Xml

namespace Axl
namespace Spec
namespace File
open Xml

/-- No text of the document begins with white space: behind a `>` there may be white space, but then a `<` or the
end. -/
def NoLead (text : List Char) : Prop :=
  ∀ pre w c rest, text = pre ++ '>' :: (w ++ c :: rest) → (∀ x ∈ w, White x) → ¬ White c → c ≠ '<' → w = []

/-- A text that begins with white space goes on, behind it, for at least nine characters up to the end of the file. -/
def FarLead (text : List Char) : Prop :=
  ∀ pre w c rest, text = pre ++ '>' :: (w ++ c :: rest) → (∀ x ∈ w, White x) → ¬ White c → c ≠ '<' →
    w = [] ∨ 9 ≤ (c :: rest).length

/-- No comment, no instruction and no CDATA section begins in the text. -/
def Simple (text : List Char) : Prop :=
  ¬ c!"<!--" <:+: text ∧ ¬ c!"<?" <:+: text ∧ ¬ c!"<![CDATA[" <:+: text

/-- The text of a document, behind the beginning of its XML declaration if it has one. -/
inductive Begun : List Char → List Char → Prop where
  | plain (text : List Char) : 2 ≤ text.length → text.head? ≠ some 'ï' → ¬ c!"<?" <+: text → Begun text text
  | declared (w w' q rest : List Char) : (∀ c ∈ w, White c) → (∀ c ∈ w', White c) → q = c!"\"1.0\"" ∨ q = c!"'1.0'" →
      Begun (c!"<?xml" ++ w ++ c!"version=" ++ w' ++ q ++ rest) rest

/-- The three bytes that may be at the beginning of a text in UTF-8. -/
def mark : List Char := ['ï', '»', '¿']

/-- The last character is a white space. -/
def EndsWhite (text : List Char) : Prop := ∃ pre c, White c ∧ text = pre ++ [c]

end File
end Spec
end Axl
