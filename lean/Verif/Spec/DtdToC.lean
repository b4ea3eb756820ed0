/-
How a C compiler reads a header: lines joined by a backslash, and the string of a macro.
-/
import Verif.Spec.StreamZero

namespace Axl
namespace Spec.DtdToC

/-- Lines that end with a backslash are joined to the next (C11 5.1.1.2, phase 2). -/
def splice : List Char → List Char
  | '\\' :: '\n' :: r => splice r
  | c :: r => c :: splice r
  | [] => []

/-- The logical lines. -/
def logicalLines (header : List Char) : List (List Char) := Spec.StreamZero.split '\n' (splice header)

/-- The rest of a string literal, after its first quote: the characters of the string, if it ends where the text ends. -/
def literalRest : List Char → Option (List Char)
  | [] => none
  | ['"'] => some []
  | '"' :: _ :: _ => none
  | '\\' :: 'n' :: r => (literalRest r).map ('\n' :: ·)
  | '\\' :: 't' :: r => (literalRest r).map ('\t' :: ·)
  | '\\' :: '\\' :: r => (literalRest r).map ('\\' :: ·)
  | '\\' :: '"' :: r => (literalRest r).map ('"' :: ·)
  | '\\' :: _ => none
  | '\n' :: _ => none
  | c :: r => (literalRest r).map (c :: ·)

/-- The string that a literal is. -/
def literal : List Char → Option (List Char)
  | '"' :: r => literalRest r
  | _ => none

def letter (c : Char) : Bool := ('a' ≤ c && c ≤ 'z') || ('A' ≤ c && c ≤ 'Z')
def digit (c : Char) : Bool := '0' ≤ c && c ≤ '9'

/-- An identifier of C. -/
def Identifier : List Char → Prop
  | [] => False
  | c :: r => (letter c = true ∨ c = '_') ∧ ∀ x ∈ r, letter x = true ∨ digit x = true ∨ x = '_'

/-- The macro and its string, if the line is `#define NAME "…"`. -/
def DefinesString (line name text : List Char) : Prop :=
  Identifier name ∧ ∃ lit, line = c!"#define " ++ name ++ [' '] ++ lit ∧ literal lit = some text

def white (c : Char) : Bool := c == ' ' || c == '\n' || c == '\t' || c == '\r'

/-- The words of a text, where `word` (reversed) was read of the first one. -/
def wordsFrom (word : List Char) : List Char → List (List Char)
  | [] => if word = [] then [] else [word.reverse]
  | c :: r => if white c then (if word = [] then wordsFrom [] r else word.reverse :: wordsFrom [] r) else wordsFrom (c :: word) r

/-- The words of a text: what is between white space. -/
def words (s : List Char) : List (List Char) := wordsFrom [] s

/-- With `'` instead of `"`. -/
def oneQuote (s : List Char) : List Char := s.map fun c => if c = '"' then '\'' else c

/-- The name of the macro for a file: in capital letters, with `_` instead of `.` and `-`. -/
def macroName (file : List Char) : List Char := file.map fun c => if c = '.' ∨ c = '-' then '_' else c.toUpper

/-- A path whose last part, `file`, has only letters, digits, `_`, `-` and `.`, and begins with a letter or `_`. -/
def GoodPath (path file : List Char) : Prop :=
  ∃ dir, (dir = [] ∨ ∃ d, dir = d ++ ['/']) ∧ path = dir ++ file ∧
    (∀ c ∈ file, letter c = true ∨ digit c = true ∨ c = '_' ∨ c = '-' ∨ c = '.') ∧
    ∃ c, file.head? = some c ∧ (letter c = true ∨ c = '_')

end Spec.DtdToC
end Axl
