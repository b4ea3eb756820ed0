/-
What the string functions should do, independently of how the library does it.
-/
namespace Axl.Spec.Str

/-- White space: space, newline, tab and carriage return. -/
def White (c : Char) : Prop := c = ' ' ∨ c = '\n' ∨ c = '\t' ∨ c = '\r'

/-- `t` is `s` without its leading and trailing white space. -/
def Trimmed (s t : List Char) : Prop :=
  ∃ l r, s = l ++ t ++ r ∧ (∀ c ∈ l, White c) ∧ (∀ c ∈ r, White c) ∧
    (∀ c ∈ t.head?, ¬ White c) ∧ (∀ c ∈ t.getLast?, ¬ White c)

/-- The characters are the same, ASCII letters in any case. -/
def SameLetter (a b : Char) : Prop :=
  a = b ∨ ∃ i < 26, (a = Char.ofNat (65 + i) ∧ b = Char.ofNat (97 + i)) ∨
    (a = Char.ofNat (97 + i) ∧ b = Char.ofNat (65 + i))

/-- The strings have the same length and the same letters at each position. -/
inductive SameUpToCase : List Char → List Char → Prop
  | nil : SameUpToCase [] []
  | cons {a b s t} : SameLetter a b → SameUpToCase s t → SameUpToCase (a :: s) (b :: t)

/-- One of the (non-empty) separators is found at the beginning of `s`, and it is the first one of
the list found there. -/
def FirstSep (seps : List (List Char)) (sep s : List Char) : Prop :=
  ∃ before after, seps = before ++ sep :: after ∧ sep ≠ [] ∧ sep <+: s ∧
    ∀ x ∈ before, x = [] ∨ ¬ x <+: s

/-- No separator is found at the beginning of `s`. -/
def NoSep (seps : List (List Char)) (s : List Char) : Prop := ∀ x ∈ seps, x = [] ∨ ¬ x <+: s

/-- The pieces of a string cut from left to right at every separator. -/
inductive Splits (seps : List (List Char)) : List Char → List (List Char) → Prop
  | last {s} : (∀ i < s.length, NoSep seps (s.drop i)) → Splits seps s [s]
  | cut {p sep rest ps} : (∀ i < p.length, NoSep seps ((p ++ sep ++ rest).drop i)) →
      FirstSep seps sep (sep ++ rest) → Splits seps rest ps → Splits seps (p ++ sep ++ rest) (p :: ps)

/-- `out` is `s` with every leftmost non-overlapping occurrence of `pat` replaced by `rep`. -/
inductive Rewrites (pat rep : List Char) : List Char → List Char → Prop
  | nil : Rewrites pat rep [] []
  | occurrence {t out} : pat ≠ [] → Rewrites pat rep t out → Rewrites pat rep (pat ++ t) (rep ++ out)
  | other {c t out} : (pat = [] ∨ ¬ pat <+: c :: t) → Rewrites pat rep t out →
      Rewrites pat rep (c :: t) (c :: out)

/-- `out` is `s` without the first occurrence of `pat`. -/
def RemovesFirst (pat s out : List Char) : Prop :=
  (out = s ∧ (pat = [] ∨ ¬ pat <:+: s)) ∨
  (pat ≠ [] ∧ ∃ a b, s = a ++ pat ++ b ∧ out = a ++ b ∧ ∀ i < a.length, ¬ pat <+: s.drop i)

end Axl.Spec.Str
