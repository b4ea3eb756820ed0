/-
What a page shows: its tags and its text.
-/
import Verif.Spec.Dump

namespace Axl
namespace Spec.Htmlize

/-- A page is tags and characters. -/
inductive Tok where
  | tag (t : List Char)
  | char (c : Char)
deriving DecidableEq

/-- Reads a page: a tag goes from `<` to the first `>`.  The first argument has, reversed, what was read of a tag. -/
def scan : Option (List Char) → List Char → List Tok
  | none, [] => []
  | some t, [] => [.tag t.reverse]
  | none, c :: r => if c = '<' then scan (some []) r else .char c :: scan none r
  | some t, c :: r => if c = '>' then .tag t.reverse :: scan none r else scan (some (c :: t)) r

def tagsOf : List Tok → List (List Char)
  | [] => []
  | .tag t :: r => t :: tagsOf r
  | .char _ :: r => tagsOf r

def charsOf : List Tok → List Char
  | [] => []
  | .tag _ :: r => charsOf r
  | .char c :: r => c :: charsOf r

/-- The tags of a page. -/
def tags (page : List Char) : List (List Char) := tagsOf (scan none page)

/-- Replaces the character references. -/
def references : List Char → List Char
  | '&' :: 'l' :: 't' :: ';' :: r => '<' :: references r
  | '&' :: 'g' :: 't' :: ';' :: r => '>' :: references r
  | '&' :: 'a' :: 'm' :: 'p' :: ';' :: r => '&' :: references r
  | '&' :: 'q' :: 'u' :: 'o' :: 't' :: ';' :: r => '"' :: references r
  | c :: r => c :: references r
  | [] => []

/-- The text that a page shows. -/
def shown (page : List Char) : List Char := references (charsOf (scan none page))

/-- The text without white space, with one kind of quotes. -/
def norm (s : List Char) : List Char :=
  (s.filter fun c => !(c == ' ' || c == '\n' || c == '\t' || c == '\r')).map fun c => if c = '\'' then '"' else c

/-- Spans of the four classes of the style sheet, each one closed before the next is opened. -/
inductive Spans : List (List Char) → Prop
  | nil : Spans []
  | span {k : List Char} {r : List (List Char)} : k ∈ [c!"node", c!"attrvalue", c!"comment", c!"cdata"] → Spans r →
      Spans ((c!"span class=\"" ++ k ++ c!"\"") :: c!"/span" :: r)

mutual
/-- No name of an element or an attribute, and no value, has this character; the attributes were made through the API. -/
def Without (c : Char) : Node → Prop
  | .mk name attrs items => attrs.Made ∧ c ∉ name ∧ (∀ qs, attrs.Lists qs → ∀ p ∈ qs, c ∉ p.1 ∧ c ∉ p.2) ∧ ItemsWithout c items
def ItemsWithout (c : Char) : Items → Prop
  | .nil => True
  | .node n next => Without c n ∧ ItemsWithout c next
  | .leaf _ next => ItemsWithout c next
end

/-- A text, a section or a comment, without `&`. -/
def LeafShown : Leaf → Prop
  | .content s => '&' ∉ s ∧ Str.NUL ∉ s
  | .cdata s => '&' ∉ s ∧ Str.NUL ∉ s
  | .comment s => '&' ∉ s ∧ Str.NUL ∉ s
  | .pi _ => False
  | .ref _ => False

mutual
/-- Each element has an attribute or an item, and the items that are not elements are texts, sections and comments without
`&`. -/
def Showable : Node → Prop
  | .mk _ attrs items => (attrs.hasAttributes = true ∨ items ≠ .nil) ∧ ItemsShowable items
def ItemsShowable : Items → Prop
  | .nil => True
  | .node n next => Showable n ∧ ItemsShowable next
  | .leaf l next => LeafShown l ∧ ItemsShowable next
end

end Spec.Htmlize
end Axl
