/-
When the text of a document stands for that document, and what "the same document" means.
-/
import Verif.Spec.Dump
import Verif.Spec.Xml

namespace Axl.Spec.RoundTrip
open Spec.Dump Spec.Xml

/-- A character that can be in a name. -/
def NameChar (c : Char) : Prop :=
  ¬ White c ∧ c ∉ [Char.ofNat 0, '<', '>', '/', '=', '\'', '"', '!', '?', '&']

def IsName (n : List Char) : Prop := n ≠ [] ∧ ∀ c ∈ n, NameChar c

/-- A value that can be written between quotes. -/
def Quotable (v : List Char) : Prop := Char.ofNat 0 ∉ v ∧ ¬ ('\'' ∈ v ∧ '"' ∈ v)

/-- An attribute with a name and a value that can be written; `xml:space`, if it is there, asks for the
default. -/
def FineAttr (n v : List Char) : Prop := IsName n ∧ Quotable v ∧ (n = c!"xml:space" → v = c!"default")

/-- A comment is given a blank at each side when it is written. -/
def padded (s : List Char) : List Char :=
  (if s.head? = some ' ' then [] else [' ']) ++ s ++ (if s.getLast? = some ' ' then [] else [' '])

/-- An item whose text does not have the mark that ends it. -/
def FineLeaf : Leaf → Prop
  | .content s => ¬ Blank s ∧ '<' ∉ s ∧ Char.ofNat 0 ∉ s
  | .cdata s => UpTo c!"]]>" s ∧ Char.ofNat 0 ∉ s
  | .comment s => s ≠ [] ∧ UpTo c!"-->" (padded s)
  | .pi p => IsName p.name ∧ ¬ Reserved p.name ∧
      ∃ c, p.content = some c ∧ Char.ofNat 0 ∉ c ∧ UpTo c!"?>" c ∧ c.getLast? ≠ some ' '
  | .ref _ => False

/-- What comes before an item. -/
inductive Before where
  | text
  | misc
  | other

def after : Leaf → Before
  | .content _ => .text
  | .comment _ => .misc
  | .pi _ => .misc
  | _ => .other

/-- A text cannot follow another text, and cannot begin with a white space after a comment or an
instruction. -/
def Allowed : Before → Leaf → Prop
  | .text, .content _ => False
  | .misc, .content s => ∀ c ∈ s.head?, ¬ White c
  | _, _ => True

/-- No item is a text. -/
def NoContent : Items → Prop
  | .nil => True
  | .node _ next => NoContent next
  | .leaf (.content _) _ => False
  | .leaf _ next => NoContent next

/-- The first item is a text that begins with `/>`. -/
def SlashFirst : Items → Prop
  | .leaf (.content s) _ => c!"/>" <+: s
  | _ => False

/-- Without attributes, nothing is written between the name and the `>` that ends the tag. -/
def Bare (attrs : Attrs) : Prop := ∀ n v, attrs.getValue n ≠ some (some v)

mutual
/-- A node that can be written with this layout and read again. -/
def Fine (y : Layout) : Node → Prop
  | .mk name attrs items =>
    IsName name ∧ attrs.Made ∧ (∀ n v, attrs.getValue n = some (some v) → FineAttr n v) ∧
    (y = .plain ∨ (hasBlocks items → NoContent items)) ∧ ¬ (Bare attrs ∧ SlashFirst items) ∧ FineItems y .other items
def FineItems (y : Layout) : Before → Items → Prop
  | _, .nil => True
  | _, .node n next => Fine y n ∧ FineItems y .other next
  | b, .leaf l next => FineLeaf l ∧ Allowed b l ∧ FineItems y (after l) next
end

/-- The same attributes with the same values, and in the same order if they are not more than ten. -/
def SameAttrs (a a' : Attrs) : Prop :=
  (∀ n, a'.getValue n = a.getValue n) ∧ a'.numAttributes = a.numAttributes ∧
  (∀ k ≤ 10, a.numAttributes = some k → a'.foreach (fun _ _ => false) = a.foreach (fun _ _ => false))

def SameLeaf : Leaf → Leaf → Prop
  | .comment s, l => l = .comment (padded s)
  | l, l' => l' = l

mutual
/-- The same names, attributes and items in the same order. -/
def Same : Node → Node → Prop
  | .mk n a i, .mk n' a' i' => n' = n ∧ SameAttrs a a' ∧ SameItems i i'
def SameItems : Items → Items → Prop
  | .nil, .nil => True
  | .node n i, .node n' i' => Same n n' ∧ SameItems i i'
  | .leaf l i, .leaf l' i' => SameLeaf l l' ∧ SameItems i i'
  | _, _ => False
end

/-- A document that can be written with this layout and read again. -/
structure FineDoc (y : Layout) (d : Doc) : Prop where
  encoding : ∀ e ∈ d.encoding, '"' ∉ e ∧ '\'' ∉ e ∧ Char.ofNat 0 ∉ e
  root     : Fine y d.root
  pis      : d.pis = []
  noValue  : d.noValue = []

/-- The same document. -/
structure SameDoc (d d' : Doc) : Prop where
  encoding   : d'.encoding = d.encoding
  standalone : d'.standalone = d.standalone
  root       : Same d.root d'.root
  pis        : d'.pis = d.pis
  noValue    : d'.noValue = d.noValue

end Axl.Spec.RoundTrip
