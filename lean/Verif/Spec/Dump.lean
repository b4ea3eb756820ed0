/-
The text of a document: what a dump must produce.
-/
import Verif.Spec.AttrApi
import Verif.Model.Doc
import Verif.Model.Lit

namespace Axl

namespace Spec.Dump

/-- An order for the attributes of each node. -/
abbrev Order := Attrs → List (List Char × List Char)

/-- There were never more than ten attributes at once. -/
def AtMostTen : List Spec.Attr.Op → Prop
  | [] => True
  | op :: past => (Spec.Attr.pairs (op :: past)).length ≤ 10 ∧ AtMostTen past

/-- The order has each attribute once, and no other thing; if there were never more than ten, it is the
order in which they were set. -/
structure Order.Good (ord : Order) : Prop where
  lists : ∀ a : Attrs, a.Made → a.Lists (ord a)
  oldest : ∀ (ops : List Spec.Attr.Op) (a : Attrs), Spec.Attr.NoNul Str.NUL ops → AtMostTen ops.reverse →
    Attrs.empty.run ops = some a → ord a = (Spec.Attr.pairs ops.reverse).reverse

/-- ` name='value'`, with the other quotes if the value has one of these. -/
def attrText (p : List Char × List Char) : List Char :=
  let q := if '\'' ∈ p.2 then '"' else '\''
  ' ' :: p.1 ++ '=' :: q :: p.2 ++ [q]

/-- Some item is a node, a processing instruction or a comment. -/
def hasBlocks : Items → Prop
  | .nil => False
  | .node _ _ => True
  | .leaf l next => (match l with | .pi _ => True | .comment _ => True | _ => False) ∨ hasBlocks next

/-- Some item is a text or a CDATA section. -/
def hasTexts : Items → Prop
  | .nil => False
  | .node _ next => hasTexts next
  | .leaf l next => (match l with | .content _ => True | .cdata _ => True | _ => False) ∨ hasTexts next

instance decHasBlocks : ∀ i, Decidable (hasBlocks i)
  | .nil => inferInstanceAs (Decidable False)
  | .node _ _ => inferInstanceAs (Decidable True)
  | .leaf (.pi _) _ => isTrue (Or.inl trivial)
  | .leaf (.comment _) _ => isTrue (Or.inl trivial)
  | .leaf (.content _) next => have := decHasBlocks next; inferInstanceAs (Decidable (False ∨ hasBlocks next))
  | .leaf (.cdata _) next => have := decHasBlocks next; inferInstanceAs (Decidable (False ∨ hasBlocks next))
  | .leaf (.ref _) next => have := decHasBlocks next; inferInstanceAs (Decidable (False ∨ hasBlocks next))

instance decHasTexts : ∀ i, Decidable (hasTexts i)
  | .nil => inferInstanceAs (Decidable False)
  | .node _ next => have := decHasTexts next; inferInstanceAs (Decidable (hasTexts next))
  | .leaf (.content _) _ => isTrue (Or.inl trivial)
  | .leaf (.cdata _) _ => isTrue (Or.inl trivial)
  | .leaf (.pi _) next => have := decHasTexts next; inferInstanceAs (Decidable (False ∨ hasTexts next))
  | .leaf (.comment _) next => have := decHasTexts next; inferInstanceAs (Decidable (False ∨ hasTexts next))
  | .leaf (.ref _) next => have := decHasTexts next; inferInstanceAs (Decidable (False ∨ hasTexts next))

/-- How the lines are laid out: nothing added, or one tag in each line with this many blanks for each
level. -/
inductive Layout where
  | plain
  | pretty (tabular : Nat)

/-- The blanks before a tag. -/
def Layout.pad : Layout → Nat → List Char
  | .plain, _ => []
  | .pretty t, level => List.replicate (t * level) ' '

/-- The end of a line. -/
def Layout.line : Layout → List Char
  | .plain => []
  | .pretty _ => ['\n']

/-- A comment is written with a blank at each side, added if its text does not have it. -/
def commentText (s : List Char) : List Char :=
  c!"<!--" ++ (if s.head? = some ' ' then [] else [' ']) ++ s ++
    (if s.getLast? = some ' ' then [] else [' ']) ++ c!"-->"

def leafText (y : Layout) (level : Nat) : Leaf → List Char
  | .content s => s
  | .cdata s => c!"<![CDATA[" ++ s ++ c!"]]>"
  | .pi p => c!"<?" ++ p.name ++ [' '] ++ p.content.getD [] ++ c!"?>"
  | .comment s => y.pad (level + 1) ++ commentText s ++ y.line
  | .ref s => ['&'] ++ s ++ [';']

mutual
/-- The text of a node at a level. -/
def nodeText (ord : Order) (y : Layout) : Nat → Node → List Char
  | level, .mk name attrs items =>
    y.pad level ++ ['<'] ++ name ++ (ord attrs).flatMap attrText ++
      (if hasBlocks items then
        ['>'] ++ y.line ++ itemsText ord y level items ++ y.pad level ++ c!"</" ++ name ++ ['>']
       else if hasTexts items then
        ['>'] ++ itemsText ord y level items ++ c!"</" ++ name ++ ['>']
       else c!" />") ++ y.line
/-- The text of the items of a node at a level. -/
def itemsText (ord : Order) (y : Layout) : Nat → Items → List Char
  | _, .nil => []
  | level, .node n next => nodeText ord y (level + 1) n ++ itemsText ord y level next
  | level, .leaf l next => leafText y level l ++ itemsText ord y level next
end

def encodingText : Option (List Char) → List Char
  | some e => c!"encoding='" ++ e ++ c!"' "
  | none => []

/-- The header. -/
def headerText (y : Layout) (encoding : Option (List Char)) (standalone : Bool) : List Char :=
  c!"<?xml version='1.0' " ++ encodingText encoding ++ (if standalone then c!"standalone='yes' " else []) ++ c!"?>" ++ y.line

def docText (ord : Order) (y : Layout) (d : Doc) : List Char :=
  headerText y d.encoding d.standalone ++ nodeText ord y 0 d.root

/-- An item that can be written: instructions have content and comments are not empty. -/
def Leaf.Writable : Leaf → Prop
  | .pi p => p.content ≠ none
  | .comment s => s ≠ []
  | _ => True

mutual
/-- The attributes of the node and its descendants were made through the API and all their items can be
written. -/
def Writable : Node → Prop
  | .mk _ attrs items => attrs.Made ∧ WritableItems items
def WritableItems : Items → Prop
  | .nil => True
  | .node n next => Writable n ∧ WritableItems next
  | .leaf l next => Leaf.Writable l ∧ WritableItems next
end

end Spec.Dump
end Axl
