/-
Documents as they are written: the XML that a parse has to accept, and the tree each text stands for.

An `Element` is the text of an element cut in its parts, white spaces included; `chars` puts the parts
together.  `Means` says which tree stands for it.
-/
import Verif.Spec.RoundTrip

namespace Axl.Spec.Source
open Spec.Xml Spec.RoundTrip

/-- `name="value"` or `name='value'` and the white spaces before it. -/
structure Attribute where
  gap   : List Char
  name  : List Char
  quote : Char
  value : List Char

mutual
inductive Element where
  /-- `<name attributes/>`; `gap` is the white space before the end of the tag. -/
  | empty (name : List Char) (attrs : List Attribute) (gap : List Char)
  /-- `<name attributes>content</name>`; `gapEnd` is the white space after the last name. -/
  | pair (name : List Char) (attrs : List Attribute) (gap : List Char) (content : Parts) (gapEnd : List Char)
/-- What is between two tags. -/
inductive Parts where
  | nil
  | text (t : List Char) (next : Parts)
  /-- `<!--t-->` -/
  | comment (t : List Char) (next : Parts)
  /-- A processing instruction: its text and what it stands for. -/
  | pi (t : List Char) (p : PI) (next : Parts)
  /-- `<![CDATA[t]]>` -/
  | cdata (t : List Char) (next : Parts)
  | element (e : Element) (next : Parts)
end

def Attribute.chars (a : Attribute) : List Char := a.gap ++ a.name ++ '=' :: a.quote :: a.value ++ [a.quote]

mutual
/-- The characters of an element. -/
def Element.chars : Element → List Char
  | .empty name attrs gap => '<' :: (name ++ attrs.flatMap Attribute.chars ++ gap ++ c!"/>")
  | .pair name attrs gap content gapEnd =>
    '<' :: (name ++ attrs.flatMap Attribute.chars ++ gap ++ c!">" ++ content.chars ++ c!"</" ++ name ++ gapEnd ++ c!">")
def Parts.chars : Parts → List Char
  | .nil => []
  | .text t next => t ++ next.chars
  | .comment t next => c!"<!--" ++ t ++ c!"-->" ++ next.chars
  | .pi t _ next => t ++ next.chars
  | .cdata t next => c!"<![CDATA[" ++ t ++ c!"]]>" ++ next.chars
  | .element e next => e.chars ++ next.chars
end

/-- An attribute as XML asks: white space before it, a name, and a value without its quote; `xml:space` has one of
its two values. -/
structure Attribute.Valid (a : Attribute) : Prop where
  gap   : Blank a.gap ∧ a.gap ≠ []
  name  : IsName a.name
  quote : a.quote = '"' ∨ a.quote = '\''
  value : a.quote ∉ a.value ∧ Char.ofNat 0 ∉ a.value
  space : a.name = c!"xml:space" → a.value = c!"preserve" ∨ a.value = c!"default"

/-- The attributes of a tag: each one once. -/
def ValidAttrs (as : List Attribute) : Prop := (∀ a ∈ as, a.Valid) ∧ (as.map (·.name)).Nodup

def isText : Parts → Prop
  | .text _ _ => True
  | _ => False

mutual
/-- An element as XML asks.  Restrictions of this library: no white space around the `=` of an attribute, at
most one after the name of the last tag, comments that are not empty, no `/>` just after a tag that is only a
name. -/
def Element.Valid : Element → Prop
  | .empty name attrs gap => IsName name ∧ ValidAttrs attrs ∧ Blank gap
  | .pair name attrs gap content gapEnd =>
    IsName name ∧ ValidAttrs attrs ∧ Blank gap ∧ content.Valid ∧ Blank gapEnd ∧ gapEnd.length ≤ 1 ∧
      ¬ (attrs = [] ∧ gap = [] ∧ c!"/>" <+: content.chars)
/-- The parts of a content: a text is all the text between two marks. -/
def Parts.Valid : Parts → Prop
  | .nil => True
  | .text t next => t ≠ [] ∧ '<' ∉ t ∧ Char.ofNat 0 ∉ t ∧ ¬ isText next ∧ next.Valid
  | .comment t next => t ≠ [] ∧ UpTo c!"-->" t ∧ next.Valid
  | .pi t p next => Instruction t p ∧ next.Valid
  | .cdata t next => UpTo c!"]]>" t ∧ Char.ofNat 0 ∉ t ∧ next.Valid
  | .element e next => e.Valid ∧ next.Valid
end

/-- The attributes of a node are exactly these. -/
def Holds (a : Attrs) (as : List Attribute) : Prop := a.Made ∧ a.Lists (as.map fun x => (x.name, x.value))

instance (c : Char) : Decidable (White c) := inferInstanceAs (Decidable (_ ∨ _))
instance (t : List Char) : Decidable (Blank t) := inferInstanceAs (Decidable (∀ c ∈ t, White c))

/-- The text that is kept of a text.  A text of white spaces is kept if `keep`; a text that follows a comment or an
instruction (`after`) loses the white spaces it begins with. -/
def shown (keep after : Bool) (t : List Char) : Option (List Char) :=
  if after then
    if Blank t then none else some (t.dropWhile fun c => decide (White c))
  else if Blank t ∧ keep = false then none
  else some t

/-- Whether white spaces are kept in an element with these attributes: as `xml:space` says, or as around the
element. -/
def keeps (keep : Bool) (as : List Attribute) : Bool :=
  match as.find? fun a => a.name = c!"xml:space" with
  | some a => a.value = c!"preserve"
  | none => keep

mutual
/-- The node that stands for an element: its name, its attributes and its items. -/
def Means (keep : Bool) : Element → Node → Prop
  | .empty name attrs _, n => n.name = name ∧ Holds n.attrs attrs ∧ n.items = .nil
  | .pair name attrs _ content _, n => n.name = name ∧ Holds n.attrs attrs ∧ MeansParts (keeps keep attrs) false content n.items
/-- The items that stand for a content, in the same order. -/
def MeansParts (keep : Bool) : (after : Bool) → Parts → Items → Prop
  | _, .nil, i => i = .nil
  | after, .text t next, i =>
    match shown keep after t with
    | some u => ∃ j, i = .leaf (.content u) j ∧ MeansParts keep false next j
    | none => MeansParts keep false next i
  | _, .comment t next, i => ∃ j, i = .leaf (.comment t) j ∧ MeansParts keep true next j
  | _, .pi _ p next, i => ∃ j, i = .leaf (.pi p) j ∧ MeansParts keep true next j
  | _, .cdata t next, i => ∃ j, i = .leaf (.cdata t) j ∧ MeansParts keep false next j
  | _, .element e next, i => ∃ n j, i = .node n j ∧ Means keep e n ∧ MeansParts keep false next j
end

/-- The tag asks to keep white spaces. -/
def asksPreserve (as : List Attribute) : Prop := ∃ a ∈ as, a.name = c!"xml:space" ∧ a.value = c!"preserve"

mutual
/-- Nothing asks to keep white spaces. -/
def NoPreserve : Element → Prop
  | .empty _ attrs _ => ¬ asksPreserve attrs
  | .pair _ attrs _ content _ => ¬ asksPreserve attrs ∧ NoPreserveParts content
def NoPreserveParts : Parts → Prop
  | .nil => True
  | .text _ next => NoPreserveParts next
  | .comment _ next => NoPreserveParts next
  | .pi _ _ next => NoPreserveParts next
  | .cdata _ next => NoPreserveParts next
  | .element e next => NoPreserve e ∧ NoPreserveParts next
end

mutual
/-- Every element that has a tag for its end has one attribute, and the others have none. -/
def OneEach : Element → Prop
  | .empty _ attrs _ => attrs = []
  | .pair _ attrs _ content _ => attrs.length = 1 ∧ OneEachParts content
def OneEachParts : Parts → Prop
  | .nil => True
  | .text _ next => OneEachParts next
  | .comment _ next => OneEachParts next
  | .pi _ _ next => OneEachParts next
  | .cdata _ next => OneEachParts next
  | .element e next => OneEach e ∧ OneEachParts next
end

mutual
/-- The elements that ask to keep white spaces are `OneEach`. -/
def Scoped : Element → Prop
  | .empty name attrs gap => ¬ asksPreserve attrs ∨ OneEach (.empty name attrs gap)
  | .pair name attrs gap content gapEnd =>
    ¬ asksPreserve attrs ∧ ScopedParts content ∨ OneEach (.pair name attrs gap content gapEnd)
def ScopedParts : Parts → Prop
  | .nil => True
  | .text _ next => ScopedParts next
  | .comment _ next => ScopedParts next
  | .pi _ _ next => ScopedParts next
  | .cdata _ next => ScopedParts next
  | .element e next => Scoped e ∧ ScopedParts next
end

/-- ` name="value"` in the declaration at the beginning, or nothing. -/
inductive DeclPart (name : List Char) : List Char → Option (List Char) → Prop
  | none : DeclPart name [] none
  | some {gap value : List Char} {q : Char} : Blank gap → gap ≠ [] → (q = '"' ∨ q = '\'') → '"' ∉ value → '\'' ∉ value → Char.ofNat 0 ∉ value →
      DeclPart name (gap ++ name ++ '=' :: q :: value ++ [q]) (some value)

/-- The declaration at the beginning: its encoding and if it says that the document is standalone. -/
inductive Decl : List Char → Option (List Char) → Bool → Prop
  | mk {b1 enc alone b2 : List Char} {q : Char} {e a : Option (List Char)} : Blank b1 → b1 ≠ [] → (q = '"' ∨ q = '\'') →
      DeclPart c!"encoding" enc e → DeclPart c!"standalone" alone a → (a = none ∨ a = some c!"yes" ∨ a = some c!"no") → Blank b2 →
      Decl (c!"<?xml" ++ b1 ++ c!"version=" ++ q :: c!"1.0" ++ q :: enc ++ alone ++ b2 ++ c!"?>") e (a == some c!"yes")

/-- What comes before the root: a declaration, comments, a document type declaration up to its first `>`, comments
and instructions.  Without the declaration, nothing can be before the document type. -/
inductive Prolog : List Char → Option (List Char) → Bool → List PI → Prop
  | bare {m : List Char} {ls : List Leaf} : Misc m ls → ¬ c!"<?" <+: m → Prolog m none false (instructions ls)
  | bareType {d m : List Char} {ls : List Leaf} : '>' ∉ d → Misc m ls →
      Prolog (c!"<!DOCTYPE" ++ d ++ c!">" ++ m) none false (instructions ls)
  | decl {x m : List Char} {e : Option (List Char)} {a : Bool} {ls : List Leaf} : Decl x e a → Misc m ls → Prolog (x ++ m) e a (instructions ls)
  | declType {x m d m' : List Char} {e : Option (List Char)} {a : Bool} {ls ls' : List Leaf} : Decl x e a → Misc m ls →
      (∀ l ∈ ls, ∃ c, l = .comment c) → '>' ∉ d → Misc m' ls' →
      Prolog (x ++ m ++ c!"<!DOCTYPE" ++ d ++ c!">" ++ m') e a (instructions ls')

end Axl.Spec.Source
