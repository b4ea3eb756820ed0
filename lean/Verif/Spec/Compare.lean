/-
When two trees say the same.
-/
import Verif.Spec.Str
import Verif.Spec.AttrApi
import Verif.Spec.Dump
import Verif.Model.Doc

namespace Axl.Spec.Compare

/-- The same attributes: as many, and each name with the same value in both. -/
structure SameAttrs (a b : Attrs) : Prop where
  num : a.numAttributes = b.numAttributes
  value : ∀ name, a.getValue name = b.getValue name

/-- Items of the same kind whose texts are related by `R`; instructions with the same name and
content. -/
inductive SameLeaf (R : List Char → List Char → Prop) : Leaf → Leaf → Prop
  | content {s t} : R s t → SameLeaf R (.content s) (.content t)
  | cdata {s t} : R s t → SameLeaf R (.cdata s) (.cdata t)
  | comment {s t} : R s t → SameLeaf R (.comment s) (.comment t)
  | ref {s t} : R s t → SameLeaf R (.ref s) (.ref t)
  | pi (p) : SameLeaf R (.pi p) (.pi p)

mutual
/-- The same name, the same attributes and the same items in the same order. -/
inductive SameNode (R : List Char → List Char → Prop) : Node → Node → Prop
  | mk (name) {a b i j} : SameAttrs a b → SameItems R i j → SameNode R (.mk name a i) (.mk name b j)
inductive SameItems (R : List Char → List Char → Prop) : Items → Items → Prop
  | nil : SameItems R .nil .nil
  | node {x y s t} : SameNode R x y → SameItems R s t → SameItems R (.node x s) (.node y t)
  | leaf {l m s t} : SameLeaf R l m → SameItems R s t → SameItems R (.leaf l s) (.leaf m t)
end

/-- How texts are compared: with or without the white space at their ends. -/
def SameText (trimmed : Bool) (s t : List Char) : Prop :=
  if trimmed then ∃ u, Str.Trimmed s u ∧ Str.Trimmed t u else s = t

/-- The number of nodes among the items. -/
def nodeCount : Items → Nat
  | .nil => 0
  | .node _ next => nodeCount next + 1
  | .leaf _ next => nodeCount next

/-- The same name, attributes and number of children, and both have text or none has. -/
structure SameHead (n m : Node) : Prop where
  name : n.name = m.name
  attrs : SameAttrs n.attrs m.attrs
  count : nodeCount n.items = nodeCount m.items
  texts : Dump.hasTexts n.items ↔ Dump.hasTexts m.items

mutual
/-- The attributes of the node and its descendants were made through the API, and every item that
is not a node satisfies `P`. -/
def Made (P : Leaf → Prop) : Node → Prop
  | .mk _ a i => a.Made ∧ MadeItems P i
def MadeItems (P : Leaf → Prop) : Items → Prop
  | .nil => True
  | .node n next => Made P n ∧ MadeItems P next
  | .leaf l next => P l ∧ MadeItems P next
end

/-- Texts have no terminator inside and instructions have content. -/
def Comparable : Leaf → Prop
  | .content s | .cdata s | .comment s | .ref s => Str.NUL ∉ s
  | .pi p => p.content ≠ none

/-- Texts have no terminator inside, and there are no entity references. -/
def Copiable : Leaf → Prop
  | .content s | .cdata s | .comment s => Str.NUL ∉ s
  | .ref _ => False
  | .pi _ => True

end Axl.Spec.Compare
