/-
What a DTD is once its text was accepted.
-/
import Verif.Model.Dtd

namespace Axl.Dtd

mutual
/-- The name is in the content model, at any level. -/
def Part.Mentions (name : List Char) : Part → Prop
  | .node _ n => n = name
  | .list _ _ items => MentionsAny name items
def MentionsAny (name : List Char) : List Part → Prop
  | [] => False
  | p :: ps => p.Mentions name ∨ MentionsAny name ps
end

/-- The name is in the content model of the element. -/
def Element.Mentions (e : Element) (name : List Char) : Prop :=
  match e.type with
  | .any => False
  | .empty => False
  | .mixed l => MentionsAny name l.items
  | .pcdata l => MentionsAny name l.items
  | .children l => MentionsAny name l.items
  | .unclosed l => MentionsAny name l.items

/-- There is a declaration of an attribute that satisfies `P`. -/
def Dtd.Declares (d : Dtd) (P : AttType → Prop) : Prop := ∃ al ∈ d.attributes, ∃ x ∈ al.decls, P x.type

/-- The validity constraints of XML on the DTD itself: an element is declared once; the root is a declared element
that is in no content model; an element has one ID attribute, which is not fixed; a default value is one of the values
enumerated; there are references only if there are identifiers, and the DTD knows of both. -/
structure Dtd.WellFormed (d : Dtd) : Prop where
  names    : (d.elements.map (·.name)).Nodup
  noRoot   : d.elements = [] → d.root = none
  root     : d.elements ≠ [] → ∃ e ∈ d.elements, d.root = some e ∧ ∀ p ∈ d.elements, ¬ p.Mentions e.name
  lists    : (d.attributes.map (·.name)).Nodup
  oneId    : ∀ al ∈ d.attributes, ∀ x ∈ al.decls, ∀ y ∈ al.decls, x.type = .id → y.type = .id → x.name = y.name
  notFixed : ∀ al ∈ d.attributes, ∀ x ∈ al.decls, x.type = .id → x.defaults = .required ∨ x.defaults = .implied
  enums    : ∀ al ∈ d.attributes, ∀ x ∈ al.decls, ∀ vs v, x.type = .enum vs → x.value = some v → v ∈ vs
  ids      : d.haveId = true ↔ d.Declares fun t => t = .id
  refs     : d.haveIdRef = true ↔ d.Declares fun t => t = .idref ∨ t = .idrefs
  resolved : d.Declares (fun t => t = .idref ∨ t = .idrefs) → d.Declares fun t => t = .id

/-- No reference to a parameter entity, `%name;`, is in the text: a `%` is there only in a declaration, before a white
space. -/
def NoReferences (text : List Char) : Prop :=
  ∀ a c b, text = a ++ '%' :: c :: b → c = ' ' ∨ c = '\n' ∨ c = '\t' ∨ c = '\r'

/-- No element is, through the content models, within itself: each one can be given a height. -/
def Acyclic (es : List Element) : Prop :=
  ∃ height : List Char → Nat, ∀ p ∈ es, ∀ c ∈ es, p.Mentions c.name → height c.name < height p.name

end Axl.Dtd
