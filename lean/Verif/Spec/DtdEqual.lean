/-
What a comparison of two DTDs takes into account.
-/
import Verif.Model.DtdEqual

namespace Axl.Dtd

/-- The number of items at the top of the content model of an element. -/
def Element.width (e : Element) : Nat :=
  match e.list with
  | none => 0
  | some l => l.items.length

/-- A list of attributes without its default values. -/
def AttList.noValues (a : AttList) : AttList := { a with decls := a.decls.map fun x => { x with value := none } }

/-- The same sort of content was declared: `EMPTY`, `ANY`, text and elements, text alone, or elements, with or without
the last parenthesis. -/
inductive SameSort : ElementType → ElementType → Prop
  | empty : SameSort .empty .empty
  | any : SameSort .any .any
  | mixed (l l' : Content) : SameSort (.mixed l) (.mixed l')
  | pcdata (l l' : Content) : SameSort (.pcdata l) (.pcdata l')
  | children (l l' : Content) : SameSort (.children l) (.children l')
  | unclosed (l l' : Content) : SameSort (.unclosed l) (.unclosed l')
  | left (l l' : Content) : SameSort (.unclosed l) (.children l')
  | right (l l' : Content) : SameSort (.children l) (.unclosed l')

/-- A name that must be present: alone or with `+`. -/
def Part.required : Part → Bool
  | .node .one _ => true
  | .node .some1 _ => true
  | _ => false

/-- The names that a list requires: of a list that may be absent none, of a choice one at most, of a sequence all. -/
def Content.required (l : Content) : Nat :=
  match l.times, l.kind with
  | .opt, _ => 0
  | .many, _ => 0
  | _, .choice => if l.items.any Part.required then 1 else 0
  | _, _ => (l.items.filter Part.required).length

/-- The names that the content of an element requires. -/
def ElementType.required : ElementType → Nat
  | .mixed l | .pcdata l | .children l => l.required
  | .any | .empty | .unclosed _ => 0

/-- The repetition written after the last parenthesis. -/
def ElementType.repetition : ElementType → Option Times
  | .mixed l | .pcdata l | .children l => some l.times
  | .any | .empty | .unclosed _ => none

/-- Two items that are both lists, or both names with the same repetition. -/
inductive Item : Part → Part → Prop
  | node (t : Times) (n n' : List Char) : Item (.node t n) (.node t n')
  | list (k k' : Kind) (t t' : Times) (items items' : List Part) : Item (.list k t items) (.list k' t' items')

/-- What is compared of two elements: the names, the sort of content, the number of names required, and of the content
model, the kind and the repetition of the outermost list and, up to the end of the first list, its items. -/
structure ElementsMatch (e e' : Element) : Prop where
  name  : e.name = e'.name
  tag   : SameSort e.type e'.type
  least : e.type.required = e'.type.required
  times : e.type.repetition = e'.type.repetition
  kind  : e.list.map (·.kind) = e'.list.map (·.kind)
  width : e.width ≤ e'.width
  items : ∀ l l', e.list = some l → e'.list = some l' → ∀ (i : Nat) p q, l.items[i]? = some p → l'.items[i]? = some q → Item p q

/-- What is compared of two DTDs. -/
structure DtdsMatch (d d' : Dtd) : Prop where
  entities   : d.entities = d'.entities
  content    : ∀ e ∈ d.entities, e.content ≠ none
  elements   : d.elements.length = d'.elements.length
  each       : ∀ (i : Nat) e e', d.elements[i]? = some e → d'.elements[i]? = some e' → ElementsMatch e e'
  attributes : d.attributes.map (·.noValues) = d'.attributes.map (·.noValues)
  ids        : d.haveId = d'.haveId
  refs       : d.haveIdRef = d'.haveIdRef

end Axl.Dtd
