/-
DTDs as they are written: the declarations that a parse has to accept, and what each one stands for.

As in Spec/Source.lean, a declaration is its text cut in its parts, white spaces included; `chars` puts the parts
together.
-/
import Verif.Spec.DtdText
import Verif.Spec.DtdContent
import Verif.Spec.RoundTrip

namespace Axl.Dtd.Source
open Spec.Xml Spec.RoundTrip

/-- White space that cannot be left out. -/
def Gap (t : List Char) : Prop := Blank t ∧ t ≠ []

/-- A name in a DTD. -/
def DtdName (n : List Char) : Prop := IsName n ∧ ∀ c ∈ n, c ∉ [',', '|', '(', ')', '+', '*', '%', '#', ';']

/-! ### Content models -/

mutual
/-- A content particle and the white spaces around it. -/
inductive Cp where
  | name (gap n : List Char) (t : Times) (gapEnd : List Char)
  /-- `(a, b)`, or `(a | b)` if `choice` -/
  | group (gap : List Char) (choice : Bool) (items : Cps) (t : Times) (gapEnd : List Char)
/-- One or more content particles. -/
inductive Cps where
  | last (p : Cp)
  | more (p : Cp) (next : Cps)
end

/-- How a repetition is written. -/
def sign : Times → List Char
  | .one => []
  | .opt => c!"?"
  | .many => c!"*"
  | .some1 => c!"+"

/-- What is between two particles. -/
def between (choice : Bool) : Char := if choice then '|' else ','

mutual
def Cp.chars : Cp → List Char
  | .name gap n t gapEnd => gap ++ n ++ sign t ++ gapEnd
  | .group gap choice items t gapEnd => gap ++ '(' :: items.chars choice ++ ')' :: sign t ++ gapEnd
def Cps.chars (choice : Bool) : Cps → List Char
  | .last p => p.chars
  | .more p next => p.chars ++ between choice :: next.chars choice
end

mutual
def Cp.Valid : Cp → Prop
  | .name gap n _ gapEnd => Blank gap ∧ DtdName n ∧ Blank gapEnd
  | .group gap _ items _ gapEnd => Blank gap ∧ items.Valid ∧ Blank gapEnd
def Cps.Valid : Cps → Prop
  | .last p => p.Valid
  | .more p next => p.Valid ∧ next.Valid
end

mutual
/-- What a particle stands for in XML. -/
def Cp.part : Cp → Part
  | .name _ n t _ => .node t n
  | .group _ choice items t _ => .list (if choice then .choice else .seq) t items.parts
def Cps.parts : Cps → List Part
  | .last p => [p.part]
  | .more p next => p.part :: next.parts
end

def Cp.isName : Cp → Bool
  | .name _ _ _ _ => true
  | .group _ _ _ _ _ => false

/-- The kind that a list gets when it is read: only a separator that follows a name decides it. -/
def Cps.kind (choice : Bool) : Cps → Kind
  | .last _ => .undef
  | .more p next => if p.isName then (if choice then .choice else .seq) else next.kind choice

mutual
/-- What is stored for a particle: as it was written, but for the kind of the lists. -/
def Cp.stored : Cp → Part
  | .name _ n t _ => .node t n
  | .group _ choice items t _ => .list (items.kind choice) t items.stored
def Cps.stored : Cps → List Part
  | .last p => [p.stored]
  | .more p next => p.stored :: next.stored
end

mutual
/-- Every list with several particles has a name before the last one, so its kind is known. -/
def Cp.known : Cp → Prop
  | .name _ _ _ _ => True
  | .group _ choice items _ _ => items.allKnown ∧ ((∃ p, items = .last p) ∨ items.kind choice ≠ .undef)
def Cps.allKnown : Cps → Prop
  | .last p => p.known
  | .more p next => p.known ∧ next.allKnown
end

/-- The content of an element. -/
inductive Model where
  | empty
  | any
  /-- `(#PCDATA)`, or `(#PCDATA)*` if `many` -/
  | text (gap gapEnd : List Char) (many : Bool)
  /-- `(#PCDATA | a | b)*` -/
  | mixed (gap gapEnd : List Char) (names : Cps)
  /-- `(a, b)`, or `(a | b)` if `choice` -/
  | children (choice : Bool) (items : Cps) (t : Times)

def Model.chars : Model → List Char
  | .empty => c!"EMPTY"
  | .any => c!"ANY"
  | .text gap gapEnd many => '(' :: gap ++ c!"#PCDATA" ++ gapEnd ++ ')' :: (if many then c!"*" else [])
  | .mixed gap gapEnd names => '(' :: gap ++ c!"#PCDATA" ++ gapEnd ++ '|' :: names.chars true ++ c!")*"
  | .children choice items t => '(' :: items.chars choice ++ ')' :: sign t

/-- Names alone, as mixed content asks. -/
def Cps.names : Cps → Prop
  | .last p => ∃ gap n gapEnd, p = .name gap n .one gapEnd
  | .more p next => (∃ gap n gapEnd, p = .name gap n .one gapEnd) ∧ next.names

def Model.Valid : Model → Prop
  | .empty => True
  | .any => True
  | .text gap gapEnd _ => Blank gap ∧ Blank gapEnd
  | .mixed gap gapEnd names => Blank gap ∧ Blank gapEnd ∧ names.Valid ∧ names.names
  | .children _ items _ => items.Valid

/-- What the content of an element stands for in XML: in mixed content, any of the names any number of times. -/
def Model.says : Model → ElementType
  | .empty => .empty
  | .any => .any
  | .text _ _ many => .pcdata ⟨.seq, if many then .many else .one, [.node .one c!"#PCDATA"]⟩
  | .mixed _ _ names => .children ⟨.choice, .many, .node .one c!"#PCDATA" :: names.parts⟩
  | .children choice items t => .children ⟨if choice then .choice else .seq, t, items.parts⟩

/-- What is stored for it. -/
def Model.stored : Model → ElementType
  | .empty => .empty
  | .any => .any
  | .text _ _ many => .pcdata ⟨.seq, if many then .many else .one, [.node .one c!"#PCDATA"]⟩
  | .mixed _ _ names => .children ⟨.choice, .many, .node .one c!"#PCDATA" :: names.stored⟩
  | .children choice items t =>
    .children ⟨if items.kind choice = .undef then .seq else items.kind choice, t, items.stored⟩

/-- The kind of every list is known when it is read. -/
def Model.Known : Model → Prop
  | .children choice items _ => items.allKnown ∧ ((∃ p, items = .last p) ∨ items.kind choice ≠ .undef)
  | _ => True

/-- The same content: the same sequences of names, if it is made of elements. -/
def SameContent : ElementType → ElementType → Prop
  | .children l, .children l' => ∀ w, l.Lang w ↔ l'.Lang w
  | a, b => a = b

/-! ### Attributes -/

/-- A value of an enumeration and the white spaces around it. -/
structure Token where
  gap    : List Char
  value  : List Char
  gapEnd : List Char

def Token.chars (t : Token) : List Char := t.gap ++ t.value ++ t.gapEnd

def Token.Valid (t : Token) : Prop := Blank t.gap ∧ DtdName t.value ∧ Blank t.gapEnd

/-- The type of an attribute.  NOTATION is not one of them: the library does not read the list that follows it. -/
inductive Typ where
  | cdata
  | id
  | idref
  | idrefs
  | entity
  | entities
  | nmtoken
  | nmtokens
  | enum (first : Token) (others : List Token)

def Typ.chars : Typ → List Char
  | .cdata => c!"CDATA"
  | .id => c!"ID"
  | .idref => c!"IDREF"
  | .idrefs => c!"IDREFS"
  | .entity => c!"ENTITY"
  | .entities => c!"ENTITIES"
  | .nmtoken => c!"NMTOKEN"
  | .nmtokens => c!"NMTOKENS"
  | .enum first others => '(' :: first.chars ++ others.flatMap (fun t => '|' :: t.chars) ++ c!")"

def Typ.Valid : Typ → Prop
  | .enum first others => first.Valid ∧ ∀ t ∈ others, t.Valid
  | _ => True

def Typ.type : Typ → AttType
  | .cdata => .cdata
  | .id => .id
  | .idref => .idref
  | .idrefs => .idrefs
  | .entity => .entity
  | .entities => .entities
  | .nmtoken => .nmtoken
  | .nmtokens => .nmtokens
  | .enum first others => .enum (first.value :: others.map (·.value))

/-- What is said of an attribute that is not there. -/
inductive Default where
  | required
  | implied
  /-- a value, after `#FIXED` and white spaces if there is a `gap` -/
  | value (gap : Option (List Char)) (quote : Char) (v : List Char)

def Default.chars : Default → List Char
  | .required => c!"#REQUIRED"
  | .implied => c!"#IMPLIED"
  | .value none q v => q :: v ++ [q]
  | .value (some gap) q v => c!"#FIXED" ++ gap ++ q :: v ++ [q]

/-- A value between quotes. -/
def Quoted (q : Char) (v : List Char) : Prop := (q = '"' ∨ q = '\'') ∧ q ∉ v ∧ Char.ofNat 0 ∉ v

def Default.Valid : Default → Prop
  | .value gap q v => (∀ g, gap = some g → Blank g) ∧ Quoted q v
  | _ => True

def Default.defaults : Default → Defaults
  | .required => .required
  | .value (some _) _ _ => .fixed
  | _ => .implied

def Default.content : Default → Option (List Char)
  | .value _ _ v => some v
  | _ => none

/-- The definition of an attribute: `name type default` and the white spaces before each one. -/
structure AttDef where
  gap        : List Char
  name       : List Char
  gapType    : List Char
  type       : Typ
  gapDefault : List Char
  default    : Default

def AttDef.chars (a : AttDef) : List Char :=
  a.gap ++ a.name ++ a.gapType ++ a.type.chars ++ a.gapDefault ++ a.default.chars

structure AttDef.Valid (a : AttDef) : Prop where
  gap        : Gap a.gap
  name       : DtdName a.name
  gapType    : Gap a.gapType
  type       : a.type.Valid
  gapDefault : Gap a.gapDefault
  default    : a.default.Valid

def AttDef.decl (a : AttDef) : AttDecl := ⟨a.name, a.type.type, a.default.defaults, a.default.content⟩

/-! ### Declarations -/

inductive Decl where
  /-- `<!ELEMENT name content>` -/
  | element (gap name gapModel : List Char) (model : Model) (gapEnd : List Char)
  /-- `<!ATTLIST name definitions>` -/
  | attlist (gap name : List Char) (defs : List AttDef) (gapEnd : List Char)
  /-- `<!ENTITY name "value">`, or `<!ENTITY % name "value">` if there is a `percent`, the white spaces after it -/
  | entity (gap : List Char) (percent : Option (List Char)) (name gapValue : List Char) (quote : Char) (v gapEnd : List Char)

def Decl.chars : Decl → List Char
  | .element gap name gapModel model gapEnd => c!"<!ELEMENT" ++ gap ++ name ++ gapModel ++ model.chars ++ gapEnd ++ c!">"
  | .attlist gap name defs gapEnd => c!"<!ATTLIST" ++ gap ++ name ++ defs.flatMap AttDef.chars ++ gapEnd ++ c!">"
  | .entity gap none name gapValue q v gapEnd => c!"<!ENTITY" ++ gap ++ name ++ gapValue ++ q :: v ++ q :: gapEnd ++ c!">"
  | .entity gap (some g) name gapValue q v gapEnd =>
    c!"<!ENTITY" ++ gap ++ '%' :: g ++ name ++ gapValue ++ q :: v ++ q :: gapEnd ++ c!">"

/-- A declaration as XML asks.  Restrictions of this library: a list of attributes that is not empty, and no external
entities. -/
def Decl.Valid : Decl → Prop
  | .element gap name gapModel model gapEnd => Gap gap ∧ DtdName name ∧ Gap gapModel ∧ model.Valid ∧ Blank gapEnd
  | .attlist gap name defs gapEnd => Gap gap ∧ DtdName name ∧ defs ≠ [] ∧ (∀ a ∈ defs, a.Valid) ∧ Blank gapEnd
  | .entity gap percent name gapValue q v gapEnd =>
    Gap gap ∧ (∀ g, percent = some g → Gap g) ∧ DtdName name ∧ Gap gapValue ∧ Quoted q v ∧ Blank gapEnd

/-- White spaces and comments. -/
def Remarks (t : List Char) : Prop := ∃ ls, Misc t ls ∧ ∀ l ∈ ls, ∃ c, l = .comment c

/-- A DTD: declarations, each one with what is before it, and what is after the last one. -/
structure Subset where
  decls : List (List Char × Decl)
  tail  : List Char

def Subset.chars (x : Subset) : List Char := x.decls.flatMap (fun p => p.1 ++ p.2.chars) ++ x.tail

/-- The elements declared, as they are stored. -/
def Subset.elements (x : Subset) : List Element :=
  x.decls.filterMap fun p => match p.2 with
    | .element _ name _ model _ => some ⟨name, model.stored⟩
    | _ => none

/-- The entities declared. -/
def Subset.entities (x : Subset) : List Entity :=
  x.decls.filterMap fun p => match p.2 with
    | .entity _ percent name _ _ v _ => some ⟨name, if percent.isSome then .parameter else .general, some v⟩
    | _ => none

/-- The attributes declared for an element, in all the lists for it. -/
def Subset.attributes (x : Subset) (name : List Char) : List AttDecl :=
  x.decls.flatMap fun p => match p.2 with
    | .attlist _ n defs _ => if n = name then defs.map AttDef.decl else []
    | _ => []

/-- Each declaration is written as XML asks. -/
structure Subset.Written (x : Subset) : Prop where
  remarks  : ∀ p ∈ x.decls, Remarks p.1
  decls    : ∀ p ∈ x.decls, p.2.Valid
  tail     : Remarks x.tail

/-- And they meet the validity constraints of XML on declarations. -/
structure Subset.Valid (x : Subset) : Prop extends x.Written where
  /-- an element is declared once -/
  names    : (x.elements.map (·.name)).Nodup
  /-- an element has one ID attribute, with no fixed value -/
  oneId    : ∀ n, ∀ a ∈ x.attributes n, ∀ b ∈ x.attributes n, a.type = .id → b.type = .id → a.name = b.name
  notFixed : ∀ n, ∀ a ∈ x.attributes n, a.type = .id → a.defaults ≠ .fixed
  /-- a default value is one of the values enumerated -/
  enums    : ∀ n, ∀ a ∈ x.attributes n, ∀ vs v, a.type = .enum vs → a.value = some v → v ∈ vs
  /-- there are identifiers if there are references to them -/
  resolved : (∃ n, ∃ a ∈ x.attributes n, a.type = .idref ∨ a.type = .idrefs) → ∃ n, ∃ a ∈ x.attributes n, a.type = .id

/-- The DTD has what was written and nothing else, in the same order; what is found for the name of an element are
the attributes of all its lists. -/
structure Subset.Means (x : Subset) (d : Dtd) : Prop where
  elements   : d.elements = x.elements
  entities   : d.entities = x.entities
  attributes : ∀ n, (d.attr n = none ∧ x.attributes n = []) ∨
    (∃ al, d.attr n = some al ∧ al.name = n ∧ al.decls = x.attributes n ∧ x.attributes n ≠ [])

/-! ### A list with both separators -/

/-- A list that is not finished: its particles, each with the separator after it. -/
structure Begun where
  choice : Bool
  items  : List Cp

def Begun.chars (x : Begun) : List Char := x.items.flatMap fun p => p.chars ++ [between x.choice]

/-- The beginning of a content up to the second kind of separator in a list: `outer` are the lists around it, each one
with the white spaces before the next, `inner` the list up to a name `name`, after which there is the other separator. -/
structure BothSeparators where
  outer  : List (Begun × List Char)
  inner  : Begun
  gap    : List Char
  name   : List Char
  times  : Times
  gapEnd : List Char

def BothSeparators.chars (x : BothSeparators) : List Char :=
  '(' :: x.outer.flatMap (fun o => o.1.chars ++ o.2 ++ c!"(") ++ x.inner.chars ++ (Cp.name x.gap x.name x.times x.gapEnd).chars ++
    [between !x.inner.choice]

structure BothSeparators.Valid (x : BothSeparators) : Prop where
  outer : ∀ o ∈ x.outer, (∀ p ∈ o.1.items, p.Valid) ∧ Blank o.2
  inner : ∀ p ∈ x.inner.items, p.Valid
  last  : (Cp.name x.gap x.name x.times x.gapEnd).Valid
  /-- one of the separators before follows a name -/
  named : ∃ p ∈ x.inner.items, p.isName = true

end Axl.Dtd.Source
