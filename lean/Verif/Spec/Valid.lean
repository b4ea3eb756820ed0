/-
What XML 1.0 asks of a document so that it is valid for a DTD, said of the texts of both: no tree and no DTD of the
library is in it.  A document is its text cut in its parts (Spec/Source.lean), and so is a DTD (Spec/DtdSource.lean).
-/
import Verif.Spec.Source
import Verif.Spec.DtdSource

namespace Axl.Spec.Valid
open Spec.Source Spec.Xml
open Dtd.Source (Subset Model Cp Cps)
open Dtd (AttDecl Content)

/-! ### The parts of a document -/

def name : Element → List Char
  | .empty n _ _ => n
  | .pair n _ _ _ _ => n

def attrs : Element → List Attribute
  | .empty _ as _ => as
  | .pair _ as _ _ _ => as

/-- What is between the two tags of an element. -/
def content : Element → Parts
  | .empty _ _ _ => .nil
  | .pair _ _ _ c _ => c

mutual
/-- All the elements, in the order in which they begin. -/
def all : Element → List Element
  | .empty n as g => [.empty n as g]
  | .pair n as g c ge => .pair n as g c ge :: allOf c
def allOf : Parts → List Element
  | .nil => []
  | .text _ next => allOf next
  | .comment _ next => allOf next
  | .pi _ _ next => allOf next
  | .cdata _ next => allOf next
  | .element e next => all e ++ allOf next
end

/-- The elements at the first level of a content. -/
def elements : Parts → List Element
  | .nil => []
  | .text _ next => elements next
  | .comment _ next => elements next
  | .pi _ _ next => elements next
  | .cdata _ next => elements next
  | .element e next => e :: elements next

def children (e : Element) : List Element := elements (content e)

/-- There is a text that is not only white spaces, or a section, at the first level. -/
def saysText : Parts → Prop
  | .nil => False
  | .text t next => ¬ Blank t ∨ saysText next
  | .comment _ next => saysText next
  | .pi _ _ next => saysText next
  | .cdata _ _ => True
  | .element _ next => saysText next

def HasText (e : Element) : Prop := saysText (content e)

/-- The element is written with this attribute. -/
def Has (e : Element) (n v : List Char) : Prop := ∃ a ∈ attrs e, a.name = n ∧ a.value = v

/-! ### The parts of a DTD -/

/-- The names of a list of names. -/
def names : Cps → List (List Char)
  | .last (.name _ n _ _) => [n]
  | .last _ => []
  | .more (.name _ n _ _) next => n :: names next
  | .more _ next => names next

/-- The element is declared with this content. -/
def Declares (x : Subset) (n : List Char) (m : Model) : Prop :=
  ∃ before gap gapModel gapEnd, (before, Dtd.Source.Decl.element gap n gapModel m gapEnd) ∈ x.decls

/-- The sequences of names of `(a, b)` or `(a | b)`, as written. -/
def Words (choice : Bool) (items : Cps) (t : Dtd.Times) : Dtd.Word → Prop :=
  Content.Lang ⟨if choice then .choice else .seq, t, items.parts⟩

/-! ### What axl_dtd_validate checks -/

/-- The children of an element are as its declaration says; an element that is to be empty has no text. -/
def Allowed (m : Model) (e : Element) : Prop :=
  match m with
  | .empty => children e = [] ∧ ¬ HasText e
  | .any => True
  | .text _ _ _ => children e = []
  | .mixed _ _ ns => ∀ k ∈ children e, name k ∈ names ns
  | .children choice items t => Words choice items t ((children e).map name)

/-- The attributes of an element are declared, with one of the values if they are enumerated; those required and those fixed
are there, the second ones with their value. -/
structure AllowedAttrs (ds : List AttDecl) (e : Element) : Prop where
  declared : ∀ n v, Has e n v → ∃ d ∈ ds, d.name = n ∧ ∀ vs, d.type = .enum vs → v ∈ vs
  required : ∀ d ∈ ds, d.defaults = .required → ∃ v, Has e d.name v
  fixed    : ∀ d ∈ ds, d.defaults = .fixed → ∃ v, d.value = some v ∧ Has e d.name v

/-- The element is identified by the value. -/
def Identifier (x : Subset) (e : Element) (v : List Char) : Prop := ∃ d ∈ x.attributes (name e), d.type = .id ∧ Has e d.name v

/-- The element refers to what the value identifies. -/
def Reference (x : Subset) (e : Element) (v : List Char) : Prop := ∃ d ∈ x.attributes (name e), d.type = .idref ∧ Has e d.name v

/-- What axl_dtd_validate checks: every element is declared and its children are as declared; the attributes are as declared, if there
is any declaration for the element; no two elements have the same identifier, and each reference has its identifier. -/
structure Checked (x : Subset) (e : Element) : Prop where
  content  : ∀ k ∈ all e, ∃ m, Declares x (name k) m ∧ Allowed m k
  attrs    : ∀ k ∈ all e, x.attributes (name k) ≠ [] → AllowedAttrs (x.attributes (name k)) k
  unique   : ∀ (i j : Nat) (k l : Element) (v : List Char), (all e)[i]? = some k → (all e)[j]? = some l →
    Identifier x k v → Identifier x l v → i = j
  resolved : ∀ k ∈ all e, ∀ v, Reference x k v → ∃ l ∈ all e, Identifier x l v

/-! ### What XML asks -/

/-- As `Allowed`; an element that is to be empty has nothing between its tags, and one that has elements has no text. -/
def AllowedXml (m : Model) (e : Element) : Prop :=
  match m with
  | .empty => content e = .nil
  | .any => True
  | .text _ _ _ => children e = []
  | .mixed _ _ ns => ∀ k ∈ children e, name k ∈ names ns
  | .children choice items t => Words choice items t ((children e).map name) ∧ ¬ HasText e

/-- As `AllowedAttrs`; a fixed attribute that is there has its value. -/
structure AllowedAttrsXml (ds : List AttDecl) (e : Element) : Prop where
  declared : ∀ n v, Has e n v → ∃ d ∈ ds, d.name = n ∧ ∀ vs, d.type = .enum vs → v ∈ vs
  required : ∀ d ∈ ds, d.defaults = .required → ∃ v, Has e d.name v
  fixed    : ∀ d ∈ ds, d.defaults = .fixed → ∀ v, Has e d.name v → d.value = some v

/-- One of the words of a value. -/
def WordOf (v w : List Char) : Prop :=
  ∃ a b, w = a ++ v ++ b ∧ v ≠ [] ∧ (∀ c ∈ v, ¬ White c) ∧ (∀ c, a.getLast? = some c → White c) ∧ (∀ c, b.head? = some c → White c)

/-- As `Reference`, with the attributes that have several references. -/
def ReferenceXml (x : Subset) (e : Element) (v : List Char) : Prop :=
  Reference x e v ∨ ∃ d ∈ x.attributes (name e), d.type = .idrefs ∧ ∃ w, Has e d.name w ∧ WordOf v w

/-- The validity constraints of XML on elements, attributes, identifiers and references, except those on the characters of the values of
attributes and those on entities and notations. -/
structure ValidXml (x : Subset) (e : Element) : Prop where
  content  : ∀ k ∈ all e, ∃ m, Declares x (name k) m ∧ AllowedXml m k
  attrs    : ∀ k ∈ all e, AllowedAttrsXml (x.attributes (name k)) k
  unique   : ∀ (i j : Nat) (k l : Element) (v : List Char), (all e)[i]? = some k → (all e)[j]? = some l →
    Identifier x k v → Identifier x l v → i = j
  resolved : ∀ k ∈ all e, ∀ v, ReferenceXml x k v → ∃ l ∈ all e, Identifier x l v

/-- The attributes that the DTD fixes are written in the document. -/
def FixedWritten (x : Subset) (e : Element) : Prop :=
  ∀ k ∈ all e, ∀ d ∈ x.attributes (name k), d.defaults = .fixed → ∃ v, Has k d.name v

/-! ### The class of DTDs and documents -/

/-- The DTDs for which the answer is proved: no element is within itself and none is declared ANY, an attribute is declared once, and the
contents are those for which the matcher of the library is exact (Spec/DtdContent.lean). -/
structure Class (x : Subset) : Prop where
  valid  : x.Valid
  height : Dtd.Acyclic x.elements
  known  : ∀ n m, Declares x n m → m.Known
  noAny  : ∀ n, ¬ Declares x n .any
  once   : ∀ n, ((x.attributes n).map (·.name)).Nodup
  models : ∀ n m l, Declares x n m → m.stored = .children l → l.exact = true ∧ l.total false = true ∧ l.ends = true

/-- The documents: nothing asks to keep white spaces, the content of the root is one for which the matcher is exact at the root, and the
elements that may have an identifier have one. -/
structure ClassDoc (x : Subset) (e : Element) : Prop where
  valid : e.Valid
  plain : NoPreserve e
  root  : ∀ m l, Declares x (name e) m → m.stored = .children l → l.total true = true
  ids   : ∀ k ∈ all e, ∀ d ∈ x.attributes (name k), d.type = .id → ∃ v, Has k d.name v

end Axl.Spec.Valid
