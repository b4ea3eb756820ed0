/-
What it means for a document to conform to a DTD, in terms of its nodes, their names, children, character data and
attributes.
-/
import Verif.Model.Dtd
import Verif.Spec.DtdContent
import Verif.Spec.AttrApi

namespace Axl.Dtd

mutual
/-- All the nodes of a tree. -/
def nodes : Node → List Node
  | .mk name attrs items => .mk name attrs items :: nodesOf items
def nodesOf : Items → List Node
  | .nil => []
  | .node n next => nodes n ++ nodesOf next
  | .leaf _ next => nodesOf next
end

/-- The node has the attribute with the value. -/
def HasAttr (n : Node) (name value : List Char) : Prop := n.attrs.getValue name = some (some value)

/-- The children of a node are those that its declaration allows.  A declaration that ends in #PCDATA, which XML
does not allow and the library calls mixed, is not restricted; nothing is allowed by one without its last ")". -/
def Element.Allows (e : Element) (n : Node) : Prop :=
  match e.type with
  | .empty => Items.kids n.items = [] ∧ n.items.isEmpty = true
  | .pcdata _ => Items.kids n.items = []
  | .children l => l.Lang ((Items.kids n.items).map Node.name)
  | .any => True
  | .mixed _ => True
  | .unclosed _ => False

/-- The attributes of a node are those that its declarations allow: each one is declared, its first declaration
counts, and an enumerated one has one of the values; the required ones are there, and the fixed ones with their
value. -/
structure AttList.Allows (al : AttList) (n : Node) : Prop where
  declared : ∀ name v, HasAttr n name v → ∃ decl, al.decls.find? (fun x => x.name == name) = some decl ∧
    ∀ vs, decl.type = .enum vs → v ∈ vs
  required : ∀ decl ∈ al.decls, decl.defaults = .required → ∃ v, HasAttr n decl.name v
  fixed    : ∀ decl ∈ al.decls, decl.defaults = .fixed → ∃ v, decl.value = some v ∧ HasAttr n decl.name v

/-- The value of the ID attribute of a node is `v`. -/
def Identifies (d : Dtd) (n : Node) (v : List Char) : Prop :=
  ∃ al decl, d.attr n.name = some al ∧ al.decls.find? (fun x => decide (x.type = .id)) = some decl ∧ HasAttr n decl.name v

/-- An IDREF attribute of a node has the value `v`. -/
def Refers (d : Dtd) (n : Node) (v : List Char) : Prop :=
  ∃ al decl, d.attr n.name = some al ∧ decl ∈ al.decls ∧ decl.type = .idref ∧ HasAttr n decl.name v

/-- The attribute constraints of the DTD hold in the document. -/
structure AttributesHold (d : Dtd) (root : Node) : Prop where
  allowed  : ∀ n ∈ nodes root, ∀ al, d.attr n.name = some al → al.Allows n
  /-- no two nodes share an ID value: two places of the document where it appears are the same place -/
  unique   : ∀ (i j : Nat) (n m : Node) (v : List Char), (nodes root)[i]? = some n → (nodes root)[j]? = some m →
    Identifies d n v → Identifies d m v → i = j
  resolved : ∀ n ∈ nodes root, ∀ v, Refers d n v → ∃ m ∈ nodes root, Identifies d m v

/-- The document conforms to the DTD: every node is declared, its children are as declared, and the attribute
constraints hold. -/
structure Conforms (d : Dtd) (root : Node) : Prop where
  content    : ∀ n ∈ nodes root, ∃ e, d.element n.name = some e ∧ e.Allows n
  attributes : AttributesHold d root

/-- What the parser gives for every DTD it accepts: the element chosen as root is one of the declared ones, and
the marks say whether there are ID and IDREF declarations; there are references only if there are identifiers. -/
structure Dtd.Parsed (d : Dtd) : Prop where
  root   : (d.root = none ∧ d.elements = []) ∨ ∃ e, d.root = some e ∧ d.element e.name = some e
  ids    : ∀ al ∈ d.attributes, ∀ x ∈ al.decls, x.type = .id → d.haveId = true
  refs   : ∀ al ∈ d.attributes, ∀ x ∈ al.decls, x.type = .idref → d.haveIdRef = true
  marked : d.haveIdRef = true → d.haveId = true

/-- No element is declared ANY. -/
def Dtd.NoAny (d : Dtd) : Prop := ∀ e ∈ d.elements, e.type.isAny = false

/-- Every attribute of the document was set through the API, and the nodes that may have an ID have one. -/
structure Regular (d : Dtd) (root : Node) : Prop where
  made : ∀ n ∈ nodes root, n.attrs.Made
  ids  : ∀ n ∈ nodes root, ∀ al decl, d.attr n.name = some al →
    al.decls.find? (fun x => decide (x.type = .id)) = some decl → ∃ v, HasAttr n decl.name v

/-- Every content model of the DTD is in the class. -/
def Dtd.Models (d : Dtd) (P : Content → Prop) : Prop := ∀ e ∈ d.elements, ∀ l, e.type = .children l → P l

end Axl.Dtd
