/-
Model of the validation of a document against a DTD (src/axl_dtd.c): attribute declarations, identifiers and
references, and the loop over the nodes of the document.

Simplifications: the lists of declarations are lists (C01, C03: `axl_list_lookup` gives the first element for which
the function answers true); the stack of nodes is the list of its elements, the top one first (C07); error messages
are not built; `minimum_match`, which is computed from the content model, is not a field.
-/
import Verif.Model.DtdMatch
import Verif.Model.Compare
import Verif.Model.Parse

namespace Axl.Dtd

/-- `AxlDtdAttributeType` (src/axl_decl.h:254-305) with the values of an enumeration; NOTATION_TYPE is never set. -/
inductive AttType where
  | cdata
  | id
  | idref
  | idrefs
  | entity
  | entities
  | nmtoken
  | nmtokens
  | enum (values : List (List Char))
deriving DecidableEq, Repr

/-- `AxlDtdAttributeDefaults` (src/axl_decl.h:310-326). -/
inductive Defaults where
  | required
  | implied
  | fixed
deriving DecidableEq, Repr

/-- `struct _axlDtdAttributeDecl` (src/axl_dtd.c:111-142). -/
structure AttDecl where
  name     : List Char
  type     : AttType
  defaults : Defaults
  value    : Option (List Char)
deriving DecidableEq, Repr

/-- `struct _axlDtdAttribute` (src/axl_dtd.c:144-159). -/
structure AttList where
  name  : List Char
  decls : List AttDecl
deriving DecidableEq, Repr

/-- `AxlDtdElementType` (src/axl_decl.h:393-430) with the content model, NULL for ANY and EMPTY.  `unclosed` is
`ELEMENT_TYPE_CHILDREN` with a list that the parser accepted without its last ")", which has the repetition
`DTD_TIMES_UNKNOWN`; where it does not matter (`mixed` and `pcdata`) that repetition is `one`. -/
inductive ElementType where
  | any
  | empty
  | mixed (l : Content)
  | pcdata (l : Content)
  | children (l : Content)
  | unclosed (l : Content)

/-- `struct _axlDtdElement` (src/axl_dtd.c:85-109). -/
structure Element where
  name : List Char
  type : ElementType

/-- `axlDtdEntityType` (src/axl_decl.h): GENERAL_ENTITY or PARAMETER_ENTITY. -/
inductive EntityType where
  | general
  | parameter
deriving DecidableEq, Repr

/-- `struct _axlDtdEntity` (src/axl_dtd.c:180-202); `data` is never set. -/
structure Entity where
  name    : List Char
  type    : EntityType
  content : Option (List Char)
deriving DecidableEq, Repr

/-- `struct _axlDtd` (src/axl_dtd.c:204-240). -/
structure Dtd where
  elements   : List Element
  attributes : List AttList
  root       : Option Element
  haveId     : Bool
  haveIdRef  : Bool
  entities   : List Entity

/-- `axl_dtd_get_element` (src/axl_dtd.c:3544-3552), `__find_dtd_element` (src/axl_dtd.c:3518-3529). -/
def Dtd.element (d : Dtd) (name : List Char) : Option Element := d.elements.find? fun e => e.name == name

/-- `axl_dtd_get_attr` (src/axl_dtd.c:3587-3595), `__find_dtd_attr` (src/axl_dtd.c:3558-3569). -/
def Dtd.attr (d : Dtd) (name : List Char) : Option AttList := d.attributes.find? fun a => a.name == name

/-- The child nodes in the order of the links (src/axl_node.c:3792-3862, src/axl_dtd.c:345-361). -/
def Items.kids : Items → List Node
  | .nil => []
  | .node n next => n :: kids next
  | .leaf _ next => kids next

/-- `__axl_dtd_attr_validate_foreach` (src/axl_dtd.c:2756-2803): true stops the walk, and then an error was
reported. -/
def attrWrong (al : AttList) (key value : List Char) : Bool :=
  match al.decls.find? fun x => x.name == key with
  | none => true
  | some decl =>
    match decl.type with
    | .enum values => !values.any fun s => s == value
    | _ => false

/-- `__axl_dtd_attr_validate_required` (src/axl_dtd.c:2805-2823): true if the declaration is not met. -/
def declMissing (a : Attrs) (decl : AttDecl) : Option Bool :=
  match decl.defaults with
  | .required => (a.hasAttribute decl.name).map (!·)
  | .fixed =>
    match decl.value with
    | none => some true
    | some v => (a.hasAttributeValue decl.name v).map (!·)
  | .implied => some false

/-- `axl_list_lookup (attribute->list, __axl_dtd_attr_validate_required, node)` (src/axl_dtd.c:2867): is there a
declaration that is not met? -/
def anyMissing (a : Attrs) : List AttDecl → Option Bool
  | [] => some false
  | x :: xs =>
    match declMissing a x with
    | none => none
    | some true => some true
    | some false => anyMissing a xs

/-- The table `id_validation` (src/axl_dtd.c:3071): the keys are attribute values, NULL for a missing attribute. -/
abbrev Ids := AxlHash (Option (List Char)) (Option (List Char)) Unit

/-- `axl_hash_new (axl_hash_string, axl_hash_equal_string)` (src/axl_dtd.c:3071). -/
def newIds : Ids := AxlHash.new hashString hashEqualString

/-- The identifiers found and the references to check. -/
structure IdState where
  ids  : Option Ids
  refs : Option (List (List Char))

/-- The check of the ID attribute (src/axl_dtd.c:2881-2908). -/
def checkId (d : Dtd) (al : AttList) (a : Attrs) (st : IdState) : Option (Bool × IdState) :=
  if d.haveId then
    match al.decls.find? fun x => decide (x.type = .id) with
    | none => some (true, st)
    | some decl =>
      match a.getValue decl.name, st.ids with
      | none, _ => none
      | some _, none => some (true, st)
      | some v, some h =>
        match h.exists v with
        | none => none
        | some true => some (false, st)
        | some false =>
          match h.insert v (some v) with
          | none => none
          | some h => some (true, { st with ids := some h })
  else some (true, st)

/-- The loop that stores the references of a node (src/axl_dtd.c:2913-2936). -/
def collectRefs (a : Attrs) : List AttDecl → List (List Char) → Option (List (List Char))
  | [], refs => some refs
  | x :: xs, refs =>
    if x.type = .idref then
      match a.getValue x.name with
      | none => none
      | some none => collectRefs a xs refs
      | some (some v) => collectRefs a xs (refs ++ [v])
    else collectRefs a xs refs

/-- `axl_dtd_attr_validate` (src/axl_dtd.c:2838-2943). -/
def attrValidate (d : Dtd) (n : Node) (st : IdState) : Option (Bool × IdState) :=
  match d.attr n.name with
  | none => some (true, st)
  | some al =>
    match n.attrs.foreach (attrWrong al) with
    | none => none
    | some seen =>
      if seen.any fun p => attrWrong al p.1 (p.2.getD []) then some (false, st)
      else
        match anyMissing n.attrs al.decls with
        | none => none
        | some true => some (false, st)
        | some false =>
          match checkId d al n.attrs st with
          | none => none
          | some (false, st) => some (false, st)
          | some (true, st) =>
            match d.haveIdRef, st.refs with
            | true, some refs =>
              match collectRefs n.attrs al.decls refs with
              | none => none
              | some refs => some (true, { st with refs := some refs })
            | _, _ => some (true, st)

/-- The search of `axl_dtd_validate_references` (src/axl_dtd.c:2949-2958, 2978): a reference without ID; without a
table `axl_hash_exists` answers false. -/
def danglingRef (ids : Option Ids) : List (List Char) → Option Bool
  | [] => some false
  | r :: refs =>
    match ids with
    | none => some true
    | some h =>
      match h.exists (some r) with
      | none => none
      | some true => danglingRef ids refs
      | some false => some true

/-- `axl_dtd_validate_references` (src/axl_dtd.c:2965-2993). -/
def validateRefs (st : IdState) : Option Bool :=
  match st.refs with
  | none => some true
  | some refs => (danglingRef st.ids refs).map (!·)

/-- The switch of `axl_dtd_validate` (src/axl_dtd.c:3129-3200); `none` for a matcher that does not end.  For
`unclosed` the least number of children is 0 (src/axl_dtd.c:1105) and `__axl_dtd_validate_item_list` ends in its default
case (src/axl_dtd.c:2613-2618). -/
def contentValidate (fuel : Nat) (e : Element) (n : Node) (top : Bool) : Option Bool :=
  match e.type with
  | .pcdata _ => some (!n.items.haveChilds)
  | .children l => children fuel l top ((Items.kids n.items).map Node.name)
  | .unclosed _ => some false
  | .empty => some (n.items.isEmpty && !n.items.haveChilds)
  | .any => some true
  | .mixed _ => some true

/-- `ELEMENT_TYPE_ANY`? -/
def ElementType.isAny : ElementType → Bool
  | .any => true
  | _ => false

/-- The result of the last check (src/axl_dtd.c:3260-3275). -/
def finish (st : IdState) : Res Bool :=
  match validateRefs st with
  | none => .ub
  | some b => .ok b

/-- The loop of `axl_dtd_validate` (src/axl_dtd.c:3104-3275): `parent`, `element`, `top_level` and the stack; `.loop`
when it has not ended after the rounds given, or the matcher has not ended.  For ELEMENT ANY the children are not
queued and `parent` is not set to NULL, so with an empty stack the same node is taken again. -/
def validateLoop (d : Dtd) (fuel : Nat) : Nat → Node → Element → Bool → List Node → IdState → Res Bool
  | 0, _, _, _, _, _ => .loop
  | k + 1, n, e, top, stack, st =>
    match attrValidate d n st with
    | none => .ub
    | some (false, _) => .ok false
    | some (true, st) =>
      match contentValidate fuel e n top with
      | none => .loop
      | some false => .ok false
      | some true =>
        match if e.type.isAny then stack else (Items.kids n.items).reverse ++ stack with
        | [] => if e.type.isAny then validateLoop d fuel k n e false [] st else finish st
        | m :: rest =>
          match d.element m.name with
          | none => .ok false
          | some e => validateLoop d fuel k m e false rest st

/-- The element declaration for the root of the document (src/axl_dtd.c:3040-3066). -/
def Dtd.rootElement (d : Dtd) (n : Node) : Option Element :=
  match d.root with
  | none => none
  | some e => if n.name = e.name then some e else d.element n.name

/-- `ELEMENT_TYPE_EMPTY`? -/
def ElementType.isEmpty : ElementType → Bool
  | .empty => true
  | _ => false

/-- `axl_dtd_validate` (src/axl_dtd.c:3020-3276) for a document with the root `n`. -/
def validate (fuel : Nat) (d : Dtd) (n : Node) : Res Bool :=
  match d.rootElement n with
  | none => .ok false
  | some e =>
    let st : IdState := ⟨if d.haveId then some newIds else none, if d.haveIdRef then some [] else none⟩
    if e.type.isEmpty then
      if n.items.isEmpty && !n.items.haveChilds then
        match attrValidate d n st with
        | none => .ub
        | some (false, _) => .ok false
        | some (true, st) => finish st
      else .ok false
    else validateLoop d fuel fuel n e true [] st

end Axl.Dtd
