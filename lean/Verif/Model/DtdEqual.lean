/-
Model of what is asked of a DTD once it was parsed (src/axl_dtd.c): comparison of two of them, elements at the top,
attributes declared, entities.

Simplification: an element with text in its content that was accepted without its last ")" is taken as if it had it
(see `ElementType`).
-/
import Verif.Model.DtdParse

namespace Axl.Dtd
open Str

/-- `element->type` (src/axl_decl.h:393-430). -/
def ElementType.tag : ElementType → Nat
  | .empty => 1
  | .any => 2
  | .mixed _ => 3
  | .pcdata _ => 5
  | .children _ => 4
  | .unclosed _ => 4

/-- `element->minimum_match` (src/axl_dtd.c:1254). -/
def ElementType.least : ElementType → Nat
  | .empty => 0
  | .any => 0
  | .mixed l => compulsoryNum l
  | .pcdata l => compulsoryNum l
  | .children l => compulsoryNum l
  | .unclosed _ => 0

/-- `element->list->times`, none for `DTD_TIMES_UNKNOWN`. -/
def ElementType.times : ElementType → Option Times
  | .empty => none
  | .any => none
  | .mixed l => some l.times
  | .pcdata l => some l.times
  | .children l => some l.times
  | .unclosed _ => none

/-- Two items of a content model: what they are and how many times (src/axl_dtd.c:3399-3402).  The repetition of an
item that is a list is not set, so it is the same for all of them. -/
def itemAlike : Part → Part → Bool
  | .node t _, .node t' _ => t = t'
  | .list _ _ _, .list _ _ _ => true
  | _, _ => false

/-- The loop over the items of a content model (src/axl_dtd.c:3392-3407): past the last item of the second list NULL is
read. -/
def itemsAlike : List Part → List Part → Option Bool
  | [], _ => some true
  | _ :: _, [] => none
  | p :: ps, q :: qs => if itemAlike p q then itemsAlike ps qs else some false

/-- Two content models (src/axl_dtd.c:3380-3409). -/
def listAlike (e e' : Element) : Option Bool :=
  match e.list, e'.list with
  | none, none => some true
  | some l, some l' =>
    if l.kind ≠ l'.kind then some false
    else if e.type.times ≠ e'.type.times then some false
    else itemsAlike l.items l'.items
  | _, _ => some false

/-- Two elements (src/axl_dtd.c:3364-3409). -/
def elementAlike (e e' : Element) : Option Bool :=
  if e.type.tag ≠ e'.type.tag then some false
  else if e.type.least ≠ e'.type.least then some false
  else if !cmp (some e.name) (some e'.name) then some false
  else listAlike e e'

/-- Two entities (src/axl_dtd.c:3327-3354). -/
def entityAlike (e e' : Entity) : Bool := decide (e.type = e'.type) && cmp (some e.name) (some e'.name) && cmp e.content e'.content

/-- Loops over two lists with the same length in which nothing can go wrong (src/axl_dtd.c:3325-3358, 3417-3480,
3439-3474, 3460-3468). -/
def allAlike (f : α → α → Bool) : List α → List α → Bool
  | x :: xs, y :: ys => f x y && allAlike f xs ys
  | _, _ => true

/-- Two values of an enumeration (src/axl_dtd.c:3462-3464). -/
def valueAlike (v w : List Char) : Bool := cmp (some v) (some w)

/-- `type` and `enumvalues` of two attributes (src/axl_dtd.c:3445, 3452-3469). -/
def typeAlike : AttType → AttType → Bool
  | .enum vs, .enum ws => decide (vs.length = ws.length) && allAlike valueAlike vs ws
  | .enum _, _ => false
  | _, .enum _ => false
  | t, t' => t = t'

/-- Two declarations of attributes (src/axl_dtd.c:3442-3469). -/
def declAlike (a b : AttDecl) : Bool := typeAlike a.type b.type && decide (a.defaults = b.defaults) && cmp (some a.name) (some b.name)

/-- The attributes of two elements (src/axl_dtd.c:3419-3476). -/
def attListAlike (a b : AttList) : Bool :=
  cmp (some a.name) (some b.name) && decide (a.decls.length = b.decls.length) && allAlike declAlike a.decls b.decls

/-- The loop over the elements (src/axl_dtd.c:3361-3413). -/
def elementsAlike : List Element → List Element → Option Bool
  | e :: es, e' :: es' =>
    match elementAlike e e' with
    | none => none
    | some false => some false
    | some true => elementsAlike es es'
  | _, _ => some true

/-- `axl_dtd_are_equal` (src/axl_dtd.c:3293-3484): none when NULL is read. -/
def areEqual (d d' : Dtd) : Option Bool :=
  if d.entities.length ≠ d'.entities.length then some false
  else if d.elements.length ≠ d'.elements.length then some false
  else if d.attributes.length ≠ d'.attributes.length then some false
  else if d.haveIdRef ≠ d'.haveIdRef then some false
  else if d.haveId ≠ d'.haveId then some false
  else if !allAlike entityAlike d.entities d'.entities then some false
  else
    match elementsAlike d.elements d'.elements with
    | none => none
    | some false => some false
    | some true => some (allAlike attListAlike d.attributes d'.attributes)

/-- The loop of `axl_dtd_element_is_toplevel` (src/axl_dtd.c:3690-3708). -/
def topLoop (element : Element) : List Element → Res Bool
  | [] => .ok true
  | e :: es =>
    match isParent e element with
    | .ok true => .ok false
    | .ok false => topLoop element es
    | .error => .error
    | .ub => .ub
    | .loop => .loop

/-- `axl_dtd_element_is_toplevel` (src/axl_dtd.c:3681-3709). -/
def isTopLevel (d : Dtd) (element : Element) : Res Bool := topLoop element d.elements

/-- `axl_dtd_get_attr_contraints` (src/axl_dtd.c:3609-3622): none when there are no attributes for the element and NULL
is read. -/
def attrConstraints (d : Dtd) (name : List Char) : Option Nat := (d.attr name).map (·.decls.length)

/-- `axl_dtd_entity_exists` (src/axl_dtd.c:3930-3936). -/
def entityExists (d : Dtd) (name : List Char) (type : EntityType) : Bool := (d.entity name type).isSome

end Axl.Dtd
