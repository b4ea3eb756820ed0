/-
Model of the functions that let a program read a content model (src/axl_dtd.c:3633-3876).

Simplifications: a pointer that is not NULL is what it points to; the list of items is the sequence that
`Model/List.lean` gives (`axl_list_get_nth`, `axl_list_length`).
-/
import Verif.Model.DtdEqual

namespace Axl.Dtd
open Str

/-- What is behind an `axlDtdElementList *` (src/axl_dtd.c:50-83); the repetition is none for `DTD_TIMES_UNKNOWN`. -/
structure Group where
  kind  : Kind
  times : Option Times
  items : List Part

/-- `axl_dtd_get_element_name` (src/axl_dtd.c:3633-3638). -/
def elementName (e : Option Element) : Option (List Char) := e.map (·.name)

/-- `axl_dtd_get_element_type` (src/axl_dtd.c:3647-3652): `ELEMENT_TYPE_UNKNOWN` is 0. -/
def typeNumber : Option Element → Nat
  | none => 0
  | some e => e.type.tag

/-- `axl_dtd_get_item_list` (src/axl_dtd.c:3663-3668). -/
def itemListOf : Option Element → Option Group
  | none => none
  | some e => e.list.map fun l => ⟨l.kind, e.type.times, l.items⟩

/-- `axl_dtd_item_list_count` (src/axl_dtd.c:3722-3730). -/
def groupCount : Option Group → Int
  | none => -1
  | some g => g.items.length

/-- `axl_dtd_item_list_type` (src/axl_dtd.c:3741-3746, src/axl_decl.h:333-352). -/
def groupType : Option Group → Int
  | none => -1
  | some g => match g.kind with
    | .undef => 0
    | .choice => 1
    | .seq => 2

/-- `axl_dtd_item_list_repeat` (src/axl_dtd.c:3757-3763). -/
def groupRepeat : Option Group → Option Times
  | none => none
  | some g => g.times

/-- `axl_dtd_item_list_get_node` (src/axl_dtd.c:3782-3790). -/
def groupNode (g : Option Group) (position : Int) : Option Part :=
  match g with
  | none => none
  | some l =>
    if position ≥ 0 then
      if position < groupCount g then l.items[position.toNat]? else none
    else none

/-- `axl_dtd_item_node_get_type` (src/axl_dtd.c:3804-3808): `AXL_ELEMENT_NOT_DEFINED`, `AXL_ELEMENT_LIST`, `AXL_ELEMENT_NODE`. -/
def itemType : Option Part → Nat
  | none => 1
  | some (.list _ _ _) => 2
  | some (.node _ _) => 3

/-- `axl_dtd_item_node_get_list` (src/axl_dtd.c:3820-3826). -/
def itemGroup : Option Part → Option Group
  | some (.list k t items) => some ⟨k, some t, items⟩
  | _ => none

/-- `axl_dtd_item_node_get_value` (src/axl_dtd.c:3838-3845). -/
def itemValue : Option Part → Option (List Char)
  | none => none
  | some (.node _ n) => some n
  | some (.list _ _ _) => some c!"requested-value-on-a-list"

/-- `axl_dtd_item_node_get_repeat` (src/axl_dtd.c:3856-3876). -/
def itemRepeat : Option Part → Option Times
  | none => none
  | some (.node t _) => some t
  | some (.list _ t _) => some t

end Axl.Dtd
