/-
Model of the attribute lookup that trims the value where it is stored (src/axl_node.c).
-/
import Verif.Model.Attr

namespace Axl
namespace Attrs
open Str

/-- Writing over the string of the first attribute with the name: the one that the walk of
`axl_node_get_attribute_value` finds (src/axl_node.c:1483-1490). -/
def writeList (name value : List Char) : List Attr → List Attr
  | [] => []
  | x :: xs => if cmp (some x.name) (some name) then { x with value := value } :: xs else x :: writeList name value xs

/-- Writing over the string that `axl_hash_get` gives for the name (src/axl_node.c:1494, src/axl_hash.c:866-884):
the pair stays where it is, no destroy function is called. -/
def writeHash (h : AxlHash (List Char) (List Char) Unit) (name value : List Char) :
    Option (AxlHash (List Char) (List Char) Unit) := do
  let node ← h.lookup name
  match node with
  | none => some h
  | some n => do
    let p ← h.pos name
    let chain ← h.table[p]?
    some { h with table := h.table.set p (AxlHash.replaceChain h.equal name { n with data := some value } chain) }

/-- Writing over the string that `axl_node_get_attribute_value` gives (src/axl_node.c:1468-1498). -/
def writeValue (a : Attrs) (name value : List Char) : Option Attrs :=
  if a.num ≤ 10 then
    match a.ptr with
    | .list l => some ⟨a.num, .list (writeList name value l)⟩
    | .hash _ => none
  else
    match a.ptr with
    | .hash h => do let h ← writeHash h name value; some ⟨a.num, .hash h⟩
    | .list _ => none

/-- `axl_node_get_attribute_value_trimmed` (src/axl_node.c:1581-1595): the value, trimmed where it is
stored, or NULL, and the attributes afterwards.  The array trimmed is the string with its terminator. -/
def getValueTrimmed (a : Attrs) (name : List Char) : Option (Option (List Char) × Attrs) := do
  let v ← a.getValue name
  match v with
  | none => some (none, a)
  | some v => do
    let (b, _) ← trimWithSize (v ++ [NUL])
    let a ← a.writeValue name (toStr b)
    some (some (toStr b), a)

end Attrs
end Axl
