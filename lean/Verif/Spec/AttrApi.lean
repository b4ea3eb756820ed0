/-
How the operations of `Verif.Spec.Attr` are issued to the modelled API.
-/
import Verif.Model.Compare
import Verif.Model.AttrTrim
import Verif.Spec.Attr

namespace Axl
open Spec.Attr

namespace Attrs

/-- The API call for each operation. -/
def exec (a : Attrs) : Op → Option Attrs
  | .set n v => a.setAttribute n v
  | .setRef n v false => a.setAttributeRef n v
  | .setRef n v true => a.setAttributeFromFactory n v
  | .remove n => a.removeAttribute n

/-- A sequence of API calls, oldest first. -/
def run (a : Attrs) : List Op → Option Attrs
  | [] => some a
  | op :: ops => do let a ← a.exec op; a.run ops

end Attrs

/-- The attributes were set, removed, trimmed and copied (with the node that has them) through the API, in any way. -/
inductive Attrs.Made : Attrs → Prop where
  | empty : Attrs.empty.Made
  | call {a b : Attrs} {op : Op} : a.Made → (∀ s ∈ op.texts, Str.NUL ∉ s) → a.exec op = some b → b.Made
  | copy {a b : Attrs} : a.Made → a.copy true = some b → b.Made
  | trimmed {a b : Attrs} {n : List Char} {r : Option (List Char)} : a.Made → a.getValueTrimmed n = some (r, b) → b.Made

/-- `qs` are the attributes of the node: each name once, with the value that a lookup gives, and no
other. -/
structure Attrs.Lists (a : Attrs) (qs : List (List Char × List Char)) : Prop where
  mem  : ∀ n v, (n, v) ∈ qs ↔ a.getValue n = some (some v)
  once : (qs.map (·.1)).Nodup
  num  : a.numAttributes = some qs.length

namespace AttrCursor

/-- The cursor was created for these attributes and moved any number of times. -/
inductive MovedFrom (a : Attrs) : AttrCursor → Prop
  | new {c : AttrCursor} : AttrCursor.new a = some c → MovedFrom a c
  | next {c c' : AttrCursor} : MovedFrom a c → c.next = some c' → MovedFrom a c'
  | first {c c' : AttrCursor} : MovedFrom a c → c.first = some c' → MovedFrom a c'

/-- Reading with `axl_node_attr_cursor_next` while `has_item` gives exactly these pairs; `has_next`
announces each further pair. -/
inductive Reads : AttrCursor → List (List Char × List Char) → Prop
  | done {c : AttrCursor} : c.hasItem = some false → Reads c []
  | item {c c' : AttrCursor} {n v : List Char} {ps : List (List Char × List Char)} :
      c.hasItem = some true → c.getKey = some (some n) → c.getValue = some (some v) →
      c.hasNext = some (!ps.isEmpty) → c.next = some c' → Reads c' ps → Reads c ((n, v) :: ps)

end AttrCursor
end Axl
