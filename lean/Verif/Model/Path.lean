/-
axl_doc_get_list and axl_doc_get (src/axl_doc.c:2320-2439): finding a node by its path.

The tree is the one of `Verif.Model.Tree`; the document is given by its root node, NULL (`none`) if
it has none.  The list returned may hold NULL, hence `AxlList (Option Nat)`.
-/
import Verif.Model.Tree
import Verif.Model.List
import Verif.Model.Str
import Verif.Model.Lit

namespace Axl.Heap

/-- `NODE_CMP_NAME (node, name)` (src/axl_node.h:284), for a name that is not NULL. -/
def nodeCmpName (h : Heap) (node : Option Nat) (name : List Char) : Option Bool :=
  match node with
  | none => some (c!"><" == name)
  | some n => (h.nodes n).map fun c => c.name == name

/-- `axl_node_get_child_called` (src/axl_node.c:3683-3716) with the check of NULL. -/
def childCalled (h : Heap) (node : Option Nat) (name : List Char) : Option (Option Nat) :=
  match node with
  | none => some none
  | some n => h.getChildCalled n name

/-- The loop of `axl_doc_get_list` (src/axl_doc.c:2358-2383) over the pieces from `paths[iterator]`
on: `some none` is the answer NULL.  `axl_stream_strv_num (paths) != iterator + 1` says that there
is another piece. -/
def pathLoop (h : Heap) : List (List Char) → Option Nat → Option (Option (Option Nat))
  | [], node => some (some node)
  | p :: rest, node =>
    if p.length = 0 then some (some node)
    else if p == c!"*" && !rest.isEmpty then some none
    else
      match h.childCalled node p with
      | none => none
      | some none => some none
      | some (some c) => pathLoop h rest (some c)

/-- The check of the name of the root (src/axl_doc.c:2343-2352): whether to go on. -/
def pathRoot (h : Heap) (root : Option Nat) (p : List Char) : Option Bool :=
  if p.length ≠ 0 then h.nodeCmpName root p else some true

/-- `axl_doc_get_list` (src/axl_doc.c:2320-2393): `some none` is the answer NULL.  The array given
by `axl_stream_split` ends with NULL; reading beyond it, or `strlen` of it, is undefined. -/
def docGetList (h : Heap) (root : Option Nat) (path : List Char) : Option (Option (AxlList (Option Nat))) :=
  match path with
  | '/' :: _ =>
    match Str.split path [c!"/"] with
    | none => none
    | some (_ :: p :: rest) =>
      match h.pathRoot root p with
      | none => none
      | some false => some none
      | some true =>
        match h.pathLoop rest root with
        | none => none
        | some none => some none
        | some (some node) => ((AxlList.new AxlList.alwaysReturn1 false).add node).map some
    | some _ => none
  | _ => some none

/-- `axl_doc_get` (src/axl_doc.c:2419-2439). -/
def docGet (h : Heap) (root : Option Nat) (path : List Char) : Option (Option Nat) := do
  let list ← h.docGetList root path
  match list with
  | none => some none
  | some l => do
    let node ← l.getNth 0
    let _ ← l.free
    if 0 < l.length then some (node.bind id) else some none

end Axl.Heap
