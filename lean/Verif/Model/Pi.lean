/-
Processing instructions of documents (src/axl_doc.c:2634-2822) and of nodes
(src/axl_node.c:4097-4206, 4510-4539), over the list of `Verif.Model.List` and the trees of
`Verif.Model.Doc`.  Names and targets are not NULL.
-/
import Verif.Model.Doc
import Verif.Model.List
import Verif.Model.Str

namespace Axl
open Str

/-- `axl_pi_create` (src/axl_doc.c:2792-2822). -/
def PI.create (name : List Char) (content : Option (List Char)) : PI := ⟨name, content⟩

/-- `doc->piTargets` of a new document (src/axl_doc.c:448). -/
def newPiTargets : AxlList PI := AxlList.new AxlList.alwaysReturn1 true

/-- `axl_doc_add_pi_target` (src/axl_doc.c:2634-2651). -/
def docAddPiTarget (l : AxlList PI) (target : List Char) (content : Option (List Char)) : Option (AxlList PI) :=
  l.add (PI.create target content)

/-- The loop of `axl_doc_has_pi_target` and `axl_doc_get_pi_target_content` (src/axl_doc.c:2679-2690,
2714-2725): the first instruction with the target, from a position on; `n` positions are left
(the length is not negative). -/
def docFindPi (l : AxlList PI) (target : List Char) : Nat → Nat → Option (Option PI)
  | 0, _ => some none
  | n + 1, i =>
    match l.getNth i with
    | none => none
    | some none => none -- `pi->name` with pi NULL
    | some (some p) => if cmp (some p.name) (some target) then some (some p) else docFindPi l target n (i + 1)

/-- `axl_doc_has_pi_target` (src/axl_doc.c:2668-2691). -/
def docHasPiTarget (l : AxlList PI) (target : List Char) : Option Bool :=
  (docFindPi l target l.length.toNat 0).map (·.isSome)

/-- `axl_doc_get_pi_target_content` (src/axl_doc.c:2704-2726); `some none` is NULL. -/
def docGetPiTargetContent (l : AxlList PI) (target : List Char) : Option (Option (List Char)) :=
  (docFindPi l target l.length.toNat 0).map fun r => r.bind (·.content)

namespace Items

/-- `axl_node_add_pi_target` (src/axl_node.c:4097-4114). -/
def addPiTarget (i : Items) (target : List Char) (content : Option (List Char)) : Items :=
  i.append (.leaf (.pi (PI.create target content)) .nil)

/-- `axl_node_has_pi_target` (src/axl_node.c:4133-4163). -/
def hasPiTarget (target : List Char) : Items → Bool
  | .nil => false
  | .leaf (.pi p) next => if cmp (some p.name) (some target) then true else hasPiTarget target next
  | .leaf _ next => hasPiTarget target next
  | .node _ next => hasPiTarget target next

/-- `axl_node_get_pi_target_content` (src/axl_node.c:4176-4206); `none` is NULL. -/
def getPiTargetContent (target : List Char) : Items → Option (List Char)
  | .nil => none
  | .leaf (.pi p) next => if cmp (some p.name) (some target) then p.content else getPiTargetContent target next
  | .leaf _ next => getPiTargetContent target next
  | .node _ next => getPiTargetContent target next

/-- The loop of `axl_node_get_pi_target_list` (src/axl_node.c:4519-4538); no list is made until an
instruction is found. -/
def piTargetLoop : Option (AxlList PI) → Items → Option (Option (AxlList PI))
  | r, .nil => some r
  | r, .leaf (.pi p) next =>
    match (r.getD newPiTargets).add p with
    | none => none
    | some l => piTargetLoop (some l) next
  | r, .leaf _ next => piTargetLoop r next
  | r, .node _ next => piTargetLoop r next

/-- `axl_node_get_pi_target_list` (src/axl_node.c:4510-4539); `some none` is NULL. -/
def getPiTargetList (i : Items) : Option (Option (AxlList PI)) := piTargetLoop none i

end Items
end Axl
