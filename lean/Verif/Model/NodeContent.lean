/-
The contents of a node: the functions that store texts, CDATA sections and comments as children of a
node and those that read them.
-/
import Verif.Model.Escape

namespace Axl.NodeContent
open Str Escape

/-- An item of a node (`axlItem`, src/axl_node.c:60-82), in the order of the children: a text, a CDATA
section, a comment, or another item (node, instruction), whose data is not read here. -/
inductive Item where
  | text (c : Content)
  | cdata (c : Content)
  | comment (c : Content)
  | other
deriving DecidableEq, Repr

/-- The content of the items read by the content functions: `axl_item_get_type` is ITEM_CONTENT or
ITEM_CDATA (src/axl_node.c:2648-2649, 2728-2729, 3156-3157, 3196-3197, 3224-3225). -/
def Item.content? : Item → Option Content
  | .text c => some c
  | .cdata c => some c
  | .comment _ => none
  | .other => none

/-- `axl_node_is_empty` (src/axl_node.c:2637-2662). -/
def isEmpty : List Item → Bool
  | [] => true
  | i :: items => if i.content?.isSome then false else isEmpty items

/-- `axl_node_get_content` (src/axl_node.c:2715-2750): the memory returned and the size reported. -/
def getContent : List Item → Content
  | [] => { mem := [NUL], size := 0 }
  | i :: items =>
    match i.content? with
    | some c => c
    | none => getContent items

/-- `__axl_node_set_content_common_ref` (src/axl_node.c:2836-2890), without where the memory comes
from: the content stored is the memory given. -/
def setRef (mem : List Char) (size : Int) : Option Content := do
  let size ← sizeOr mem size
  some { mem := mem, size := size }

/-- The content made by `axl_node_set_comment` (src/axl_node.c:3041-3066). -/
def setComment (mem : List Char) (size : Int) : Option Content := do
  let size ← sizeOr mem size
  if size ≤ mem.length then some { mem := mem.take size ++ [NUL], size := size } else none

/-- `axl_node_get_content_copy` (src/axl_node.c:3086-3118), with or without a place for the size. -/
def getCopy (items : List Item) : Option (List Char × Nat) := getContentCopy (getContent items)

/-- Lines 3159-3172 of `axl_node_get_content_trim`: the content is trimmed in place and its size
decremented.  A size that becomes negative is not represented: the answer is then `none`. -/
def trimContent (c : Content) : Option Content := do
  let (mem, trimmed) ← trimWithSize c.mem
  if trimmed ≤ c.size then some { mem := mem, size := ((c.size : Int) - trimmed).toNat } else none

/-- `axl_node_get_content_trim` (src/axl_node.c:3140-3184): the items afterwards, the memory returned
and the size reported. -/
def getTrim : List Item → Option (List Item × Content)
  | [] => some ([], { mem := [NUL], size := 0 })
  | .text c :: items => do
    let c ← trimContent c
    some (.text c :: items, c)
  | .cdata c :: items => do
    let c ← trimContent c
    some (.cdata c :: items, c)
  | i :: items => do
    let (items, c) ← getTrim items
    some (i :: items, c)

/-- `axl_node_get_content_trans` (src/axl_node.c:3258-3315), with its traversals of the items
(3186-3241). -/
def getTrans (items : List Item) : Option (Option (List Char × Nat)) := getContentTrans (items.filterMap Item.content?)

/-- `axl_item_get_content` (src/axl_node.c:6268-6292) on the item at a position; NULL (`none`) for
other items. -/
def itemContent : Item → Option Content
  | .text c => some c
  | .cdata c => some c
  | .comment c => some c
  | .other => none

/-- The functions called. -/
inductive Op where
  /-- `axl_node_set_content` (src/axl_node.c:2788-2830) -/
  | setContent (mem : List Char) (size : Int)
  /-- `axl_node_set_content_ref` and `axl_node_set_content_from_factory` (src/axl_node.c:2915-2944) -/
  | setContentRef (mem : List Char) (size : Int)
  /-- `axl_node_set_cdata_content` (src/axl_node.c:2973-3004) -/
  | setCdata (mem : List Char) (size : Int)
  /-- `axl_node_set_cdata_content_from_factory` (src/axl_node.c:3012-3023) -/
  | setCdataRef (mem : List Char) (size : Int)
  /-- `axl_node_set_comment` (src/axl_node.c:3041-3066) -/
  | setComment (mem : List Char) (size : Int)
  /-- `axl_node_set_child` and the like, for a node or an instruction -/
  | setOther
  | isEmpty
  | getContent
  | getCopy
  | getTrim
  | getTrans
  | itemContent (i : Nat)
deriving Repr

/-- What a function answers. -/
inductive Ans where
  | unit
  | bool (b : Bool)
  /-- NULL -/
  | null
  /-- memory and the size reported -/
  | text (mem : List Char) (size : Nat)
deriving DecidableEq, Repr

/-- The answer with a content. -/
def Ans.of : Option Content → Ans
  | none => .null
  | some c => .text c.mem c.size

/-- The answer with memory and size, or NULL. -/
def Ans.ofPair : Option (List Char × Nat) → Ans
  | none => .null
  | some r => .text r.1 r.2

/-- One call.  New items become the last child (`axl_item_set_child`, src/axl_node.c:6359-6375).
`none`: memory that is not there is read or written. -/
def step (items : List Item) : Op → Option (List Item × Ans)
  | .setContent mem size => (Escape.setContent mem size).map (fun c => (items ++ [.text c], .unit))
  | .setContentRef mem size => (setRef mem size).map (fun c => (items ++ [.text c], .unit))
  | .setCdata mem size => (setCdataContent mem size).map (fun c => (items ++ [.cdata c], .unit))
  | .setCdataRef mem size => (setRef mem size).map (fun c => (items ++ [.cdata c], .unit))
  | .setComment mem size => (NodeContent.setComment mem size).map (fun c => (items ++ [.comment c], .unit))
  | .setOther => some (items ++ [.other], .unit)
  | .isEmpty => some (items, .bool (NodeContent.isEmpty items))
  | .getContent => some (items, Ans.of (some (NodeContent.getContent items)))
  | .getCopy => (NodeContent.getCopy items).map (fun r => (items, Ans.ofPair (some r)))
  | .getTrim => (NodeContent.getTrim items).map (fun r => (r.1, Ans.of (some r.2)))
  | .getTrans => (NodeContent.getTrans items).map (fun r => (items, Ans.ofPair r))
  | .itemContent i => some (items, Ans.of (items[i]?.bind NodeContent.itemContent))

/-- Calls one after the other: the items at the end and the answers. -/
def run (items : List Item) : List Op → Option (List Item × List Ans)
  | [] => some (items, [])
  | op :: ops => do
    let (items, a) ← step items op
    let (items, as) ← run items ops
    some (items, a :: as)

end Axl.NodeContent
