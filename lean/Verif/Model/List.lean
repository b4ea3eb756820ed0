/-
Model of src/axl_list.c (axlList and axlListCursor).

Every operation works on the explicit memory of nodes and returns `none` when the C code would
dereference a pointer that is not valid, write outside the node pool, or loop for ever.
-/
import Verif.Model.Dll

namespace Axl

/-- `struct _axlList` (src/axl_list.c:49-66) together with the memory its nodes live in.

* `mem`, `brk`: memory of nodes and the next never-used address (`axl_new`).
* `pool`: `preallocated[0 .. available)`, the last entry (the one handed out next) first.
* `allocated`: capacity of the array `preallocated`.
* `destroyed`: the elements on which `destroy_data` was called, oldest first.  `hasDestroy`
  is `destroy_data != NULL`.
Simplification: the elements are values of an arbitrary type `α` instead of `void *`. -/
structure AxlList (α : Type) where
  areEqual   : α → α → Int
  hasDestroy : Bool
  mem        : Mem α
  brk        : Nat
  first      : Option Nat
  last       : Option Nat
  length     : Int
  pool       : List Nat
  allocated  : Nat
  destroyed  : List α

namespace AxlList
variable {α : Type}

/-- `axl_list_new` (src/axl_list.c:315-333): all fields zero. -/
def new (areEqual : α → α → Int) (hasDestroy : Bool) : AxlList α :=
  { areEqual, hasDestroy, mem := fun _ => none, brk := 0, first := none, last := none,
    length := 0, pool := [], allocated := 0, destroyed := [] }

/-- `__axl_list_get_next_node_available` (src/axl_list.c:186-210) with
`__axl_list_allocate_nodes` (src/axl_list.c:107-162), followed by the assignment
`new_node->data = pointer` that every caller does.  When the pool is empty one node is allocated
and the array of the pool grows by one.  Simplification: allocation never fails. -/
def getNode (l : AxlList α) (x : α) : Nat × AxlList α :=
  match l.pool with
  | a :: rest => (a, { l with pool := rest, mem := l.mem.put a ⟨none, none, x⟩ })
  | [] => (l.brk, { l with brk := l.brk + 1, allocated := l.allocated + 1,
                           mem := l.mem.put l.brk ⟨none, none, x⟩ })

/-- `__axl_list_dispose_node` (src/axl_list.c:170-179): writing past the array is undefined
behaviour. -/
def disposeNode (l : AxlList α) (a : Nat) : Option (AxlList α) :=
  if l.pool.length < l.allocated then some { l with pool := a :: l.pool } else none

/-- The insertion before `node` in `axl_list_add` (src/axl_list.c:610-622). -/
def insertBefore (l : AxlList α) (new node : Nat) : Option (AxlList α) := do
  let m ← l.mem.setNext new (some node)
  let cn ← m node
  let m ← m.setPrev new cn.prev
  let m ← m.setPrev node (some new)
  match cn.prev with
  | some p =>
    let m ← m.setNext p (some new)
    some { l with mem := m, length := l.length + 1 }
  | none => some { l with mem := m, first := some new, length := l.length + 1 }

/-- The insertion after `node2` in `axl_list_add` (src/axl_list.c:648-660). -/
def insertAfter (l : AxlList α) (new node : Nat) : Option (AxlList α) := do
  let m ← l.mem.setPrev new (some node)
  let cn ← m node
  let m ← m.setNext new cn.next
  let m ← m.setNext node (some new)
  match cn.next with
  | some n =>
    let m ← m.setPrev n (some new)
    some { l with mem := m, length := l.length + 1 }
  | none => some { l with mem := m, last := some new, length := l.length + 1 }

/-- Outcome of looking at one end in the loop of `axl_list_add`: the function returns, or the
pointer moves. -/
inductive Scan (α : Type) where
  | done (l : AxlList α)
  | move (node : Option Nat)

/-- The head half of the loop body of `axl_list_add` (src/axl_list.c:606-632). -/
def addHead (l : AxlList α) (x : α) (new : Nat) (node : Option Nat) : Option (Scan α) :=
  match node with
  | none => some (.move none)
  | some n => do
    let c ← l.mem n
    let v := l.areEqual c.data x
    if v = -1 then
      let l ← l.insertBefore new n
      some (.done l)
    else if v = 0 then some (.done l)
    else some (.move c.next)

/-- The tail half of the loop body of `axl_list_add` (src/axl_list.c:635-662). -/
def addTail (l : AxlList α) (x : α) (new : Nat) (node2 : Option Nat) : Option (Scan α) :=
  match node2 with
  | none => some (.move none)
  | some n => do
    let c ← l.mem n
    let v := l.areEqual c.data x
    if v = 0 then some (.done l)
    else if v = 1 then
      let l ← l.insertAfter new n
      some (.done l)
    else some (.move c.prev)

/-- The loop of `axl_list_add` (src/axl_list.c:604-663).  `fuel` bounds the iterations; running
out of it (which would be an endless loop in C) is `none`. -/
def addLoop (x : α) (new : Nat) : Nat → AxlList α → Option Nat → Option Nat → Option (AxlList α)
  | 0, _, _, _ => none
  | fuel + 1, l, node, node2 =>
    if node.isNone && node2.isNone then some l
    else do
      match ← l.addHead x new node with
      | .done l' => some l'
      | .move node' =>
        match ← l.addTail x new node2 with
        | .done l' => some l'
        | .move node2' => addLoop x new fuel l node' node2'

/-- `axl_list_add` (src/axl_list.c:575-667).  The node taken from the pool is not given back when
the element is found to be already stored. -/
def add (l : AxlList α) (x : α) : Option (AxlList α) :=
  let (new, l) := l.getNode x
  match l.first with
  | none => some { l with first := some new, last := some new, length := 1 }
  | some _ => addLoop x new (l.brk + 1) l l.first l.last

/-- `axl_list_prepend` (src/axl_list.c:766-793). -/
def prepend (l : AxlList α) (x : α) : Option (AxlList α) :=
  let (new, l) := l.getNode x
  match l.first with
  | none => some { l with first := some new, last := some new, length := l.length + 1 }
  | some f => do
    let m ← l.mem.setPrev f (some new)
    let m ← m.setNext new (some f)
    some { l with mem := m, first := some new, length := l.length + 1 }

/-- `axl_list_append` (src/axl_list.c:806-833). -/
def append (l : AxlList α) (x : α) : Option (AxlList α) :=
  let (new, l) := l.getNode x
  match l.last with
  | none => some { l with first := some new, last := some new, length := l.length + 1 }
  | some t => do
    let m ← l.mem.setNext t (some new)
    let m ← m.setPrev new (some t)
    some { l with mem := m, last := some new, length := l.length + 1 }

/-- Follow `next` `k` times, dereferencing at each step; used by the loops that advance a counter
(`while (iterator < position)` in src/axl_list.c:732-739). -/
def walk (m : Mem α) : Nat → Option Nat → Option (Option Nat)
  | 0, p => some p
  | k + 1, p => do
    let a ← p
    let c ← m a
    walk m k c.next

/-- `axl_list_add_at` (src/axl_list.c:691-754). -/
def addAt (l : AxlList α) (x : α) (position : Int) : Option (AxlList α) :=
  if position ≤ 0 then l.prepend x
  else if l.length ≤ position then l.append x
  else do
    let (new, l) := l.getNode x
    -- node = first_node->next, then next (position - 1) more times
    let p ← walk l.mem position.toNat l.first
    let node ← p
    let cn ← l.mem node
    let m ← l.mem.setPrev new cn.prev
    let m ← match cn.prev with
      | some q => m.setNext q (some new)
      | none => some m
    let m ← m.setNext new (some node)
    let m ← m.setPrev node (some new)
    some { l with mem := m, length := l.length + 1 }

/-- `__axl_list_common_remove_selected_node` (src/axl_list.c:1002-1037). -/
def removeNode (l : AxlList α) (node : Nat) (alsoRemove : Bool) : Option (AxlList α) := do
  let c ← l.mem node
  let l ← match c.prev with
    | none => some { l with first := c.next }
    | some p => (l.mem.setNext p c.next).map fun m => { l with mem := m }
  let l ← match c.next with
    | none => some { l with last := c.prev }
    | some n => (l.mem.setPrev n c.prev).map fun m => { l with mem := m }
  let l := if alsoRemove && l.hasDestroy then { l with destroyed := l.destroyed ++ [c.data] } else l
  let l ← l.disposeNode node
  some { l with length := l.length - 1 }

/-- `axl_list_remove_first` / `axl_list_unlink_first` (src/axl_list.c:1261-1295). -/
def removeFirst (l : AxlList α) (alsoRemove : Bool) : Option (AxlList α) :=
  match l.first with
  | none => some l
  | some f => l.removeNode f alsoRemove

/-- `axl_list_remove_last` / `axl_list_unlink_last` (src/axl_list.c:1303-1335). -/
def removeLast (l : AxlList α) (alsoRemove : Bool) : Option (AxlList α) :=
  match l.last with
  | none => some l
  | some f => l.removeNode f alsoRemove

/-- The loops that walk from a node following `next` until a test on the data (and the position)
succeeds: `axl_list_internal_linear_lookup` (src/axl_list.c:846-867),
`axl_list_internal_linear_lookup_ptr` (src/axl_list.c:880-898), the loop of
`__axl_list_remove_at_common` (src/axl_list.c:1128-1138), `axl_list_internal_get_nth`
(src/axl_list.c:989-993) and `axl_list_lookup` (src/axl_list.c:1500-1514).
The result is the node pointer (NULL when the end is reached). -/
def find (m : Mem α) (test : Nat → α → Bool) : Nat → Nat → Option Nat → Option (Option Nat)
  | 0, _, _ => none
  | _ + 1, _, none => some none
  | fuel + 1, i, some n => do
    let c ← m n
    if test i c.data then some (some n) else find m test fuel (i + 1) c.next

/-- `axl_list_common_remove` (src/axl_list.c:1056-1077), by the comparison function of the list:
`axl_list_remove` (1100-1111), `axl_list_unlink` (1197-1207). -/
def remove (l : AxlList α) (x : α) (alsoRemove : Bool) : Option (AxlList α) := do
  match ← find l.mem (fun _ y => l.areEqual y x == 0) (l.brk + 1) 0 l.first with
  | none => some l
  | some n => l.removeNode n alsoRemove

/-- `axl_list_common_remove` (src/axl_list.c:1056-1077), by pointer: `axl_list_remove_ptr`
(1179-1187), `axl_list_unlink_ptr` (1219-1232). -/
def removePtr [DecidableEq α] (l : AxlList α) (x : α) (alsoRemove : Bool) :
    Option (AxlList α) := do
  match ← find l.mem (fun _ y => decide (y = x)) (l.brk + 1) 0 l.first with
  | none => some l
  | some n => l.removeNode n alsoRemove

/-- `__axl_list_remove_at_common` (src/axl_list.c:1117-1145): `axl_list_remove_at`,
`axl_list_unlink_at`. -/
def removeAt (l : AxlList α) (position : Int) (alsoRemove : Bool) : Option (AxlList α) := do
  match ← find l.mem (fun i _ => (i : Int) == position) (l.brk + 1) 0 l.first with
  | none => some l
  | some n => l.removeNode n alsoRemove

/-- `axl_list_internal_get_nth` (src/axl_list.c:980-999). -/
def internalGetNth (l : AxlList α) (position : Int) : Option (Option Nat) :=
  if 0 ≤ position ∧ position < l.length then
    find l.mem (fun i _ => (i : Int) == position) (l.brk + 1) 0 l.first
  else some none

/-- `axl_list_get_nth` (src/axl_list.c:1444-1452).  Outer `none`: undefined behaviour; inner
`none`: NULL. -/
def getNth (l : AxlList α) (position : Int) : Option (Option α) := do
  match ← l.internalGetNth position with
  | none => some none
  | some n => let c ← l.mem n; some (some c.data)

/-- `axl_list_get_first` (src/axl_list.c:1407-1414). -/
def getFirst (l : AxlList α) : Option (Option α) :=
  match l.first with
  | none => some none
  | some n => do let c ← l.mem n; some (some c.data)

/-- `axl_list_get_last` (src/axl_list.c:1424-1431). -/
def getLast (l : AxlList α) : Option (Option α) :=
  match l.last with
  | none => some none
  | some n => do let c ← l.mem n; some (some c.data)

/-- `axl_list_is_empty` (src/axl_list.c:1368-1374). -/
def isEmpty (l : AxlList α) : Bool := l.first.isNone

/-- `axl_list_lookup` (src/axl_list.c:1493-1518). -/
def lookup (l : AxlList α) (func : α → Bool) : Option (Option α) := do
  match ← find l.mem (fun _ y => func y) (l.brk + 1) 0 l.first with
  | none => some none
  | some n => let c ← l.mem n; some (some c.data)

/-- One pass over the loop of `axl_list_internal_lookup` (src/axl_list.c:924-963): head test, then
tail test.  `.inl r` = the function returns `r`. -/
def lookupLoop (l : AxlList α) (x : α) : Nat → Option Nat → Option Nat → Option (Option Nat)
  | 0, _, _ => none
  | fuel + 1, node, node2 =>
    if node.isNone && node2.isNone then some none
    else do
      let h ← match node with
        | none => some (Sum.inr none)
        | some n => do
          let c ← l.mem n
          let v := l.areEqual c.data x
          if v = 0 then some (Sum.inl (some n))
          else if v = 1 then some (Sum.inr c.next)
          else some (Sum.inl none)
      match h with
      | .inl r => some r
      | .inr node' =>
        let t ← match node2 with
          | none => some (Sum.inr none)
          | some n => do
            let c ← l.mem n
            let v := l.areEqual c.data x
            if v = -1 then some (Sum.inr c.next)      -- node2 = node2->next, as in the C code
            else if v = 0 then some (Sum.inl (some n))
            else some (Sum.inl none)
        match t with
        | .inl r => some r
        | .inr node2' => lookupLoop l x fuel node' node2'

/-- `axl_list_exists` (src/axl_list.c:1349-1357) over `axl_list_internal_lookup`
(src/axl_list.c:911-966).  Simplification: the searched pointer is not NULL. -/
def exists_ (l : AxlList α) (x : α) : Option Bool := do
  let r ← lookupLoop l x (l.brk + 1) l.first l.last
  some r.isSome

/-- `axl_list_copy` (src/axl_list.c:376-410): the elements are read by position and added with
`axl_list_add` to a new list with the same comparison.  `func = none` is a NULL duplicate
function, which clears the destroy function. -/
def copyLoop (l : AxlList α) (func : Option (α → α)) : Nat → Nat → AxlList α → Option (AxlList α)
  | 0, _, res => some res
  | k + 1, i, res => do
    let d ← l.getNth i
    let d ← d            -- NULL data is never stored here because i is in range
    let d := match func with | some f => f d | none => d
    let res ← res.add d
    copyLoop l func k (i + 1) res

/-- `axl_list_copy` (src/axl_list.c:376-410). -/
def copy (l : AxlList α) (func : Option (α → α)) : Option (AxlList α) :=
  copyLoop l func l.length.toNat 0 (new l.areEqual (if func.isNone then false else l.hasDestroy))

/-- The loop of `axl_list_free` (src/axl_list.c:1574-1583): destroys and frees each node. -/
def freeLoop (hasDestroy : Bool) : Nat → Mem α → Option Nat → List α → Option (Mem α × List α)
  | 0, _, _, _ => none
  | _ + 1, m, none, log => some (m, log)
  | fuel + 1, m, some n, log => do
    let c ← m n
    let m ← m.free n
    freeLoop hasDestroy fuel m c.next (if hasDestroy then log ++ [c.data] else log)

/-- Free the nodes kept in the pool (src/axl_list.c:1586-1588). -/
def freePool : List Nat → Mem α → Option (Mem α)
  | [], m => some m
  | a :: as, m => do
    let m ← m.free a
    freePool as m

/-- `axl_list_free` (src/axl_list.c:1564-1597): the resulting memory and the full log of destroy
calls over the life of the list. -/
def free (l : AxlList α) : Option (Mem α × List α) := do
  let (m, log) ← freeLoop l.hasDestroy (l.brk + 1) l.mem l.first l.destroyed
  let m ← freePool l.pool m
  some (m, log)

/-- `struct _axlListCursor` (src/axl_list.c:74-77): a list and a current node.
`axl_list_cursor_new` (1666-1680) and `axl_list_cursor_first` (1688-1701). -/
structure Cursor (α : Type) where
  list : AxlList α
  current : Option Nat

/-- `axl_list_cursor_new` (src/axl_list.c:1666-1680). -/
def cursorNew (l : AxlList α) : Cursor α := ⟨l, l.first⟩

namespace Cursor

/-- `axl_list_cursor_first` (src/axl_list.c:1688-1701). -/
def toFirst (c : Cursor α) : Cursor α :=
  if c.list.length = 0 then { c with current := none } else { c with current := c.list.first }

/-- `axl_list_cursor_last` (src/axl_list.c:1710-1718). -/
def toLast (c : Cursor α) : Cursor α := { c with current := c.list.last }

/-- `axl_list_cursor_next` (src/axl_list.c:1727-1736). -/
def next (c : Cursor α) : Option (Cursor α) :=
  match c.current with
  | none => some c
  | some n => do let k ← c.list.mem n; some { c with current := k.next }

/-- `axl_list_cursor_previous` (src/axl_list.c:1745-1754). -/
def previous (c : Cursor α) : Option (Cursor α) :=
  match c.current with
  | none => some c
  | some n => do let k ← c.list.mem n; some { c with current := k.prev }

/-- `axl_list_cursor_has_next` (src/axl_list.c:1766-1776). -/
def hasNext (c : Cursor α) : Option Bool :=
  match c.current with
  | none => some false
  | some n => do let k ← c.list.mem n; some k.next.isSome

/-- `axl_list_cursor_has_previous` (src/axl_list.c:1788-1798). -/
def hasPrevious (c : Cursor α) : Option Bool :=
  match c.current with
  | none => some false
  | some n => do let k ← c.list.mem n; some k.prev.isSome

/-- `axl_list_cursor_has_item` (src/axl_list.c:1809-1815). -/
def hasItem (c : Cursor α) : Bool := c.current.isSome

/-- `axl_list_cursor_get` (src/axl_list.c:1890-1900). -/
def get (c : Cursor α) : Option (Option α) :=
  match c.current with
  | none => some none
  | some n => do let k ← c.list.mem n; some (some k.data)

/-- `axl_list_cursor_unlink` / `axl_list_cursor_remove` (src/axl_list.c:1828-1882). -/
def remove (c : Cursor α) (alsoRemove : Bool) : Option (Cursor α) :=
  match c.current with
  | none => some c
  | some n => do
    let k ← c.list.mem n
    let cur := match k.next with | some x => some x | none => k.prev
    let l ← c.list.removeNode n alsoRemove
    some ⟨l, cur⟩

end Cursor

/-! ### Comparison functions of the library -/

/-- `axl_list_equal_int` (src/axl_list.c:494-503). -/
def equalInt (a b : Int) : Int := if a = b then 0 else if a < b then -1 else 1

/-- `axl_list_equal_ptr` (src/axl_list.c:523-529). -/
def equalPtr [DecidableEq α] (a b : α) : Int := if a = b then 0 else -1

/-- `axl_list_always_return_1` (src/axl_list.c:553-556). -/
def alwaysReturn1 (_ _ : α) : Int := 1

/-- `axl_list_equal_string` (src/axl_list.c:426-444).  Simplification: `strlen` comparison followed
by `axl_stream_cmp` over the common length is equality of the two strings (proved for
`axl_stream_cmp` in the string modules). -/
def equalString (a b : List Char) : Int := if a = b then 0 else 1

/-- `strcmp` sign: lexicographic comparison of the bytes as unsigned values. -/
def strcmp : List Char → List Char → Int
  | [], [] => 0
  | [], _ :: _ => -1
  | _ :: _, [] => 1
  | a :: as, b :: bs => if a = b then strcmp as bs else if a.toNat < b.toNat then -1 else 1

/-- `axl_list_order_string` (src/axl_list.c:456-466). -/
def orderString (a b : List Char) : Int :=
  if strcmp a b = 0 then 0 else if 0 < strcmp a b then -1 else 1

end AxlList
end Axl
