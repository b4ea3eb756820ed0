/-
Model of what the containers do when the system has no more memory: src/axl_list.c, src/axl_stack.c, src/axl_hash.c and
src/axl_factory.c.  The other models leave this out.

Each call gets the answers of the system to the allocations that it makes.  `none`: undefined behaviour (a NULL pointer is
followed or written through) or a walk that does not end.
-/
import Verif.Model.List
import Verif.Model.Stack
import Verif.Model.HashMem

namespace Axl

/-- The answers to the allocations of a call, in order: `true` if the memory is given.  Those that are not said are `true`. -/
abbrev Answers := List Bool

/-- `calloc` or `realloc`: the answer, and those that come later. -/
def alloc : Answers → Bool × Answers
  | [] => (true, [])
  | b :: a => (b, a)

namespace AxlList
variable {α : Type}

/-- `axl_list_new` (src/axl_list.c:315-333): NULL if there is no memory. -/
def newOom (a : Answers) (areEqual : α → α → Int) (hasDestroy : Bool) : Option (AxlList α) :=
  if (alloc a).1 then some (new areEqual hasDestroy) else none

/-- The part of `__axl_list_get_next_node_available` (src/axl_list.c:186-210) and of `__axl_list_allocate_nodes`
(src/axl_list.c:107-162) that allocates: the array of the pool (its size is put back if that fails), then a node.  The list,
and whether there is a node to take. -/
def prepare (l : AxlList α) (a : Answers) : Bool × AxlList α :=
  match l.pool with
  | _ :: _ => (true, l)
  | [] =>
    let (array, a) := alloc a
    if array then
      if (alloc a).1 then (true, l) else (false, { l with allocated := l.allocated + 1 })
    else (false, l)

/-- `axl_list_add` (src/axl_list.c:575-667): it returns if there is no node. -/
def addOom (l : AxlList α) (a : Answers) (x : α) : Option (AxlList α) :=
  let (ok, l) := l.prepare a
  if ok then l.add x else some l

/-- `axl_list_prepend` (src/axl_list.c:766-793). -/
def prependOom (l : AxlList α) (a : Answers) (x : α) : Option (AxlList α) :=
  let (ok, l) := l.prepare a
  if ok then l.prepend x else some l

/-- `axl_list_append` (src/axl_list.c:806-833). -/
def appendOom (l : AxlList α) (a : Answers) (x : α) : Option (AxlList α) :=
  let (ok, l) := l.prepare a
  if ok then l.append x else some l

/-- `axl_list_add_at` (src/axl_list.c:691-754): in each of its three branches a node is asked for once. -/
def addAtOom (l : AxlList α) (a : Answers) (x : α) (position : Int) : Option (AxlList α) :=
  let (ok, l) := l.prepare a
  if ok then l.addAt x position else some l

/-- The loop of `axl_list_copy` (src/axl_list.c:392-411), with the answers for each element; the data that was copied. -/
def copyLoopOom (l : AxlList α) (func : Option (α → α)) : Nat → Nat → List Answers → Option (AxlList α) → List α →
    Option (Option (AxlList α) × List α)
  | 0, _, _, _, _ => none
  | fuel + 1, it, as, result, made =>
    if (it : Int) < l.length then do
      let d ← l.getNth it
      let d ← d
      let made := match func with
        | some f => made ++ [f d]
        | none => made
      let d := match func with
        | some f => f d
        | none => d
      match result with
      | none => copyLoopOom l func fuel (it + 1) as.tail none made   -- axl_list_add (NULL, data) does nothing
      | some r => do
        let r ← r.addOom (as.headD []) d
        copyLoopOom l func fuel (it + 1) as.tail (some r) made
    else some (result, made)

/-- `axl_list_copy` (src/axl_list.c:376-415): the copy (`none` is NULL) and what `func` gave.  What `axl_list_new` gives is not
checked: without `func` it is written through. -/
def copyOom (l : AxlList α) (a : Answers) (as : List Answers) (func : Option (α → α)) :
    Option (Option (AxlList α) × List α) :=
  match newOom a l.areEqual (func.isSome && l.hasDestroy), func with
  | none, none => none
  | result, func => copyLoopOom l func (l.length.toNat + 1) 0 as result []

/-- `axl_list_cursor_new` (src/axl_list.c:1666-1680): the cursor is not checked. -/
def cursorNewOom (l : AxlList α) (a : Answers) : Option (Cursor α) :=
  if (alloc a).1 then some (cursorNew l) else none

end AxlList

namespace AxlStack
variable {α : Type}

/-- `axl_stack_new` (src/axl_stack.c:76-88): NULL if there is no memory. -/
def newOom (a : Answers) (hasDestroy : Bool) : Option (AxlStack α) := if (alloc a).1 then some (new hasDestroy) else none

/-- `axl_stack_push` (src/axl_stack.c:100-138): the stack as it was if the array cannot grow. -/
def pushOom (s : AxlStack α) (a : Answers) (x : Option α) : Option (AxlStack α) :=
  if x.isSome ∧ s.size = s.items ∧ (alloc a).1 = false then some s else s.push x

end AxlStack

namespace BinaryStack

/-- The label `axl_binary_stack_push_create_and_return` (src/axl_stack.c:446-469): nothing is done if there is no node; whether
`axl_stack_push` stored it is not known. -/
def pushCreateOom (b : BinaryStack) (a : Answers) (state : Bool) : Option BinaryStack :=
  let (node, a) := alloc a
  if node then do
    let p := b.brk
    let b := ({ b with brk := b.brk + 1 }).setNode p ⟨1, state⟩
    let st ← b.stack.pushOom a (some p)
    some { b with last := some p, stack := st, count := b.count + 1 }
  else some b

/-- `axl_binary_stack_push` (src/axl_stack.c:436-492). -/
def pushOom (b : BinaryStack) (a : Answers) (state : Bool) : Option BinaryStack :=
  match b.last with
  | none => b.pushCreateOom a state
  | some p => do
    let n ← b.heap p
    if n.state = state then
      let b := b.setNode p { n with count := n.count + 1 }
      some { b with count := b.count + 1 }
    else b.pushCreateOom a state

end BinaryStack

namespace Factory

/-- `axl_factory_create` (src/axl_factory.c:73-87): nothing is checked.  The items of the first block may be NULL, which is a
block of capacity 0 here. -/
def createOom (a : Answers) (typeSize : Nat) : Option Factory :=
  let (factory, a) := alloc a
  let (block, a) := alloc a
  if factory && block then do
    let f ← create typeSize
    some (if (alloc a).1 then f else { f with blocks := [0] })
  else none

/-- `axl_factory_get` (src/axl_factory.c:97-131): the block is not checked, and its items may be NULL (a block of capacity 0):
then the first of them is NULL, and the others are addresses where there is nothing. -/
def getOom (f : Factory) (a : Answers) : Option (Option Piece × Factory) :=
  if f.spareMax > 0 ∧ f.spareNext ≥ 0 then do
    let (p, f) ← f.get
    some (some p, f)
  else
    let (block, a) := alloc a
    if f.count + 1 > f.step ∧ block = false then none
    else do
      let (p, f') ← f.get
      let f' := if f.count + 1 > f.step ∧ (alloc a).1 = false then { f' with blocks := f.blocks ++ [0] } else f'
      some (if f'.blocks[p.block]? = some 0 ∧ p.offset = 0 then none else some p, f')

/-- Whether `axl_factory_release_spare` asks for memory (src/axl_factory.c:136-160). -/
def releaseAsks (f : Factory) : Bool := f.spareMax = 0 || f.spareMax ≤ f.spareNext

end Factory

namespace MHash
variable {κ δ φ : Type}

/-- `axl_hash_new_full` (src/axl_hash.c:336-362): the table (`none` is NULL). -/
def newFullOom (a : Answers) (hash : κ → Nat) (equal : κ → κ → Bool) (step : Nat) (junk : Piece → Option Piece) :
    Option (Option (MHash κ δ φ)) :=
  let (ok, a) := alloc a
  if ok then do
    let factory ← Factory.createOom a nodeSize
    some (some ⟨hash, equal, [], factory, 0, 0, step, fun _ => none, junk, []⟩)
  else some none

/-- `__axl_hash_create_node` (src/axl_hash.c:399-406): the node (`none` is NULL) is written if it is not NULL. -/
def createNodeOom (m : MHash κ δ φ) (a : Answers) (x : HashNode κ δ φ) : Option (Option Piece × MHash κ δ φ) := do
  let (p, f) ← m.factory.getOom a
  match p with
  | none => some (none, { m with factory := f })
  | some p => do
    let cap ← f.blocks[p.block]?
    if p.offset + nodeSize ≤ cap then some (some p, { m with factory := f }.write p (some ⟨x, m.junk p⟩)) else none

/-- The resize part of `axl_hash_insert_full` (src/axl_hash.c:485-563): whether there was memory, and the table.  The chains
are linked before the memory is asked for, and if there is none only the table and its size are put back. -/
def growOom (n : Nat) (m : MHash κ δ φ) (a : Answers) : Option (Bool × MHash κ δ φ) := do
  let (m, node) ← link n m m.table none none
  if (alloc a).1 then do
    let m := { m with hashSize := m.hashSize + m.step, table := List.replicate (m.hashSize + m.step) none }
    let m ← rehash n m node
    some (true, m)
  else some (false, m)

/-- The part of `axl_hash_insert_full` that stores a new node (src/axl_hash.c:566-578). -/
def storeOom (m : MHash κ δ φ) (a : Answers) (x : HashNode κ δ φ) : Option (MHash κ δ φ) := do
  let (p, m) ← m.createNodeOom a x
  match p with
  | none => some m
  | some p => m.insertNode x.key p true

/-- `axl_hash_insert_full` (src/axl_hash.c:444-595). -/
def insertFullOom (n : Nat) (m : MHash κ δ φ) (a : Answers) (k : κ) (kd : Option φ) (d : Option δ) (dd : Option φ) :
    Option (MHash κ δ φ) :=
  let new : HashNode κ δ φ := ⟨k, kd, d, dd⟩
  if m.hashSize = 0 then
    let (table, a) := alloc a
    if table then do
      let (p, m) ← { m with table := List.replicate m.step none, hashSize := m.step }.createNodeOom a new
      match p with
      | none => some { m with table := [], hashSize := 0 }
      | some p => m.insertNode k p true
    else some m
  else do
    let node ← m.lookup n k
    match node with
    | none =>
      if m.hashSize = m.items then do
        let (ok, m) ← m.growOom n a
        if ok then m.storeOom (alloc a).2 new else some m
      else m.storeOom a new
    | some p => do
      let c ← m.mem p
      some { m.write p (some { c with node := new }) with log := m.log ++ AxlHash.destroyNode c.node }

/-- `axl_hash_remove` (src/axl_hash.c:737-743, 649-692): the node of a pair that is found is given to
`axl_factory_release_spare`, which writes through the array that it asked for without checking it. -/
def removeOom (n : Nat) (m : MHash κ δ φ) (a : Answers) (k : κ) : Option (Bool × MHash κ δ φ) := do
  let (r, m') ← m.remove n k
  if r && m.factory.releaseAsks && !(alloc a).1 then none else some (r, m')

end MHash
end Axl
