/-
Memory of doubly linked cells.

libaxl links list nodes (`struct _axlListNode`, src/axl_list.c:68-72), tree items
(`struct _axlItem`, src/axl_node.c:71-117) and stack nodes through `next` / `previous`
pointers.  The model keeps the memory explicit: an address is a `Nat`, the memory maps an
address to the cell stored there, or to `none` when nothing is allocated there (never
allocated, or already freed).  Dereferencing such an address is undefined behaviour in C; in
the model it is the outcome `none`.
-/
namespace Axl

/-- A doubly linked cell: `struct _axlListNode` (src/axl_list.c:68-72).  A NULL pointer is
`none`. -/
structure Cell (α : Type) where
  prev : Option Nat
  next : Option Nat
  data : α
deriving DecidableEq, Repr

/-- The memory: address to cell.  Simplification: one memory per container; the C heap is shared
but the containers never point into one another. -/
abbrev Mem (α : Type) := Nat → Option (Cell α)

namespace Mem
variable {α : Type}

/-- Write a whole cell (used for a cell just obtained from the allocator, whose fields the C code
assigns one by one before linking it). -/
def put (m : Mem α) (a : Nat) (c : Cell α) : Mem α :=
  fun b => if b = a then some c else m b

/-- `a->next = n`.  `none` (undefined behaviour) if `a` is not an allocated cell. -/
def setNext (m : Mem α) (a : Nat) (n : Option Nat) : Option (Mem α) :=
  match m a with
  | none => none
  | some c => some (m.put a { c with next := n })

/-- `a->previous = p`.  `none` (undefined behaviour) if `a` is not an allocated cell. -/
def setPrev (m : Mem α) (a : Nat) (p : Option Nat) : Option (Mem α) :=
  match m a with
  | none => none
  | some c => some (m.put a { c with prev := p })

/-- `free (a)`.  Freeing something that is not allocated is undefined behaviour. -/
def free (m : Mem α) (a : Nat) : Option (Mem α) :=
  match m a with
  | none => none
  | some _ => some (fun b => if b = a then none else m b)

end Mem
end Axl
