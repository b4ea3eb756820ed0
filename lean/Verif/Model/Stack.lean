/-
Model of src/axl_stack.c (axlStack and axlBinaryStack).
-/
namespace Axl

/-- `struct _axlStack` (src/axl_stack.c:46-51).  `cells` is the array `stack` with its allocated
size; a cell never written is `none`, and reading it (or outside the array) is undefined behaviour.
`destroyed`: elements given to the destroy function, oldest first.
Simplification: `items` is a natural number (it never goes below 0, see `pop`). -/
structure AxlStack (α : Type) where
  cells      : List (Option α)
  size       : Nat
  items      : Nat
  hasDestroy : Bool
  destroyed  : List α

namespace AxlStack
variable {α : Type}

/-- `axl_stack_new` (src/axl_stack.c:76-88). -/
def new (hasDestroy : Bool) : AxlStack α := ⟨[], 0, 0, hasDestroy, []⟩

/-- Write a cell of the array; outside of it is undefined behaviour. -/
def write (s : AxlStack α) (i : Nat) (x : α) : Option (AxlStack α) :=
  if i < s.cells.length then some { s with cells := s.cells.set i (some x) } else none

/-- Read a cell of the array. -/
def read (s : AxlStack α) (i : Nat) : Option α := s.cells[i]?.join

/-- `axl_stack_push` (src/axl_stack.c:100-138).  `none` is the NULL pointer, which is ignored.
Simplification: allocation never fails; both the first allocation and `realloc` give an array with
one more cell. -/
def push (s : AxlStack α) (x : Option α) : Option (AxlStack α) :=
  match x with
  | none => some s
  | some x => do
    let s := if s.size = s.items then { s with cells := s.cells ++ [none], size := s.size + 1 } else s
    let s ← s.write s.items x
    some { s with items := s.items + 1 }

/-- `axl_stack_is_empty` (src/axl_stack.c:333-339). -/
def isEmpty (s : AxlStack α) : Bool := s.items == 0

/-- `axl_stack_pop` (src/axl_stack.c:148-165): the element (`none` is NULL) and the stack. -/
def pop (s : AxlStack α) : Option (Option α × AxlStack α) :=
  if s.isEmpty then some (none, s)
  else do
    let s := { s with items := s.items - 1 }
    let x ← s.read s.items
    some (some x, s)

/-- `axl_stack_peek` (src/axl_stack.c:179-190). -/
def peek (s : AxlStack α) : Option (Option α) :=
  if s.isEmpty then some none
  else do let x ← s.read (s.items - 1); some (some x)

/-- The loop of `__axl_stack_foreach_common` (src/axl_stack.c:207-220): the elements given to the
function, in order, and the result.  `stop` is the function: true stops. -/
def foreachLoop (s : AxlStack α) (stop : α → Bool) : Nat → Nat → List α → Option (Bool × List α)
  | 0, _, _ => none
  | fuel + 1, it, seen =>
    if it < s.items then do
      let x ← s.read (s.items - it - 1)
      if stop x then some (false, seen ++ [x]) else foreachLoop s stop fuel (it + 1) (seen ++ [x])
    else some (true, seen)

/-- `axl_stack_foreach` and `axl_stack_foreach3` (src/axl_stack.c:256-307). -/
def foreach (s : AxlStack α) (stop : α → Bool) : Option (Bool × List α) :=
  foreachLoop s stop (s.items + 1) 0 []

/-- `axl_stack_free` (src/axl_stack.c:346-368): the log of destroy calls. -/
def freeLoop : Nat → AxlStack α → Option (AxlStack α)
  | 0, _ => none
  | fuel + 1, s =>
    if s.isEmpty then some s
    else do
      let (x, s) ← s.pop
      freeLoop fuel { s with destroyed := s.destroyed ++ x.toList }

/-- `axl_stack_free` (src/axl_stack.c:346-368). -/
def free (s : AxlStack α) : Option (List α) :=
  if s.hasDestroy then (freeLoop (s.items + 1) s).map (·.destroyed) else some s.destroyed

end AxlStack

/-- `struct _axlBinaryStackNode` (src/axl_stack.c:372-375). -/
structure BNode where
  count : Int
  state : Bool

/-- `struct _axlBinaryStack` (src/axl_stack.c:378-383) with the memory of its nodes.  `last` and
the inner stack hold addresses of nodes; a freed or never allocated address is `none` in `heap`. -/
structure BinaryStack where
  heap  : Nat → Option BNode
  brk   : Nat
  last  : Option Nat
  stack : AxlStack Nat
  count : Int

namespace BinaryStack

/-- `axl_binary_stack_new` (src/axl_stack.c:415-427). -/
def new : BinaryStack := ⟨fun _ => none, 0, none, AxlStack.new true, 0⟩

/-- Write a node. -/
def setNode (b : BinaryStack) (a : Nat) (n : BNode) : BinaryStack :=
  { b with heap := fun i => if i = a then some n else b.heap i }

/-- The label `axl_binary_stack_push_create_and_return` (src/axl_stack.c:446-469). -/
def pushCreate (b : BinaryStack) (state : Bool) : Option BinaryStack := do
  let a := b.brk
  let b := ({ b with brk := b.brk + 1 }).setNode a ⟨1, state⟩
  let st ← b.stack.push (some a)
  some { b with last := some a, stack := st, count := b.count + 1 }

/-- `axl_binary_stack_push` (src/axl_stack.c:436-492). -/
def push (b : BinaryStack) (state : Bool) : Option BinaryStack :=
  match b.last with
  | none => b.pushCreate state
  | some a => do
    let n ← b.heap a
    if n.state = state then
      let b := b.setNode a { n with count := n.count + 1 }
      some { b with count := b.count + 1 }
    else b.pushCreate state

/-- `axl_binary_stack_push_the_same` (src/axl_stack.c:505-515). -/
def pushTheSame (b : BinaryStack) : Option BinaryStack :=
  match b.last with
  | none => some b
  | some a => do
    let n ← b.heap a
    let b := b.setNode a { n with count := n.count + 1 }
    some { b with count := b.count + 1 }

/-- `axl_binary_stack_pop` (src/axl_stack.c:528-588). -/
def pop (b : BinaryStack) : Option (Bool × BinaryStack) :=
  match b.last with
  | none => some (false, b)
  | some a => do
    let n ← b.heap a
    if n.count > 1 then
      let b := b.setNode a { n with count := n.count - 1 }
      some (n.state, { b with count := b.count - 1 })
    else if n.count = 1 then do
      let (_, st) ← b.stack.pop
      let last ← st.peek
      -- axl_free (node)
      let b := { b with heap := fun i => if i = a then none else b.heap i }
      some (n.state, { b with stack := st, last := last, count := b.count - 1 })
    else some (false, b)

/-- `axl_binary_stack_peek` (src/axl_stack.c:600-606). -/
def peek (b : BinaryStack) : Option Bool :=
  match b.last with
  | none => some false
  | some a => do let n ← b.heap a; some n.state

/-- `axl_binary_stack_is_empty` (src/axl_stack.c:617-623). -/
def isEmpty (b : BinaryStack) : Bool := b.last.isNone && b.stack.isEmpty

/-- `axl_binary_stack_size` (src/axl_stack.c:633-639). -/
def size (b : BinaryStack) : Int := b.count

end BinaryStack
end Axl
