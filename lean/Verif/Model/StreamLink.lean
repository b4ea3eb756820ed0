/-
Model of what is linked to a stream, to be destroyed with it: `axl_stream_link`, `axl_stream_link_full`,
`axl_stream_unlink` and the part of `axl_stream_free` that is about it (src/axl_stream.c:1745-1912).

Simplifications: the list is the sequence of what was added, as `C02_always_return_1_appends` says of
`axl_list_add` with the comparison used here; there is memory for it.
-/
namespace Axl.Link

/-- `AxlStreamAssociatedData` (src/axl_stream.c:1730-1734): an element and a function, NULL or not. -/
structure Data (α φ : Type) where
  data : Option α
  destroy : Option φ
  freeOnFinish : Bool
deriving DecidableEq, Repr

/-- `elements_linked` of a stream: NULL before the first element. -/
structure Stream (α φ : Type) where
  linked : Option (List (Data α φ))
deriving DecidableEq, Repr

variable {α φ : Type}

/-- A stream that was just created (src/axl_stream.c:561-594). -/
def new : Stream α φ := ⟨none⟩

/-- `axl_stream_link_full` (src/axl_stream.c:1809-1834). -/
def linkFull (s : Stream α φ) (element : Option α) (func : Option φ) (freeOnFinish : Bool) : Stream α φ :=
  if element.isNone then s
  else if func.isNone then s
  else
    let l := s.linked.getD []
    ⟨some (l ++ [⟨element, func, freeOnFinish⟩])⟩

/-- `axl_stream_link` (src/axl_stream.c:1782-1790). -/
def link (s : Stream α φ) (element : Option α) (func : Option φ) : Stream α φ := linkFull s element func false

/-- The loop of `axl_stream_unlink` (src/axl_stream.c:1850-1859). -/
def unlinkLoop : List (Data α φ) → List (Data α φ)
  | [] => []
  | d :: ds => (if !d.freeOnFinish then { d with data := none, destroy := none } else d) :: unlinkLoop ds

/-- `axl_stream_unlink` (src/axl_stream.c:1841-1861). -/
def unlink (s : Stream α φ) : Stream α φ := ⟨s.linked.map unlinkLoop⟩

/-- `__stream_associated_data_free` (src/axl_stream.c:1745-1759): the call of the function, if there is one. -/
def dataFree (d : Data α φ) : List (φ × α) :=
  match d.destroy, d.data with
  | some f, some x => [(f, x)]
  | _, _ => []

/-- `axl_list_free` in `axl_stream_free` (src/axl_stream.c:1876-1878): the calls, in order. -/
def free (s : Stream α φ) : List (φ × α) :=
  match s.linked with
  | none => []
  | some l => l.flatMap dataFree

/-- A call of the program. -/
inductive Call (α φ : Type) where
  | link (element : Option α) (func : Option φ)
  | linkFull (element : Option α) (func : Option φ) (freeOnFinish : Bool)
  | unlink

/-- One call. -/
def step (s : Stream α φ) : Call α φ → Stream α φ
  | .link e f => link s e f
  | .linkFull e f b => linkFull s e f b
  | .unlink => unlink s

/-- A history. -/
def run (s : Stream α φ) (cs : List (Call α φ)) : Stream α φ := cs.foldl step s

end Axl.Link
