/-
Model of src/axl_error.c: errors that are reported, asked for and freed.

A block of memory is a structure `axlError` or a string.  A block is given back once; an address is not
used again, which a program that does not look at what was freed cannot see.

Simplifications: `axl_error_new` is called without a stream; the memory for the structure may not be
there (`mem`), and that for the string may not be there (`str`; without `vasprintf` it always is); what the C library makes of a format is a parameter
(`Printf.Libc`), and `axl_stream_strdup_printfv` is built with `vasprintf` or without it (`has`).
-/
import Verif.Model.Printf

namespace Axl.Err
open Str Printf

/-- A block: a string with its end, or `struct _axlError` (src/axl_error.c:41-45). -/
inductive Cell where
  | str (memory : List Char)
  | err (code : Int) (error : Option Nat) (defined : Int)
deriving DecidableEq, Repr

/-- The memory and the variables of the program, which are pointers to `axlError`. -/
structure St where
  cells : List (Option Cell)
  vars : List (Option Nat)
deriving DecidableEq, Repr

/-- `axl_new`, `axl_strdup`: a new block. -/
def alloc (s : St) (c : Cell) : St × Nat := ({ s with cells := s.cells ++ [some c] }, s.cells.length)

/-- What is behind a pointer; a block that was given back must not be looked at. -/
def load (s : St) (p : Nat) : Option Cell := (s.cells[p]?).join

/-- `axl_free` of a pointer: NULL is left alone, a block is given back, and not twice. -/
def freeBlock (s : St) : Option Nat → Option St
  | none => some s
  | some p => do
    let _ ← load s p
    some { s with cells := s.cells.set p none }

/-- `* _error = p`. -/
def store (s : St) (v : Nat) (p : Option Nat) : St := { s with vars := s.vars.set v p }

/-- The number that marks an error that is defined (src/axl_error.c:154, 224). -/
def magic : Int := -346715

/-- `axl_strdup` (src/axl_stream.c:3503-3506, 2364-2378): the copy is written without a look at the pointer that
`axl_new` gave. -/
def strdup (s : St) (str : Bool) : Option (List Char) → Option (St × Option Nat)
  | none => some (s, none)
  | some t =>
    if str then let (s, q) := alloc s (.str (t ++ [NUL])); some (s, some q)
    else none

/-- `axl_error_new` without a stream (src/axl_error.c:139-177). -/
def new (s : St) (mem str : Bool) (code : Int) (text : Option (List Char)) (out : Option Nat) : Option St :=
  match out with
  | none => some s
  | some v =>
    if !mem then some s
    else do
      let (s, q) ← strdup s str text
      let (s, p) := alloc s (.err code q magic)
      some (store s v (some p))

/-- The C library when `vasprintf` finds no memory: it fails as with a format that it cannot use. -/
def exhausted (L : Libc Arg) : Libc Arg := { L with render := fun _ _ => .fail [] }

/-- `axl_error_report` (src/axl_error.c:195-231). -/
def report (has : Bool) (L : Libc Arg) (s : St) (mem str : Bool) (out : Option Nat) (code : Int) (format : Option (List Char))
    (args : List Arg) : Option St :=
  match out with
  | none => some s
  | some v => do
    let (s, string) ← match ← strdupPrintfv has (if str || !has then L else exhausted L) format (some args) with
      | .null => some (s, none)
      | .block b => let (s, q) := alloc s (.str b); some (s, some q)
      | .wild => none
    if !mem then do
      let s ← freeBlock s string
      some (store s v none)
    else
      let (s, p) := alloc s (.err code string magic)
      some (store s v (some p))

/-- The structure behind a pointer. -/
def loadErr (s : St) (p : Nat) : Option (Int × Option Nat × Int) :=
  match load s p with
  | some (.err c e d) => some (c, e, d)
  | _ => none

/-- `axl_error_was_ok` (src/axl_error.c:250-258) of the variable `v`; `none`: undefined behaviour. -/
def wasOk (s : St) (v : Nat) : Option Bool := do
  match ← s.vars[v]? with
  | none => some true
  | some p =>
    let (_, e, d) ← loadErr s p
    some (e.isNone || d != magic)

/-- `axl_error_get_code` (src/axl_error.c:272-278). -/
def getCode (s : St) (v : Nat) : Option Int := do
  match ← s.vars[v]? with
  | none => some (-1)
  | some p =>
    let (c, _, _) ← loadErr s p
    some c

/-- `axl_error_get` (src/axl_error.c:292-299): NULL, or the memory that the pointer given points to. -/
def get (s : St) (v : Nat) : Option (Option (List Char)) := do
  match ← s.vars[v]? with
  | none => some (some ("no string error defined".toList ++ [NUL]))
  | some p =>
    let (_, e, _) ← loadErr s p
    match e with
    | none => some none
    | some q => match load s q with
      | some (.str m) => some (some m)
      | _ => none

/-- `axl_error_free` (src/axl_error.c:307-319). -/
def free (s : St) (v : Nat) : Option St := do
  match ← s.vars[v]? with
  | none => some s
  | some p =>
    let (_, e, _) ← loadErr s p
    let s ← freeBlock s e
    freeBlock s (some p)

/-- The calls of a program.  `clear` is `v = NULL` in the program, `copy` is `v = w`. -/
inductive Call (Arg : Type) where
  | new (mem str : Bool) (code : Int) (text : Option (List Char)) (out : Option Nat)
  | report (mem str : Bool) (out : Option Nat) (code : Int) (format : Option (List Char)) (args : List Arg)
  | free (v : Nat)
  | clear (v : Nat)
  | copy (v w : Nat)

/-- One call. -/
def step (has : Bool) (L : Libc Arg) (s : St) : Call Arg → Option St
  | .new mem str c t o => new s mem str c t o
  | .report mem str o c f as => report has L s mem str o c f as
  | .free v => free s v
  | .clear v => some (store s v none)
  | .copy v w => do
    let p ← s.vars[w]?
    some (store s v p)

/-- A history of calls. -/
def run (has : Bool) (L : Libc Arg) (s : St) : List (Call Arg) → Option St
  | [] => some s
  | c :: cs => do
    let s ← step has L s c
    run has L s cs

/-- A program with `n` variables, all NULL, before its first call. -/
def init (n : Nat) : St := ⟨[], List.replicate n none⟩

/-- How many blocks are in use. -/
def St.blocks (s : St) : Nat := s.cells.countP Option.isSome

end Axl.Err
