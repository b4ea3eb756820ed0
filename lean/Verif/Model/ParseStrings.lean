/-
Model of the functions that parse a text given in pieces or by a format: `axl_doc_parse_strings`
(src/axl_doc.c), `axl_node_parse_strings` and `axl_node_parse` (src/axl_node.c).

The strings that these functions make and free are kept apart from the blocks of the parse
(`Blocks.World`): the parse copies the text it is given.  The arguments are a list that ends with
NULL; reading behind the end of the list is undefined behaviour.
-/
import Verif.Model.ParseMem
import Verif.Model.Printf

namespace Axl.ParseStrings
open Str Blocks

/-- The strings that were allocated and not freed: their number and their memory. -/
structure Strings where
  next : Nat
  live : List (Nat × List Char)
deriving DecidableEq, Repr

namespace Strings

/-- No string. -/
def empty : Strings := ⟨0, []⟩

/-- One more string. -/
def alloc (h : Strings) (m : List Char) : Strings × Nat := (⟨h.next + 1, (h.next, m) :: h.live⟩, h.next)

/-- The memory of a string that was not freed. -/
def read (h : Strings) (id : Nat) : Option (List Char) := (h.live.find? fun x => x.1 == id).map (·.2)

/-- `axl_free`. -/
def free (h : Strings) (id : Nat) : Option Strings := do
  let _ ← h.read id
  some { h with live := h.live.filter fun x => x.1 != id }

/-- `axl_free`, of NULL too. -/
def freeOpt (h : Strings) : Option Nat → Option Strings
  | none => some h
  | some id => h.free id

end Strings

/-- `axl_strdup` (src/axl_stream.c:2364-2378) of a string that is not NULL. -/
def strdup (m : List Char) : Option (List Char) := do
  let n ← strlen m
  some (m.take n ++ [NUL])

/-- `axl_stream_concat` (src/axl_stream.c:3180-3222) over memory: NULL for two NULL. -/
def concat : Option (List Char) → Option (List Char) → Option (Option (List Char))
  | none, none => some none
  | none, some b => (strdup b).map some
  | some a, none => (strdup a).map some
  | some a, some b => do
    let n ← strlen a
    let m ← strlen b
    some (some (a.take n ++ b.take m ++ [NUL]))

/-- The loop over the arguments (src/axl_doc.c:1980-1987, src/axl_node.c:639-646). -/
def joinLoop (h : Strings) (stream : Option Nat) : List (Option (List Char)) → Option (Strings × Option Nat)
  | [] => none
  | none :: _ => some (h, stream)
  | some string :: args => do
    let m ← match stream with
      | none => some none
      | some id => (h.read id).map some
    match ← concat m (some string) with
    | none => joinLoop h none args
    | some r => do
      let (h, id) := h.alloc r
      let h ← h.freeOpt stream
      joinLoop h (some id) args

/-- `axl_doc_parse (stream, -1, error)` and the release of the string given (src/axl_doc.c:2000-2003,
src/axl_node.c:659-667, 727-738). -/
def parseAndFree (h : Strings) (stream : Option Nat) (w : World) : Out (Bool × Strings) :=
  match stream with
  | none =>
    match docParse none (-1) w with
    | .ret ok w => .ret (ok, h) w
    | .ub => .ub
    | .loop => .loop
  | some id =>
    match h.read id with
    | none => .ub
    | some m =>
      match docParse (some m) (-1) w with
      | .ret ok w =>
        match h.free id with
        | some h => .ret (ok, h) w
        | none => .ub
      | .ub => .ub
      | .loop => .loop

/-- `axl_doc_parse_strings` (src/axl_doc.c:1965-2006).  `ask`: the caller gave where to store an error. -/
def docParseStrings (ask : Bool) (args : List (Option (List Char))) : Out (Bool × Strings) :=
  if !ask then .ret (false, .empty) (World.start ask)
  else
    match joinLoop .empty none args with
    | none => .ub
    | some (h, none) => .ret (false, h) (World.start ask)
    | some (h, some id) => parseAndFree h (some id) (World.start ask)

/-- The document with its root taken out (`axl_node_deattach`, src/axl_node.c:3569-3579, of a root). -/
def takeRoot (w : World) : Option (Node × World) := do
  let d ← w.doc
  let root ← d.st.root
  some (root, { w with doc := some { d with st := { d.st with root := none } } })

/-- The end of `axl_node_parse_strings` and of `axl_node_parse` (src/axl_node.c:669-678, 740-749): the
root, taken out of the document, which is kept with it. -/
def rootOf : Out (Bool × Strings) → Out (Option Node × Strings)
  | .ret (false, h) w => .ret (none, h) w
  | .ret (true, h) w =>
    match takeRoot w with
    | some (root, w) => .ret (some root, h) w
    | none => .ub
  | .ub => .ub
  | .loop => .loop

/-- `axl_node_parse_strings` (src/axl_node.c:624-679). -/
def nodeParseStrings (ask : Bool) (args : List (Option (List Char))) : Out (Option Node × Strings) :=
  rootOf (docParseStrings ask args)

/-- `axl_node_parse` (src/axl_node.c:708-750), built with `vasprintf` or without it. -/
def nodeParse {Arg : Type} (has ask : Bool) (L : Printf.Libc Arg) (content : Option (List Char)) (args : List Arg) :
    Out (Option Node × Strings) :=
  match Printf.strdupPrintfv has L content (some args) with
  | none => .ub
  | some .wild => .ub
  | some .null => rootOf (parseAndFree .empty none (World.start ask))
  | some (.block b) =>
    let (h, id) := Strings.empty.alloc b
    rootOf (parseAndFree h (some id) (World.start ask))

end Axl.ParseStrings
