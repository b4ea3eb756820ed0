/-
Model of the options of a command line (knife/exarg.c), as `axl-knife` uses them.

Simplifications: the global variables of exarg are a state; the nodes of the options are in a list, where they are never
moved, and a pointer to a node is its place in it; `memcmp` with a longer constant string stops at the first difference (the
constants have no NUL, so it is found at the NUL of the argument or before); texts printed are not modelled but for being
printed; `atoi` is a parameter; strings have no NUL and no pointer given is NULL, but for a short name.
-/
import Verif.Model.Str
import Verif.Model.Lit

namespace Axl
namespace Exarg
open Str

/-- `ExArgType` (knife/exarg.h:54-91). -/
inductive Kind where
  | none
  | int
  | string
deriving DecidableEq, Repr

/-- `struct _ExArgNodeOption` (knife/exarg.c:202-257).  `depends` and `excludes`: places in the list of options. -/
structure Opt where
  name     : List Char
  short    : Option (List Char)
  kind     : Kind
  str      : Option (List Char)
  int      : Int
  defined  : Bool
  optional : Bool
  depends  : List Nat
  excludes : List Nat
deriving DecidableEq, Repr

/-- `ExArgParseMode` (knife/exarg.c:77-94). -/
inductive Mode where
  | unix
  | windows
deriving DecidableEq, Repr

/-- The global variables (knife/exarg.c:68-99): `argument_options`, `params`, `parse_mode` (`none`: not defined) and
`__exarg_disable_free_args`. -/
structure State where
  opts   : List Opt
  params : List (List Char)
  mode   : Option Mode
  noFree : Bool
deriving DecidableEq, Repr

/-- The state of a program that begins. -/
def start : State := ⟨[], [], none, false⟩

/-- Why the program ends. -/
inductive Why where
  | help | usage | free | unknown | again | noValue | required | dependency | installed | itself | missing | kind
deriving DecidableEq, Repr

/-- The code of the end (knife/exarg.c:118, 1199, 1206, 1047, 1055). -/
def Why.code : Why → Int
  | .help => 0
  | .usage => 0
  | _ => -1

/-- What a call does: it returns, `exit` is called or it has undefined behaviour. -/
inductive Out (α : Type) where
  | ok (a : α)
  | exit (why : Why)
  | ub
deriving DecidableEq, Repr

def Out.bind {α β : Type} : Out α → (α → Out β) → Out β
  | .ok a, f => f a
  | .exit w, _ => .exit w
  | .ub, _ => .ub

instance : Monad Out where
  pure := .ok
  bind := Out.bind

/-- A node has this name, in the long or the short form (knife/exarg.c:702-716). -/
def named (a : List Char) (o : Opt) : Bool := o.name = a || o.short = some a

/-- `exarg_lookup_node` (knife/exarg.c:685-726): the first node with the name. -/
def lookup (opts : List Opt) (a : List Char) : Option Nat := opts.findIdx? (named a)

/-- A change to a node. -/
def update (s : State) (i : Nat) (f : Opt → Opt) : State := { s with opts := s.opts.modify i f }

/-- `!memcmp (argument, "--", 2)` or a dash and one byte (knife/exarg.c:737, 745). -/
def dashed (w : List Char) : Bool := w.take 2 = c!"--" || (w.length = 2 && w.head? = some '-')

/-- A bar and two bytes or more, without more bars (knife/exarg.c:754-762). -/
def slashed (w : List Char) : Bool := w.length > 2 && w.head? = some '/' && !(w.drop 1).contains '/'

/-- `exarg_is_argument` (knife/exarg.c:731-774). -/
def isArgument (s : State) (w : List Char) : Bool × State :=
  if (s.mode = none ∨ s.mode = some .unix) ∧ dashed w then (true, { s with mode := some .unix })
  else if (s.mode = none ∨ s.mode = some .windows) ∧ slashed w then (true, { s with mode := some .windows })
  else (false, s)

/-- `exarg_get_argument` (knife/exarg.c:776-792). -/
def getArgument (w : List Char) : Option (List Char) :=
  if w.take 2 = c!"--" then some (w.drop 2)
  else if w.length = 2 ∧ w.head? = some '-' then some (w.drop 1)
  else if w.length > 2 ∧ w.head? = some '/' then some (w.drop 1)
  else none

/-- `exarg_check_help_argument` (knife/exarg.c:794-799). -/
def isHelp (a : List Char) : Bool := a.take 4 = c!"help" || a.take 1 = c!"?"

/-- `!memcmp (argument, "usage", 5)` (knife/exarg.c:1203). -/
def isUsage (a : List Char) : Bool := a.take 5 = c!"usage"

/-- The value of a node (knife/exarg.c:1232, 1239). -/
def setValue (atoi : List Char → Int) (v : List Char) (o : Opt) : Opt :=
  match o.kind with
  | .none => o
  | .int => { o with int := atoi v }
  | .string => { o with str := some v }

/-- The loop of `exarg_parse` (knife/exarg.c:1176-1247), on the arguments left.  The value of an option is checked by
`exarg_check_argument_value` (knife/exarg.c:1040-1059); `argv[argc]` is NULL. -/
def loop (atoi : List Char → Int) : State → List (List Char) → Out State
  | s, [] => .ok s
  | s, w :: ws =>
    if !(isArgument s w).1 then
      if s.noFree then .exit .free
      else loop atoi { (isArgument s w).2 with params := s.params ++ [w] } ws
    else
      match getArgument w with
      | none => .ub
      | some a =>
        if isHelp a then .exit .help
        else if isUsage a then .exit .usage
        else
          match lookup s.opts a with
          | none => .exit .unknown
          | some i =>
            match s.opts[i]? with
            | none => .ub
            | some o =>
              if o.defined then .exit .again
              else
                match o.kind, ws with
                | .none, ws => loop atoi (update (isArgument s w).2 i fun o => { o with defined := true }) ws
                | _, [] => .exit .noValue
                | _, v :: ws =>
                  let s := update (isArgument s w).2 i fun o => { o with defined := true }
                  if (isArgument s v).1 then .exit .noValue
                  else loop atoi (update (isArgument s v).2 i (setValue atoi v)) ws

/-- `__exarg_parse_check_non_optional` (knife/exarg.c:1062-1080). -/
def checkRequired (s : State) : Out Unit :=
  if s.opts.any fun o => !o.optional && !o.defined then .exit .required else .ok ()

/-- A node that is referred to is defined. -/
def definedAt (opts : List Opt) (i : Nat) : Out Bool :=
  match opts[i]? with
  | none => .ub
  | some o => .ok o.defined

/-- The dependencies of a node (knife/exarg.c:1101-1114). -/
def depsOk (opts : List Opt) : List Nat → Out Unit
  | [] => .ok ()
  | i :: is => do
    let d ← definedAt opts i
    if d then depsOk opts is else .exit .dependency

/-- The exclusions of a node (knife/exarg.c:1117-1131): whether one is defined. -/
def excluded (opts : List Opt) : List Nat → Out Bool
  | [] => .ok false
  | i :: is => do
    let d ← definedAt opts i
    if d then .ok true else excluded opts is

/-- `__exarg_parse_check_depends` (knife/exarg.c:1082-1138), on the nodes left: whether the message of an exclusion was
printed, where the function returns. -/
def checkDepends (opts : List Opt) : List Opt → Out Bool
  | [] => .ok false
  | o :: os =>
    if !o.defined then checkDepends opts os
    else do
      depsOk opts o.depends
      let e ← excluded opts o.excludes
      if e then .ok true else checkDepends opts os

/-- `exarg_parse` (knife/exarg.c:1157-1258), on the arguments after the name of the program: the state, and whether the
message of an exclusion was printed. -/
def parse (atoi : List Char → Int) (s : State) (ws : List (List Char)) : Out (State × Bool) :=
  if ws = [] then do
    checkRequired s
    pure (s, false)
  else do
    let s ← loop atoi s ws
    checkRequired s
    let said ← checkDepends s.opts s.opts
    pure (s, said)

/-- A node for a new option (knife/exarg.c:1525-1530). -/
def newOpt (name : List Char) (short : Option (List Char)) (kind : Kind) : Opt :=
  ⟨name, short, kind, none, 0, false, true, [], []⟩

/-- `__exarg_check_short_arg` (knife/exarg.c:1410-1422): the new short name is the beginning of one installed. -/
def shortTaken (sh : List Char) (o : Opt) : Bool :=
  match o.short with
  | none => false
  | some t => sh.isPrefixOf t

/-- The check of the short name against all the nodes (knife/exarg.c:1508-1521). -/
def shortClash (opts : List Opt) : Option (List Char) → Bool
  | none => false
  | some sh => opts.any (shortTaken sh)

/-- `exarg_install_arg` (knife/exarg.c:1493-1548). -/
def install (s : State) (name : List Char) (short : Option (List Char)) (kind : Kind) : Out State :=
  if (lookup s.opts name).isSome then .exit .installed
  else if shortClash s.opts short then .exit .installed
  else .ok { s with opts := s.opts ++ [newOpt name short kind] }

/-- `exarg_add_dependency` (knife/exarg.c:1638-1680). -/
def addDependency (s : State) (a b : List Char) : Out State :=
  if a = b then .exit .itself
  else
    match lookup s.opts a, lookup s.opts b with
    | some i, some j => .ok (update s i fun o => { o with depends := j :: o.depends })
    | _, _ => .exit .missing

/-- `exarg_add_exclusion` (knife/exarg.c:1697-1741). -/
def addExclusion (s : State) (a b : List Char) : Out State :=
  if a = b then .exit .itself
  else
    match lookup s.opts a, lookup s.opts b with
    | some i, some j => .ok (update s i fun o => { o with excludes := j :: o.excludes })
    | _, _ => .exit .missing

/-- `exarg_set_obligatory` (knife/exarg.c:1753-1770). -/
def setObligatory (s : State) (a : List Char) : State :=
  match lookup s.opts a with
  | none => s
  | some i => update s i fun o => { o with optional := false }

/-- `exarg_accept_free_args` (knife/exarg.c:1792-1798). -/
def acceptFree (s : State) (accept : Bool) : State := { s with noFree := !accept }

/-- `exarg_is_defined` (knife/exarg.c:1911-1927). -/
def isDefined (s : State) (a : List Char) : Bool :=
  match lookup s.opts a with
  | none => false
  | some i =>
    match s.opts[i]? with
    | none => false
    | some o => o.defined

/-- `exarg_get_string` (knife/exarg.c:1992-2013). -/
def getString (s : State) (a : List Char) : Out (Option (List Char)) :=
  if s.opts = [] then .ok none
  else
    match lookup s.opts a with
    | none => .exit .missing
    | some i =>
      match s.opts[i]? with
      | none => .ub
      | some o => if o.kind ≠ .string then .exit .kind else .ok o.str

/-- `exarg_get_int` (knife/exarg.c:2047-2068). -/
def getInt (s : State) (a : List Char) : Out Int :=
  if s.opts = [] then .ok (-1)
  else
    match lookup s.opts a with
    | none => .exit .missing
    | some i =>
      match s.opts[i]? with
      | none => .ub
      | some o => if o.kind ≠ .int then .exit .kind else .ok o.int

/-- A call before `exarg_parse`. -/
inductive Setup where
  | install (name : List Char) (short : Option (List Char)) (kind : Kind)
  | dependency (a b : List Char)
  | exclusion (a b : List Char)
  | obligatory (a : List Char)
  | free (accept : Bool)

/-- One call. -/
def setup (s : State) : Setup → Out State
  | .install name short kind => install s name short kind
  | .dependency a b => addDependency s a b
  | .exclusion a b => addExclusion s a b
  | .obligatory a => .ok (setObligatory s a)
  | .free accept => .ok (acceptFree s accept)

/-- Calls one after another. -/
def setups (s : State) : List Setup → Out State
  | [] => .ok s
  | c :: cs => do
    let s ← setup s c
    setups s cs

end Exarg
end Axl
