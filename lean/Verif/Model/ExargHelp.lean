/-
Model of the texts that the options of a command line print: the usage and the help (knife/exarg.c), and of the functions
that define and undefine an option from the program.

Simplifications: what is printed is a string; the lists of separators of `exarg_split` and its code are those of
`axl_stream_split` (`Str.split`); `exarg_strdup_printf` gives the string printed; memory is always there.
-/
import Verif.Model.Exarg

namespace Axl
namespace Exarg
open Str hiding split

/-- The line with a word more (knife/exarg.c:821-826). -/
def addWord (line : Option (List Char)) (w : List Char) : List Char :=
  match line with
  | some l => l ++ c!" " ++ w
  | none => w

/-- The loop of `exarg_wrap_and_print` on the words left (knife/exarg.c:820-839) and the last line (841-844): what they
print.  `line`: `working_line`, `none` when NULL.  Printing NULL is undefined. -/
def wrapLoop (size : Nat) (fill : List Char) : List (List Char) → Option (List Char) → Nat → Bool → Option (List Char)
  | [], line, sum, _ =>
    if sum ≠ 0 then line.map fun l => fill ++ l ++ c!"\n" else some []
  | w :: ws, line, sum, first =>
    let l := addWord line w
    let sum := sum + w.length + 1
    if sum ≥ size then
      (wrapLoop size fill ws none 0 false).map fun out => (if first then [] else fill) ++ l ++ c!"\n" ++ out
    else wrapLoop size fill ws (some l) sum first

/-- `exarg_wrap_and_print` (knife/exarg.c:801-845): what it prints.  `exarg_split` (knife/exarg.c:339-449) is the code of
`axl_stream_split`. -/
def wrap (text : Option (List Char)) (size : Nat) (fill : List Char) : Option (List Char) :=
  match text with
  | none => some []
  | some t =>
    if t.length ≤ size then some (t ++ c!"\n")
    else do
      let words ← Str.split t [c!" "]
      wrapLoop size fill words none 0 true

/-- `__exarg_show_usage_foreach` (knife/exarg.c:847-887), the text of the option. -/
def usageItem (o : Opt) : List Char :=
  match o.kind, o.short with
  | .none, some s => c!" [-" ++ s ++ c!"|--" ++ o.name ++ c!"]"
  | .none, none => c!" [--" ++ o.name ++ c!"]"
  | .int, some s => c!" [-" ++ s ++ c!" <number>|--" ++ o.name ++ c!" <number>]"
  | .int, none => c!" [--" ++ o.name ++ c!" <number>]"
  | .string, some s => c!" [-" ++ s ++ c!" <string>|--" ++ o.name ++ c!" <string>]"
  | .string, none => c!" [--" ++ o.name ++ c!" <string>]"

/-- `__exarg_show_usage_foreach` (knife/exarg.c:847-887) on the text made before. -/
def usageNext (before : Option (List Char)) (o : Opt) : Option (List Char) :=
  match before with
  | none => some (usageItem o)
  | some s => some (s ++ usageItem o)

/-- The texts set with `exarg_add_usage_header`, `exarg_add_help_header`, `exarg_post_usage_header` and
`exarg_post_help_header` (knife/exarg.c:69-72, 1358-1402). -/
structure Headers where
  usage     : Option (List Char)
  help      : Option (List Char)
  postUsage : Option (List Char)
  postHelp  : Option (List Char)

/-- A header that is there and not empty is printed (knife/exarg.c:896-897, 918-919, 1013-1014, 1034-1035). -/
def header (h : Option (List Char)) : List Char := h.getD []

/-- `exarg_show_usage` (knife/exarg.c:891-922).  `exec`: `exarg_exec_name`. -/
def showUsage (hs : Headers) (exec : List Char) (opts : List Opt) (showHeader : Bool) : Option (List Char) := do
  let text ← wrap (opts.foldl usageNext none) 55 (List.replicate 15 ' ')
  some ((if showHeader then header hs.usage else []) ++ c!"Usage: " ++ exec ++ c!" " ++ text ++ c!"\n" ++
    (if showHeader then header hs.postUsage else []))

/-- The loop of `__exarg_build_dep_string` (knife/exarg.c:947-960): the text so far and the places of the dependencies left. -/
def depLoop (opts : List Opt) : List Char → List Nat → Option (List Char)
  | result, [] => some result
  | result, i :: is =>
    match opts[i]? with
    | none => none
    | some o => depLoop opts (result ++ c!" --" ++ o.name ++ (if is = [] then c!"]" else [])) is

/-- `__exarg_build_dep_string` (knife/exarg.c:924-964): NULL when the option has none. -/
def depString (opts : List Opt) (o : Opt) (exclude : Bool) : Option (Option (List Char)) :=
  if !exclude && o.depends = [] then some none
  else if exclude && o.excludes = [] then some none
  else (depLoop opts (if exclude then c!"[excludes: " else c!"[depends on: ") (if exclude then o.excludes else o.depends)).map some

/-- `%-<n>s`: the string and spaces up to `n` bytes (knife/exarg.c:975, 980). -/
def padTo (n : Nat) (s : List Char) : List Char := s ++ List.replicate (n - s.length) ' '

/-- The spaces and the text of the dependencies (knife/exarg.c:985-994, 998-1007). -/
def depLines (dep : Option (List Char)) : Option (List Char) :=
  match dep with
  | none => some []
  | some _ => (wrap dep 40 (List.replicate 33 ' ')).map fun out => List.replicate 35 ' ' ++ out

/-- `__exarg_show_help_foreach` (knife/exarg.c:966-1007).  `description`: the text given when the option was installed. -/
def helpItem (opts : List Opt) (o : Opt) (description : Option (List Char)) : Option (List Char) := do
  let left := match o.short with
    | some s => c!"  -" ++ s ++ c!", --" ++ padTo 18 o.name ++ c!"       "
    | none => c!"  --" ++ padTo 22 o.name ++ c!"       "
  let text ← wrap description 40 (List.replicate 33 ' ')
  let deps ← depString opts o false
  let deps ← depLines deps
  let excl ← depString opts o true
  let excl ← depLines excl
  some (left ++ text ++ deps ++ excl)

/-- The loop of `exarg_show_help` (knife/exarg.c:1021-1028) on the options left and their descriptions. -/
def helpItems (opts : List Opt) : List (Opt × Option (List Char)) → Option (List Char)
  | [] => some []
  | (o, d) :: rest => do
    let a ← helpItem opts o d
    let b ← helpItems opts rest
    some (a ++ b)

/-- `exarg_show_help` (knife/exarg.c:1009-1038). -/
def showHelp (hs : Headers) (exec : List Char) (rows : List (Opt × Option (List Char))) : Option (List Char) := do
  let usage ← showUsage hs exec (rows.map Prod.fst) false
  let items ← helpItems (rows.map Prod.fst) rows
  some (header hs.help ++ usage ++ c!"\nCommand options:\n" ++ items ++ c!"\nHelp options:\n" ++
    c!"  -?, --help                    Show this help message.\n" ++
    c!"  --usage                       Display brief usage message.\n" ++ header hs.postHelp)

/-- `exarg_basename` (knife/exarg.c:307-320): the loop from the end; `i`: `iterator`. -/
def basenameLoop (path : List Char) : Nat → Nat
  | 0 => 0
  | i + 1 =>
    match path[i]? with
    | some c => if c ≠ '/' ∧ c ≠ '\\' then basenameLoop path i else i + 1
    | none => i + 1

/-- `exarg_basename` (knife/exarg.c:307-320). -/
def basename (path : List Char) : List Char := path.drop (basenameLoop path path.length)

/-- `exarg_define` (knife/exarg.c:1820-1854).  `strtol (value, NULL, 10)` is `atoi`. -/
def define (atoi : List Char → Int) (s : State) (a : List Char) (value : Option (List Char)) : State :=
  match lookup s.opts a with
  | none => s
  | some i =>
    let s := update s i fun o => { o with defined := true }
    match value with
    | none => s
    | some v => update s i (setValue atoi v)

/-- `exarg_undef` (knife/exarg.c:1863-1895). -/
def undef (s : State) (a : List Char) : State :=
  match lookup s.opts a with
  | none => s
  | some i =>
    update s i fun o =>
      match o.kind with
      | .none => { o with defined := false }
      | .int => { o with defined := false, int := 0 }
      | .string => { o with defined := false, str := none }

/-- `exarg_disable_help` (knife/exarg.c:1342-1345): it does nothing. -/
def disableHelp (s : State) : State := s

end Exarg
end Axl
