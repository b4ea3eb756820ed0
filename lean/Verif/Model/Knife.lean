/-
Model of `main` of `axl-knife` (knife/axl-knife.c).

Simplifications: what is printed or written is a list of what was done; the files are given by `Files`, and do not change
while the program runs; the options of the log and the process id are left out; writing does not fail.
-/
import Verif.Model.Exarg

namespace Axl
namespace Knife
open Exarg

/-- The options (knife/axl-knife.c:704-749). -/
def options : List Setup :=
  [.install c!"version" (some c!"v") .none, .install c!"input" (some c!"i") .string, .install c!"output" (some c!"o") .string,
    .install c!"ifnewer" (some c!"n") .none, .install c!"htmlize" (some c!"e") .none,
    .install c!"htmlize-skip-first-enter-for-content" (some c!"r") .none, .install c!"pre-class" (some c!"p") .string,
    .install c!"enable-log" (some c!"l") .none, .install c!"enable-log-color" (some c!"g") .none,
    .install c!"dtd-to-c" none .none, .install c!"check-xml" (some c!"c") .none,
    .dependency c!"htmlize" c!"input", .dependency c!"pre-class" c!"htmlize", .dependency c!"dtd-to-c" c!"input",
    .dependency c!"check-xml" c!"input", .dependency c!"ifnewer" c!"input", .dependency c!"ifnewer" c!"output",
    .exclusion c!"htmlize" c!"dtd-to-c"]

/-- What is in the files: the time of the last change (`none`: `stat` fails), whether `axl_doc_parse_from_file` gives a
document and whether `axl_dtd_parse_from_file` gives a DTD. -/
structure Files where
  time : List Char → Option Nat
  doc  : List Char → Bool
  dtd  : List Char → Bool

/-- What the program does. -/
inductive Did where
  | excludes                   -- the message of `__exarg_parse_check_depends`
  | version
  | nothing                    -- "no action was defined.."
  | failed (path : List Char)  -- "Failed to open document", "unable to translate document into C"
  | loaded (path : List Char)  -- "document loaded properly"
  | page (path : List Char)    -- `axl_knife_htmlize`
  | header (path : List Char)  -- `axl_knife_dtd_to_c`
  | good                       -- "document is OK"
deriving DecidableEq, Repr

/-- `axl_knife_file_test (path, FILE_EXISTS)` (knife/axl-knife.c:847-905). -/
def fileExists (f : Files) : Option (List Char) → Bool
  | none => false
  | some p => (f.time p).isSome

/-- `axl_knife_check_if_newer` (knife/axl-knife.c:670-682). -/
def checkIfNewer (f : Files) (a b : Option (List Char)) : Bool :=
  match a, b with
  | some a, some b =>
    match f.time a, f.time b with
    | some x, some y => x > y
    | _, _ => false
  | _, _ => false

/-- What is asked to be done, on the document, that is `none` if it was not loaded (knife/axl-knife.c:807-820).  The page of no
document is undefined behaviour. -/
def process (f : Files) (s : State) (input : Option (List Char)) (doc : Option (List Char)) : Out (List Did) :=
  if isDefined s c!"htmlize" then
    match doc with
    | none => .ub
    | some p => .ok [.page p]
  else if isDefined s c!"dtd-to-c" then
    match input with
    | none => .ub
    | some p => .ok [if f.dtd p then .header p else .failed p]
  else if isDefined s c!"check-xml" then .ok [.good]
  else .ok []

/-- The document is loaded and processed (knife/axl-knife.c:790-820). -/
def work (f : Files) (s : State) (input : Option (List Char)) : Out (List Did) :=
  if isDefined s c!"dtd-to-c" then process f s input none
  else if isDefined s c!"input" then
    match input with
    | none => .ub
    | some p => if f.doc p then (do let r ← process f s input (some p); pure (.loaded p :: r)) else .ok [.failed p]
  else process f s input none

/-- With `--ifnewer`, the output is there and the input is not newer (knife/axl-knife.c:762-771). -/
def upToDate (f : Files) (s : State) (input output : Option (List Char)) : Bool :=
  isDefined s c!"ifnewer" && (fileExists f input && fileExists f output && !checkIfNewer f input output)

/-- `main` after `exarg_parse` (knife/axl-knife.c:757-834): what is done and the status. -/
def after (f : Files) (versionLength : Nat) (s : State) : Out (List Did × Int) :=
  if isDefined s c!"version" then .ok ([.version], (versionLength : Int) + 1)
  else do
    let input ← getString s c!"input"
    let output ← getString s c!"output"
    if upToDate f s input output then pure ([], 0)
    else if !isDefined s c!"htmlize" && !isDefined s c!"check-xml" && !isDefined s c!"dtd-to-c" then pure ([.nothing], 0)
    else do
      let r ← work f s input
      pure (r, 0)

/-- `main` (knife/axl-knife.c:684-834), on the arguments after the name of the program. -/
def run (atoi : List Char → Int) (f : Files) (versionLength : Nat) (words : List (List Char)) : Out (List Did × Int) := do
  let s ← setups start options
  let (s, said) ← parse atoi s words
  let (r, status) ← after f versionLength s
  pure ((if said then [.excludes] else []) ++ r, status)

end Knife
end Axl
