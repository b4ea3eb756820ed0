/-
What the usage and the help of a program have to show, said of the texts and the options only.
-/
import Verif.Model.Exarg
import Verif.Spec.Exarg

namespace Axl.Spec.Exarg
open Axl.Exarg

/-- Lines on the screen: the first where the cursor is, the others after `fill`. -/
def screen (fill : List Char) : List (List Char) → List Char
  | [] => []
  | l :: ls => l ++ ['\n'] ++ (ls.map fun l => fill ++ l ++ ['\n']).flatten

/-- `lines` is `text` cut at some of its spaces: whole when it fits, and otherwise at the first space after which the line
has `size` bytes with it. -/
structure Wraps (size : Nat) (text : List Char) (lines : List (List Char)) : Prop where
  /-- nothing is lost, added or moved -/
  whole : List.intercalate [' '] lines = text
  /-- there is a line -/
  some  : lines ≠ []
  /-- a text that fits is one line -/
  fits  : text.length ≤ size → lines = [text]
  /-- every line but the last is long enough -/
  full  : ∀ l ∈ lines.dropLast, size ≤ l.length + 1
  /-- no line goes on after a space where it was long enough -/
  early : size < text.length → ∀ l ∈ lines, ∀ a b, l = a ++ ' ' :: b → a.length + 1 < size

/-- The value an option takes, as the usage names it. -/
def valueName : Kind → List Char
  | .none => []
  | .int => c!" <number>"
  | .string => c!" <string>"

/-- An option in the usage. -/
def usageOf (o : Opt) : List Char :=
  c!" [" ++ (match o.short with
    | some s => c!"-" ++ s ++ valueName o.kind ++ c!"|"
    | none => []) ++ c!"--" ++ o.name ++ valueName o.kind ++ c!"]"

/-- The names of an option in the help. -/
def namesOf (o : Opt) : List Char :=
  match o.short with
  | some s => c!"  -" ++ s ++ c!", --" ++ o.name
  | none => c!"  --" ++ o.name

/-- The list of the options that another one needs, or that cannot be with it. -/
def namesList (title : List Char) (names : List (List Char)) : List Char :=
  c!"[" ++ title ++ c!": " ++ (names.map fun n => c!" --" ++ n).flatten ++ c!"]"

/-- What the help shows of an option: its names, spaces (up to column 33 when the names are not longer than 26 and a
short name is one byte), the description, all its lines in column 33, and below it what it needs and what it excludes. -/
def HelpOf (opts : List Opt) (o : Opt) (description : List Char) (out : List Char) : Prop :=
  ∃ spaces about needs excl, out = namesOf o ++ List.replicate spaces ' ' ++ screen (List.replicate 33 ' ') about ++ needs ++ excl ∧
    7 ≤ spaces ∧
    ((namesOf o).length ≤ 26 ∧ (∀ s, o.short = some s → s.length = 1) → (namesOf o).length + spaces = 33) ∧
    Wraps 40 description about ∧
    Below c!"depends on" o.depends needs ∧ Below c!"excludes" o.excludes excl
where
  /-- Nothing, or a list of names on lines of its own. -/
  Below (title : List Char) (places : List Nat) (out : List Char) : Prop :=
    (places = [] ∧ out = []) ∨
    (places ≠ [] ∧ ∃ names lines, names.map some = (places.map fun i => opts[i]?.map Opt.name) ∧
      Wraps 40 (namesList title names) lines ∧ out = List.replicate 35 ' ' ++ screen (List.replicate 33 ' ') lines)

/-- What the help shows of options with their descriptions, of each in turn. -/
inductive EachHelp (opts : List Opt) : List (Opt × List Char) → List (List Char) → Prop where
  | nil : EachHelp opts [] []
  | cons {o description rows out outs} : HelpOf opts o description out → EachHelp opts rows outs →
      EachHelp opts ((o, description) :: rows) (out :: outs)

end Axl.Spec.Exarg
