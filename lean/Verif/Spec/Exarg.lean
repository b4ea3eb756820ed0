/-
How a command line is read: its words are options, values and free arguments.
-/
import Verif.Model.Exarg

namespace Axl
namespace Spec.Exarg
open Axl.Exarg (Opt Kind)

abbrev Word := List Char

/-- `--name`, or `-x`. -/
def Dashed (w : Word) : Prop := (∃ r, w = '-' :: '-' :: r) ∨ ∃ c, w = ['-', c]

/-- `/name`, with two characters or more and no other bar. -/
def Slashed (w : Word) : Prop := ∃ r, w = '/' :: r ∧ 2 ≤ r.length ∧ '/' ∉ r

/-- The first word of one of the two forms has this form. -/
def Style (form : Word → Prop) (words : List Word) : Prop :=
  ∃ a w b, words = a ++ w :: b ∧ form w ∧ ∀ x ∈ a, ¬ Dashed x ∧ ¬ Slashed x

/-- A word that is an option: all the options of a command line have the form of the first. -/
def IsOption (words : List Word) (w : Word) : Prop :=
  (Style Dashed words ∧ Dashed w) ∨ (Style Slashed words ∧ Slashed w)

/-- The name in an option. -/
def bare : Word → Word
  | '-' :: '-' :: r => r
  | _ :: r => r
  | [] => []

/-- The names that ask for help. -/
def Reserved (a : Word) : Prop := ∃ r, a = c!"help" ++ r ∨ a = c!"?" ++ r ∨ a = c!"usage" ++ r

/-- An option of the program is called so. -/
def Called (o : Opt) (a : Word) : Prop := o.name = a ∨ o.short = some a

/-- The option of a name: the first of those installed that is called so. -/
def Names (opts : List Opt) (a : Word) (i : Nat) : Prop :=
  ∃ o, opts[i]? = some o ∧ Called o a ∧ ∀ j < i, ∀ p, opts[j]? = some p → ¬ Called p a

/-- A part of a command line: a free argument, an option, or an option and its value. -/
inductive Item where
  | free (w : Word)
  | flag (w : Word) (i : Nat)
  | valued (w : Word) (i : Nat) (v : Word)
deriving DecidableEq, Repr

def Item.words : Item → List Word
  | .free w => [w]
  | .flag w _ => [w]
  | .valued w _ v => [w, v]

def Item.opt : Item → Option Nat
  | .free _ => none
  | .flag _ i => some i
  | .valued _ i _ => some i

def Item.freeWord : Item → Option Word
  | .free w => some w
  | _ => none

/-- A part that is as it must be. -/
def Good (opts : List Opt) (words : List Word) : Item → Prop
  | .free w => ¬ IsOption words w
  | .flag w i => IsOption words w ∧ ¬ Reserved (bare w) ∧ Names opts (bare w) i ∧ ∃ o, opts[i]? = some o ∧ o.kind = .none
  | .valued w i v => IsOption words w ∧ ¬ Reserved (bare w) ∧ Names opts (bare w) i ∧ ¬ IsOption words v ∧
      ∃ o, opts[i]? = some o ∧ o.kind ≠ .none

/-- The words are these parts, and no option is given twice. -/
structure Reading (opts : List Opt) (words : List Word) (items : List Item) : Prop where
  all  : words = items.flatMap Item.words
  good : ∀ it ∈ items, Good opts words it
  once : (items.filterMap Item.opt).Nodup

/-- The option is given. -/
def Given (items : List Item) (i : Nat) : Prop := ∃ it ∈ items, it.opt = some i

/-- The free arguments. -/
def frees (items : List Item) : List Word := items.filterMap Item.freeWord

/-- Free arguments are accepted or there are none, and what is required is given. -/
def Complete (opts : List Opt) (noFree : Bool) (items : List Item) : Prop :=
  (noFree = true → frees items = []) ∧ ∀ i o, opts[i]? = some o → o.optional = false → Given items i

/-- Every option that is given has the options it depends on. -/
def Together (opts : List Opt) (items : List Item) : Prop :=
  ∀ i o, opts[i]? = some o → Given items i → ∀ d ∈ o.depends, Given items d

/-- No two options that exclude one another are given. -/
def Apart (opts : List Opt) (items : List Item) : Prop :=
  ∀ i o, opts[i]? = some o → Given items i → ∀ e ∈ o.excludes, ¬ Given items e

end Spec.Exarg
end Axl
