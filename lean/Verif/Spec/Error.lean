/-
What the variables of a program that asks for errors show: nothing, an error that was reported, or
nothing that may be looked at, because the error was freed.
-/
import Verif.Model.Error

namespace Axl.Spec.Err
open Axl.Printf

/-- An error: its code and its text. -/
abbrev Error := Int × Option (List Char)

/-- How many blocks an error needs: the error and its text. -/
def blocks : Option Error → Nat
  | some (_, some _) => 2
  | some (_, none) => 1
  | none => 0

/-- The errors that were reported, in order, but those that were freed (`none`); and which of them each variable shows. -/
structure Shown where
  errors : List (Option Error)
  vars : List (Option Nat)
deriving DecidableEq, Repr

/-- A new error in a variable. -/
def Shown.report (a : Shown) (v : Nat) (e : Error) : Shown := ⟨a.errors ++ [some e], a.vars.set v (some a.errors.length)⟩

/-- The text that a format makes; none if the C library fails. -/
def textOf (L : Libc Arg) (f : Option (List Char)) (args : List Arg) : Option (List Char) :=
  match f with
  | none => none
  | some f => match L.render f args with
    | .text s => some s
    | .fail _ => none

/-- What a call means.  `none`: the error was freed before, or there is no memory for the copy of a text. -/
def step (L : Libc Arg) (a : Shown) : Err.Call Arg → Option Shown
  | .new true true c t (some v) => some (a.report v (c, t))
  | .new true false c none (some v) => some (a.report v (c, none))
  | .new true false _ (some _) (some _) => none
  | .new false _ _ _ _ => some a
  | .new _ _ _ _ none => some a
  | .report true true (some v) c f as => some (a.report v (c, textOf L f as))
  | .report true false (some v) c _ _ => some (a.report v (c, none))
  | .report false _ (some v) _ _ _ => some ⟨a.errors, a.vars.set v none⟩
  | .report _ _ none _ _ _ => some a
  | .clear v => some ⟨a.errors, a.vars.set v none⟩
  | .copy v w => some ⟨a.errors, a.vars.set v (a.vars[w]?).join⟩
  | .free v => match (a.vars[v]?).join with
    | none => some a
    | some e => match (a.errors[e]?).join with
      | some _ => some ⟨a.errors.set e none, a.vars⟩
      | none => none

/-- What a history means. -/
def run (L : Libc Arg) (a : Shown) : List (Err.Call Arg) → Option Shown
  | [] => some a
  | c :: cs => do
    let a ← step L a c
    run L a cs

/-- All variables are NULL. -/
def init (n : Nat) : Shown := ⟨[], List.replicate n none⟩

/-- What is in a variable. -/
inductive Var where
  | null
  | holds (code : Int) (text : Option (List Char))
  | freed
deriving DecidableEq, Repr

/-- What a variable shows. -/
def Shown.var (a : Shown) (v : Nat) : Var :=
  match (a.vars[v]?).join with
  | none => .null
  | some e => match (a.errors[e]?).join with
    | some (c, t) => .holds c t
    | none => .freed

/-- `axl_error_was_ok`: no error that has a text.  `none`: must not be asked. -/
def Var.ok : Var → Option Bool
  | .null => some true
  | .holds _ (some _) => some false
  | .holds _ none => some true
  | .freed => none

/-- `axl_error_get_code`. -/
def Var.code : Var → Option Int
  | .null => some (-1)
  | .holds c _ => some c
  | .freed => none

/-- `axl_error_get`: the text, NULL (`some none`), or not to be asked (`none`). -/
def Var.text : Var → Option (Option (List Char))
  | .null => some (some "no string error defined".toList)
  | .holds _ t => some t
  | .freed => none

/-- A call names variables of the program. -/
def Known (n : Nat) : Err.Call Arg → Prop
  | .new _ _ _ _ (some v) => v < n
  | .report _ _ (some v) _ _ _ => v < n
  | .free v => v < n
  | .clear v => v < n
  | .copy v w => v < n ∧ w < n
  | _ => True

end Axl.Spec.Err
