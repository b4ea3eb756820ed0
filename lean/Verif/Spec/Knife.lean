/-
What a command line of `axl-knife` asks for.
-/
import Verif.Spec.Exarg

namespace Axl
namespace Spec.Knife
open Axl.Exarg (Opt)
open Spec.Exarg

/-- The command line has the option. -/
def Asks (opts : List Opt) (words : List Word) (name : Word) : Prop :=
  ∃ items, Reading opts words items ∧ ∃ i, Names opts name i ∧ Given items i

/-- The command line gives this value to the option. -/
def Gives (opts : List Opt) (words : List Word) (name value : Word) : Prop :=
  ∃ items, Reading opts words items ∧ ∃ i w, Names opts name i ∧ Item.valued w i value ∈ items

/-- With `--ifnewer`, the two files are there and the output is not older than the input. -/
def Current (opts : List Opt) (time : Word → Option Nat) (words : List Word) : Prop :=
  Asks opts words c!"ifnewer" ∧ ∃ a b x y, Gives opts words c!"input" a ∧ Gives opts words c!"output" b ∧
    time a = some x ∧ time b = some y ∧ x ≤ y

/-- There is work to do. -/
def Active (opts : List Opt) (time : Word → Option Nat) (words : List Word) : Prop :=
  ¬ Asks opts words c!"version" ∧ ¬ Current opts time words

end Spec.Knife
end Axl
