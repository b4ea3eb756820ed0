/-
What a user of the annotations of nodes relies on.
-/
import Verif.Spec.Tree
import Verif.Model.Annotate

namespace Axl.Spec.Annotate
open Spec.Tree Spec.Tree.Forest

/-- A call that attaches data: the node, the key, the data (`none`: NULL) and the destroy
functions. -/
structure Call where
  node : Nat
  key : List Char
  data : Option Note
  keyDestroy : Option Nat := none
  dataDestroy : Option Nat := none
deriving DecidableEq

/-- Perform the calls, oldest first. -/
def run (a : Notes) : List Call → Option Notes
  | [] => some a
  | c :: cs => (a.annotate c.node c.key c.keyDestroy c.data c.dataDestroy).bind fun a => run a cs

/-- The data last attached to the node under the key; attaching NULL leaves nothing. -/
def lastOf (cs : List Call) (n : Nat) (key : List Char) : Option Note :=
  (cs.reverse.find? fun c => c.node == n && c.key == key).bind (·.data)

/-- `ps` are the ancestors of `n`, the nearest first. -/
inductive Ancestors (f : Forest) : Nat → List Nat → Prop
  | top {n} : (∀ p, f.live p = true → Child.node n ∉ f.kids p) → Ancestors f n []
  | up {n p ps} : f.live p = true → Child.node n ∈ f.kids p → Ancestors f p ps → Ancestors f n (p :: ps)

end Axl.Spec.Annotate
