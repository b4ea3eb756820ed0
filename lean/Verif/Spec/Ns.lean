/-
What a user of the namespaces relies on: the namespace of a prefix is the one in the nearest declaration.
-/
import Verif.Spec.Annotate
import Verif.Model.Lit

namespace Axl.Spec.Ns
open Spec.Tree Spec.Tree.Forest Spec.Annotate

/-- Names and values of the attributes of a node. -/
abbrev Pairs := List (List Char × List Char)

/-- The value of an attribute. -/
def valueOf (ps : Pairs) (name : List Char) : Option (List Char) := (ps.find? fun x => x.1 == name).map (·.2)

/-- The prefix of a name: what is before its first colon. -/
def prefixOf (name : List Char) : Option (List Char) :=
  if ':' ∈ name then some (name.takeWhile fun c => c != ':') else none

/-- The name without its prefix. -/
def localName (name : List Char) : List Char :=
  if ':' ∈ name then (name.dropWhile fun c => c != ':').drop 1 else name

/-- The attribute that declares a prefix, or the default namespace. -/
def declares : Option (List Char) → List Char
  | none => c!"xmlns"
  | some p => c!"xmlns:" ++ p

/-- The namespace that a prefix (`none`: no prefix) has in a node, given the node and its ancestors, the nearest first: the
one of the first of them that declares it. -/
def space (attrs : Nat → Pairs) (path : List Nat) (pre : Option (List Char)) : Option (List Char) :=
  path.findSome? fun m => valueOf (attrs m) (declares pre)

/-- The attribute is a declaration. -/
def IsDeclaration (name : List Char) : Prop := name = c!"xmlns" ∨ c!"xmlns:" <+: name

/-- The prefix of a name, if it has one, is declared. -/
def Bound (attrs : Nat → Pairs) (path : List Nat) (name : List Char) : Prop :=
  ∀ p, prefixOf name = some p → ∃ ns, space attrs path (some p) = some ns

/-- All the prefixes of a node, in its name and in its attributes, are declared. -/
def NodeBound (f : Forest) (attrs : Nat → Pairs) (path : List Nat) (n : Nat) : Prop :=
  Bound attrs path (f.name n) ∧ ∀ x ∈ attrs n, ¬ IsDeclaration x.1 → Bound attrs path x.1

/-- The node has this name in this namespace. -/
def isCalled (f : Forest) (attrs : Nat → Pairs) (path : List Nat) (n : Nat) (ns name : List Char) : Bool :=
  localName (f.name n) == name && space attrs path (prefixOf (f.name n)) == some ns

end Axl.Spec.Ns
