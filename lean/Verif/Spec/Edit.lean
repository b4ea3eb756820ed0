/-
What a program that edits a document expects: the names, the values of the attributes and the texts that the document has, as they are
stored, and what the calls of `Spec/Build.lean` do to them.
-/
import Verif.Spec.Build
import Verif.Model.Load

namespace Axl.Spec.Edit
open Spec.Tree Spec.Build

/-- The attributes after a removal.  When ten of eleven are left, the library writes them again, and their names and values are encoded
once more (`C22_value_encoded_again_at_ten`). -/
def removed (l : List (List Char × List Char)) (k : List Char) : List (List Char × List Char) :=
  if l.length = 11 ∧ k ∈ l.map (·.1) then
    ((l.filter (·.1 != k)).filter (·.1 != [])).map fun p => (Attr.encode p.1, Attr.encode p.2)
  else l.filter (·.1 != k)

/-- What a call does to the strings that are stored: a string that is given is stored with its special characters as entities. -/
def step (s : State) : Call → State
  | .tree op => { s with forest := s.forest.step op }
  | .copy n attributes childs => Call.step s (.copy n attributes childs)
  | .content p x => s.setKids p (s.forest.kids p ++ [.text .content (Attr.encode x)])
  | .cdata p x => s.setKids p (s.forest.kids p ++ [.text .cdata (Attr.encode x)])
  | .setAttr n k v =>
    if k = [] ∨ (s.attrs n).any (·.1 == Attr.encode k) then s else s.setAttrs n ((Attr.encode k, Attr.encode v) :: s.attrs n)
  | .removeAttr n k => s.setAttrs n (removed (s.attrs n) k)
  | .trimAttr n k => s.setAttrs n (trimPair k (s.attrs n))

def run (s : State) : List Call → State
  | [] => s
  | c :: cs => run (step s c) cs

/-- Not `axl_node_copy`, which is a call of its own here. -/
def notCopy : Tree.Op → Bool
  | .copy _ _ => false
  | _ => true

/-- The nodes that are named exist, and nodes are placed only where the tree stays a tree. -/
def fits (s : State) : Call → Bool
  | .tree op => notCopy op && s.forest.fits op
  | .copy n _ _ => s.forest.live n
  | .content p _ => s.forest.live p
  | .cdata p _ => s.forest.live p
  | .setAttr n _ _ => s.forest.live n
  | .removeAttr n _ => s.forest.live n
  | .trimAttr n _ => s.forest.live n

def Fits (s : State) : List Call → Bool
  | [] => true
  | c :: cs => fits s c && Fits (step s c) cs

/-- Strings without a terminator inside, and no section with its own end mark. -/
def StringsOk : Call → Prop
  | .setAttr _ k v => Char.ofNat 0 ∉ k ∧ Char.ofNat 0 ∉ v
  | .removeAttr _ k => Char.ofNat 0 ∉ k
  | .trimAttr _ _ => True
  | .content _ s => Char.ofNat 0 ∉ s
  | .cdata _ s => Char.ofNat 0 ∉ s ∧ Escape.NoCdataEnd s
  | .tree _ => True
  | .copy _ _ _ => True

/-- The document that was read, with these attributes. -/
def start (d : Doc) (attrs : Nat → List (List Char × List Char)) : State := ⟨Forest.empty.run (Load.root d), attrs⟩

end Axl.Spec.Edit
