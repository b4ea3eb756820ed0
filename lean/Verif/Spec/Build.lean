/-
What a program that builds a document expects: the names, the values of the attributes and the texts are the strings that it gave.

Here a text is the string given by the program, not the one that is stored or written.
-/
import Verif.Spec.Tree
import Verif.Spec.Attr
import Verif.Spec.RoundTrip
import Verif.Model.Build

namespace Axl.Spec.Build
open Spec.Tree Spec.RoundTrip Spec.Xml

inductive Call where
  /-- a call that makes, moves, replaces or frees nodes and items; the text, if any, is a comment or an instruction -/
  | tree (op : Tree.Op)
  /-- axl_node_copy (n, attributes, childs) -/
  | copy (n : Nat) (attributes childs : Bool)
  /-- axl_node_set_content (p, s, -1) -/
  | content (p : Nat) (s : List Char)
  /-- axl_node_set_cdata_content (p, s, -1) -/
  | cdata (p : Nat) (s : List Char)
  /-- axl_node_set_attribute (n, name, value) -/
  | setAttr (n : Nat) (name value : List Char)
  /-- axl_node_remove_attribute (n, name) -/
  | removeAttr (n : Nat) (name : List Char)
  /-- axl_node_get_attribute_value_trimmed (n, name): trims the value where it is stored (`C22_trimmed_lookup_changes_document`) -/
  | trimAttr (n : Nat) (name : List Char)

/-- The node, a comment or an instruction. -/
def noText : Child → Bool
  | .text .content _ => false
  | .text .cdata _ => false
  | _ => true

/-- Not a copy, which is a call of its own here, and not a text that has to be escaped. -/
def plainOp : Tree.Op → Bool
  | .copy _ _ => false
  | .setChild _ v => noText v
  | .setAfter _ _ v => noText v
  | .setChildRef _ v => noText v
  | .replaceItem _ _ v _ => noText v
  | _ => true

/-- What the program has made: the nodes, with the strings that were given, and the attributes of each node, each name with the value
that was given. -/
structure State where
  forest : Forest
  attrs  : Nat → List (List Char × List Char)

namespace State

def empty : State := ⟨Forest.empty, fun _ => []⟩

/-- The value of an attribute. -/
def value (s : State) (n : Nat) (k : List Char) : Option (List Char) := ((s.attrs n).find? (·.1 == k)).map (·.2)

def setKids (s : State) (p : Nat) (l : List Child) : State := { s with forest := s.forest.setKids p l }

def setAttrs (s : State) (n : Nat) (l : List (List Char × List Char)) : State :=
  { s with attrs := fun m => if m = n then l else s.attrs m }

/-- A node more, with these attributes. -/
def add (s : State) (name : List Char) (l : List (List Char × List Char)) : State :=
  ({ s with forest := s.forest.add name } : State).setAttrs s.forest.next l

/-- Add to `t` a copy of the node `n` of `s` with everything below it, down to the given depth; what is below has the attributes of
the original, the top has them if they are asked for. -/
def addCopy (s : State) : Nat → State → Nat → Bool → State
  | 0, t, _, _ => t
  | d + 1, t, n, attributes =>
    (s.forest.kids n).foldl
      (fun acc c =>
        match c with
        | .text k x => acc.setKids t.forest.next (acc.forest.kids t.forest.next ++ [.text k x])
        | .node m =>
          (s.addCopy d acc m true).setKids t.forest.next
            ((s.addCopy d acc m true).forest.kids t.forest.next ++ [.node acc.forest.next]))
      (t.add (s.forest.name n) (if attributes then s.attrs n else []))

end State

/-- White space: space, newline, tab and carriage return. -/
def isWhite (c : Char) : Bool := c == ' ' || c == '\n' || c == '\t' || c == '\r'

/-- The string without the white space around it. -/
def trim (s : List Char) : List Char := ((s.dropWhile isWhite).reverse.dropWhile isWhite).reverse

/-- The attributes with the value of one of them trimmed. -/
def trimPair (k : List Char) (l : List (List Char × List Char)) : List (List Char × List Char) :=
  l.map fun p => if p.1 == k then (p.1, trim p.2) else p

/-- What a call does. -/
def Call.step (s : State) : Call → State
  | .tree op => { s with forest := s.forest.step op }
  | .copy n attributes childs =>
    if childs then s.addCopy s.forest.next s n attributes else s.add (s.forest.name n) (if attributes then s.attrs n else [])
  | .content p x => s.setKids p (s.forest.kids p ++ [.text .content x])
  | .cdata p x => s.setKids p (s.forest.kids p ++ [.text .cdata x])
  | .setAttr n k v => if (s.attrs n).any (·.1 == k) then s else s.setAttrs n ((k, v) :: s.attrs n)
  | .removeAttr n k => s.setAttrs n ((s.attrs n).filter (·.1 != k))
  | .trimAttr n k => s.setAttrs n (trimPair k (s.attrs n))

def State.run (s : State) : List Call → State
  | [] => s
  | c :: cs => State.run (c.step s) cs

/-- The removal leaves ten of eleven attributes and one of those has a special character: this is where the library damages the values
(`C22_value_encoded_again_at_ten`). -/
def damages (l : List (List Char × List Char)) (k : List Char) : Bool :=
  l.length == 11 && l.any (·.1 == k) && !l.all fun p => p.1 == k || decide (Attr.Plain p.2)

/-- The nodes that are named exist, nodes are placed only where the tree stays a tree, and no removal damages the attributes left. -/
def Call.fits (s : State) : Call → Bool
  | .tree op => plainOp op && s.forest.fits op
  | .copy n _ _ => s.forest.live n
  | .content p _ => s.forest.live p
  | .cdata p _ => s.forest.live p
  | .setAttr n _ _ => s.forest.live n
  | .removeAttr n k => s.forest.live n && !damages (s.attrs n) k
  | .trimAttr n _ => s.forest.live n

def Fits (s : State) : List Call → Bool
  | [] => true
  | c :: cs => c.fits s && Fits (c.step s) cs

/-- Names of attributes that can be written, and strings without a terminator inside. -/
def TidyCall : Call → Prop
  | .setAttr _ k v => IsName k ∧ k ≠ c!"xml:space" ∧ Char.ofNat 0 ∉ v
  | .removeAttr _ k => Char.ofNat 0 ∉ k
  | .trimAttr _ _ => True
  | .content _ s => Char.ofNat 0 ∉ s
  | .cdata _ s => Char.ofNat 0 ∉ s ∧ Escape.NoCdataEnd s
  | .tree _ => True
  | .copy _ _ _ => True

/-- Children whose text can be read again: a text is not blank, does not follow another text, and does not begin with a white space
after a comment or an instruction. -/
def TidyKids (pi : List Char → PI) : Before → List Child → Prop
  | _, [] => True
  | _, .node _ :: l => TidyKids pi .other l
  | b, .text .content s :: l =>
    ¬ Blank s ∧ Char.ofNat 0 ∉ s ∧ (match b with | .text => False | .misc => ∀ c ∈ s.head?, ¬ White c | .other => True) ∧
      TidyKids pi .text l
  | _, .text .cdata s :: l => Char.ofNat 0 ∉ s ∧ Escape.NoCdataEnd s ∧ TidyKids pi .other l
  | _, .text .comment s :: l => s ≠ [] ∧ UpTo c!"-->" (padded s) ∧ TidyKids pi .misc l
  | _, .text .pi s :: l => FineLeaf (.pi (pi s)) ∧ TidyKids pi .misc l

/-- A child that is written in its own line. -/
def block : Child → Bool
  | .node _ => true
  | .text .comment _ => true
  | .text .pi _ => true
  | _ => false

/-- The nodes can be written with this layout and read again. -/
structure Tidy (y : Spec.Dump.Layout) (pi : List Char → PI) (f : Forest) : Prop where
  name : ∀ n, f.live n = true → IsName (f.name n)
  kids : ∀ n, f.live n = true → TidyKids pi .other (f.kids n)
  lines : y = .plain ∨ ∀ n, f.live n = true → (f.kids n).any block = true → ∀ s, .text .content s ∉ f.kids n

/-- The text of an item, read as axl_node_get_content_trans reads it, is this string. -/
def ReadAs (t s : List Char) : Prop :=
  ∃ rest, Axl.Escape.getContentTrans [⟨t ++ [Char.ofNat 0], t.length⟩] = some (some (s ++ Char.ofNat 0 :: rest, s.length))

mutual
/-- The node that was read has the name of `n`, exactly the attributes given to `n`, each with the value given when it is read with
axl_node_get_attribute_value_trans, and the children of `n` with the texts given. -/
inductive Holds (f : Forest) (pi : List Char → PI) (val : Nat → List Char → Option (List Char)) : Nat → Node → Prop where
  | mk {n : Nat} {a : Attrs} {items : Items} : (∀ k, a.getValueTrans k = some (val n k)) → HoldsItems f pi val (f.kids n) items →
      Holds f pi val n (.mk (f.name n) a items)
inductive HoldsItems (f : Forest) (pi : List Char → PI) (val : Nat → List Char → Option (List Char)) : List Child → Items → Prop where
  | nil : HoldsItems f pi val [] .nil
  | node {n : Nat} {t : Node} {l : List Child} {items : Items} :
      Holds f pi val n t → HoldsItems f pi val l items → HoldsItems f pi val (.node n :: l) (.node t items)
  | content {s t : List Char} {l : List Child} {items : Items} : ReadAs t s → HoldsItems f pi val l items →
      HoldsItems f pi val (.text .content s :: l) (.leaf (.content t) items)
  | cdata {s t : List Char} {l : List Child} {items : Items} : ReadAs t s → HoldsItems f pi val l items →
      HoldsItems f pi val (.text .cdata s :: l) (.leaf (.cdata t) items)
  | comment {s : List Char} {l : List Child} {items : Items} : HoldsItems f pi val l items →
      HoldsItems f pi val (.text .comment s :: l) (.leaf (.comment (padded s)) items)
  | pi {s : List Char} {l : List Child} {items : Items} : HoldsItems f pi val l items →
      HoldsItems f pi val (.text .pi s :: l) (.leaf (.pi (pi s)) items)
end

end Axl.Spec.Build

namespace Axl.Work
open Spec.Build

/-- The call of the library for each of the calls. -/
def exec (w : Work) : Call → Option Work
  | .tree op => w.tree op
  | .copy n attributes childs => (w.copy n attributes childs).map (·.1)
  | .content p s => w.setContent p s
  | .cdata p s => w.setCdata p s
  | .setAttr n k v => w.attr n (.set k v)
  | .removeAttr n k => w.attr n (.remove k)
  | .trimAttr n k => w.trimAttr n k

def run (w : Work) : List Call → Option Work
  | [] => some w
  | c :: cs => (w.exec c).bind fun w => w.run cs

end Axl.Work
