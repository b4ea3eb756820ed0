/-
Model of `axl-knife --htmlize` (knife/axl-knife.c): the page written for a document.

`none` is undefined behaviour.  Simplifications: the page is the list of the characters printed, and writing to a file
does not fail; the two options are parameters, `skip` for `--htmlize-skip-first-enter-for-content` and `preClass` for
`--pre-class`; a string printed with `%s` is the list of its characters.
-/
import Verif.Model.Compare
import Verif.Model.Lit

namespace Axl
namespace Htmlize
open Str

/-- `__translate_content` (knife/axl-knife.c:68-77), on the content of an item, that C reads to its first NUL. -/
def translate (content : List Char) : Option (List Char) := do
  let (s, _) ← replace (toStr content) c!"<" c!"&lt;"
  let (s, _) ← replace s c!">" c!"&gt;"
  pure s

/-- `axl_knife_introduce_indentation` (knife/axl-knife.c:332-343). -/
def indentation : Nat → List Char
  | 0 => []
  | level + 1 => c!"   " ++ indentation level

/-- One attribute printed (knife/axl-knife.c:372-374, 382-384).  A NULL name or value is undefined behaviour. -/
def oneAttribute (c : AttrCursor) : Option (List Char) :=
  match c.getKey, c.getValue with
  | some (some k), some (some v) => some (k ++ (c!"=<span class=\"attrvalue\">\"" ++ (v ++ c!"\"</span> ")))
  | _, _ => none

/-- The loop for fewer than three attributes (knife/axl-knife.c:369-378); the number bounds the turns. -/
def fewAttributes : Nat → AttrCursor → Option (List Char)
  | 0, _ => none
  | fuel + 1, c =>
    match c.hasItem with
    | none => none
    | some false => some []
    | some true => do
      let t ← oneAttribute c
      let c ← c.next
      let r ← fewAttributes fuel c
      pure (t ++ r)

/-- What is printed before another attribute (knife/axl-knife.c:390-401). -/
def between (skip : Bool) (level : Nat) (name : List Char) : List Char :=
  (if skip then [] else c!"\n") ++ (indentation level ++ List.replicate (name.length + 2) ' ')

/-- The loop for three attributes or more (knife/axl-knife.c:380-404). -/
def manyAttributes (skip : Bool) (level : Nat) (name : List Char) : Nat → AttrCursor → Option (List Char)
  | 0, _ => none
  | fuel + 1, c =>
    match c.hasItem with
    | none => none
    | some false => some []
    | some true => do
      let t ← oneAttribute c
      let c ← c.next
      let more ← c.hasItem
      let r ← manyAttributes skip level name fuel c
      pure (t ++ ((if more then between skip level name else []) ++ r))

/-- The attributes (knife/axl-knife.c:365-408). -/
def attributes (skip : Bool) (level : Nat) (name : List Char) (a : Attrs) : Option (List Char) := do
  let c ← AttrCursor.new a
  let num ← a.numAttributes
  if num < 3 then fewAttributes (num + 1) c else manyAttributes skip level name (num + 1) c

/-- `axl_item_get_first_child (node) == NULL`: the node has no item. -/
def noItem : Items → Bool
  | .nil => true
  | _ => false

/-- The items that are not nodes (knife/axl-knife.c:452-498). -/
def leaf (level : Nat) : Leaf → Option (List Char)
  | .content s => translate s
  | .pi _ => some []
  | .comment s => do
    let t ← translate s
    pure (indentation (level + 1) ++ (c!"<span class=\"comment\">&lt;!-- " ++ (t ++ c!" --></span>\n")))
  | .ref _ => some []
  | .cdata s => do
    let t ← translate s
    pure (c!"<span class=\"cdata\">&lt;![CDATA[</span>" ++ (t ++ c!"<span class=\"cdata\">]]></span>"))

/-- The start of a node with attributes (knife/axl-knife.c:361-421). -/
def start (skip : Bool) (level : Nat) (name : List Char) (a : Attrs) (items : Items) : Option (List Char) := do
  let t ← attributes skip level name a
  let enter := if skip then [] else c!"\n"
  pure (c!"&lt;<span class=\"node\">" ++ (name ++ (c!"</span> " ++ (t ++ ((if noItem items then c!"/>" else c!">") ++ enter)))))

/-- The start of a node without attributes (knife/axl-knife.c:429-439). -/
def startPlain (skip : Bool) (name : List Char) (items : Items) : List Char :=
  c!"&lt;<span class=\"node\">" ++ (name ++ (c!"</span>>" ++ if items.haveChilds && !skip then c!"\n" else []))

/-- The end of a node (knife/axl-knife.c:505-513). -/
def finish (level : Nat) (name : List Char) (items : Items) : List Char :=
  (if items.haveChilds then indentation level else []) ++
    (if noItem items then [] else c!"&lt;/<span class=\"node\">" ++ (name ++ c!"</span>>\n"))

mutual
/-- `axl_knife_htmlize_iterator_node` (knife/axl-knife.c:345-516). -/
def node (skip : Bool) : Nat → Node → Option (List Char)
  | level, .mk name attrs items =>
    if attrs.hasAttributes then do
      let t ← start skip level name attrs items
      if noItem items then pure (indentation level ++ t)
      else do
        let b ← chain skip level items
        pure (indentation level ++ (t ++ (b ++ finish level name items)))
    else do
      let b ← chain skip level items
      pure (indentation level ++ (startPlain skip name items ++ (b ++ finish level name items)))
/-- The loop on the items of a node at this level (knife/axl-knife.c:442-503). -/
def chain (skip : Bool) : Nat → Items → Option (List Char)
  | _, .nil => some []
  | level, .node n next => do
    let t ← node skip (level + 1) n
    let r ← chain skip level next
    pure (t ++ r)
  | level, .leaf l next => do
    let t ← leaf level l
    let r ← chain skip level next
    pure (t ++ r)
end

/-- The tag that opens the page (knife/axl-knife.c:537-540). -/
def opening : Option (List Char) → List Char
  | some k => c!"<pre class='" ++ (k ++ c!"'>\n")
  | none => c!"<pre>\n"

/-- `axl_knife_htmlize` (knife/axl-knife.c:518-545). -/
def htmlize (skip : Bool) (preClass : Option (List Char)) (root : Node) : Option (List Char) := do
  let t ← node skip 0 root
  pure (opening preClass ++ (t ++ c!"</pre>\n"))

end Htmlize
end Axl
