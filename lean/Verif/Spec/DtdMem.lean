/-
What a DTD in memory says and which blocks it leads to, and what the caller of `axl_dtd_parse` finds in memory after it.
-/
import Verif.Model.DtdMem

namespace Axl
namespace DtdMem
open Dtd

/-! ### What it says -/

mutual
/-- The item of a content model that is in memory. -/
def MPart.val : MPart → Part
  | .node _ times name => .node times name.text
  | .list _ _ kind times _ parts => .list kind times (partsVal parts)
def partsVal : List MPart → List Part
  | [] => []
  | p :: ps => p.val :: partsVal ps
end

/-- The content model that is in memory. -/
def MContent.val (l : MContent) : Content := ⟨l.kind, l.times, partsVal l.parts⟩

def MType.val : MType → ElementType
  | .any => .any
  | .empty => .empty
  | .mixed l => .mixed l.val
  | .pcdata l => .pcdata l.val
  | .children l => .children l.val
  | .unclosed l => .unclosed l.val

def MElement.val (e : MElement) : Element := ⟨e.name.text, e.type.val⟩

/-- The type of an attribute: an enumeration if it has a list of values. -/
def MDecl.typeVal (x : MDecl) : AttType :=
  match x.enum with
  | none => x.type
  | some (_, values) => .enum (values.map (·.text))

def MDecl.val (x : MDecl) : AttDecl := ⟨x.name.text, x.typeVal, x.defaults, x.value.map (·.text)⟩

def MAttr.val (a : MAttr) : AttList := ⟨a.name.text, a.decls.map MDecl.val⟩

def MEntity.val (e : MEntity) : Entity := ⟨(e.name.map (·.text)).getD [], e.type, e.content.map (·.text)⟩

/-- The DTD that is in memory. -/
def MDtd.val (d : MDtd) : Dtd :=
  ⟨d.els.map MElement.val, d.atts.map MAttr.val, d.root.map MElement.val, d.haveId, d.haveIdRef, d.ents.map MEntity.val⟩

/-! ### The blocks -/

mutual
/-- The blocks of an item: the node, and the name or the list with its items. -/
def MPart.blocks : MPart → List Nat
  | .node id _ name => [id, name.id]
  | .list id l _ _ itemList parts => id :: l :: (itemList.toList ++ partsBlocks parts)
def partsBlocks : List MPart → List Nat
  | [] => []
  | p :: ps => p.blocks ++ partsBlocks ps
end

def MContent.blocks (l : MContent) : List Nat := l.id :: (l.itemList.toList ++ partsBlocks l.parts)

def MType.blocks (t : MType) : List Nat :=
  match t.list with
  | none => []
  | some l => l.blocks

def MElement.blocks (e : MElement) : List Nat := e.id :: e.name.id :: e.type.blocks

def MDecl.blocks (x : MDecl) : List Nat :=
  x.id :: x.name.id :: ((x.value.map (·.id)).toList ++
    match x.enum with
    | none => []
    | some (l, values) => l :: values.map (·.id))

def MAttr.blocks (a : MAttr) : List Nat := a.id :: a.name.id :: a.list :: (a.decls.map MDecl.blocks).flatten

def MEntity.blocks (e : MEntity) : List Nat := e.id :: ((e.name.map (·.id)).toList ++ (e.content.map (·.id)).toList)

/-- The blocks of a DTD: its structure, its lists and all they lead to.  The root is one of its elements. -/
def MDtd.blocks (d : MDtd) : List Nat :=
  d.id :: (d.elements.toList ++ ((d.els.map MElement.blocks).flatten ++ (d.attributes.toList ++
    ((d.atts.map MAttr.blocks).flatten ++ (d.entities.toList ++ (d.ents.map MEntity.blocks).flatten)))))

end DtdMem

namespace Spec
namespace DtdMem
open Axl.DtdMem

/-- Only the DTD is there, that says `x`: the blocks not released are those it leads to, each once. -/
def OnlyDtd (w : World) (x : Dtd.Dtd) : Prop :=
  w.stream = none ∧ ∃ d, w.dtd = some d ∧ d.val = x ∧ w.heap.Perm d.blocks ∧ d.blocks.Nodup

/-- There is neither a stream nor a DTD, and the blocks not released are these. -/
def Lost (w : World) (ids : List Nat) : Prop := w.stream = none ∧ w.dtd = none ∧ w.heap.Perm ids

/-- Nothing that the parse allocated is there. -/
def AllReleased (w : World) : Prop := w.stream = none ∧ w.dtd = none ∧ w.heap = []

/-- One error was stored, with a negative code, if the caller asked for it. -/
def OneError (ask : Bool) (w : World) : Prop := if ask then ∃ code, w.errors = some [code] ∧ code < 0 else w.errors = none

/-- No error was stored. -/
def NoError (ask : Bool) (w : World) : Prop := w.errors = if ask then some [] else none

/-- When an element declaration that fails loses memory: the name was read, and its content model is wrong or another
element has that name. -/
def LosesElement (d : Dtd.Dtd) (s : List Char) : Prop :=
  ∃ s1 f, Stream.eat (Stream.skip s) c!"<!ELEMENT" = some s1 ∧ Stream.getUntil [c!">", c!"(", c!" "] (Stream.skip s1) = some f ∧ f.chunk ≠ 0 ∧
    (Dtd.elementType f.at_ = .error ∨
      ∃ r, Dtd.elementType f.at_ = .ok r ∧ (d.elements.any fun e => Str.cmp (some e.name) (some (Str.toStr f.text))) = true)

/-- When a text that is not a DTD loses memory: reading declarations one after another from here, `d` being what was
declared, one reaches an element declaration that is wrong and loses memory. -/
inductive Loses (fuel : Nat) : Dtd.Dtd → List Char → Prop
  | here {d : Dtd.Dtd} {s s1 : List Char} (h : s ≠ []) (hc : Dtd.dtdComments s = .ok s1) (hp : Stream.peek s1 c!"<!ELEMENT" = true)
      (he : Dtd.parseElement d s1 = .error) (hl : LosesElement d s1) : Loses fuel d s
  | after {d d2 : Dtd.Dtd} {s s1 s2 : List Char} (h : s ≠ []) (hc : Dtd.dtdComments s = .ok s1)
      (hd : Dtd.declaration fuel d s1 = some (.ok (d2, s2))) (hl : Loses fuel d2 s2) : Loses fuel d s

end DtdMem
end Spec
end Axl
