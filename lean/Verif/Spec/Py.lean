/-
What a Python program may do with the objects of the binding, and what it may expect.
-/
import Verif.Model.Py

namespace Axl.Py.Spec

/-- The objects that a call uses. -/
def uses : Op → List Nat
  | .parse _ _ => []
  | .newDoc => []
  | .newNode _ => []
  | .root o => [o]
  | .get o _ => [o]
  | .nav o _ => [o]
  | .name o => [o]
  | .getDoc o => [o]
  | .cursor o => [o]
  | .cursorRead o => [o]
  | .setRoot o c => o :: c.toList
  | .setChild p c => [p, c]
  | .setChildAfter p c => [p, c]
  | .remove o => [o]
  | .dup o => [o]
  | .drop o => [o]

/-- The type of object that a call is a method or an attribute of: Python finds the method by the
type of the object. -/
def typed (w : World) : Op → Bool
  | .root o => (w.asDoc o).isSome
  | .get o _ => (w.asDoc o).isSome
  | .nav o _ => (w.asNode o).isSome
  | .name o => (w.asNode o).isSome
  | .getDoc o => (w.asNode o).isSome
  | .cursor o => (w.asNode o).isSome
  | .cursorRead o => (w.obj o).any fun x => (x.body matches .cursor _ _)
  | .setRoot o _ => (w.asDoc o).isSome
  | .setChild p c => (w.asNode p).isSome && (w.asNode c).isSome
  | .setChildAfter p c => (w.asNode p).isSome && (w.asNode c).isSome
  | .remove o => (w.asNode o).isSome
  | _ => true

/-- A call that Python lets a program make: its variables hold the objects, and these have the type
that has the method. -/
def legal (w : World) (op : Op) : Bool := (uses op).all (· ∈ w.vars) && typed w op

/-- Every call is one that Python lets the program make.  Nothing is asked of what follows a call
whose behaviour is not defined. -/
def Legal : World → List Op → Bool
  | _, [] => true
  | w, op :: ops => legal w op && match w.step op with
    | none => true
    | some (w', _) => Legal w' ops

/-- Calls that parse documents and read them. -/
def reads : Op → Bool
  | .parse _ _ => true
  | .newDoc => true
  | .root _ => true
  | .get _ _ => true
  | .nav _ _ => true
  | .name _ => true
  | .dup _ => true
  | .drop _ => true
  | _ => false

/-- The object keeps the document: it is the `axl.Doc`, or an `axl.Node` that was got from it. -/
def keeps (w : World) (d o : Nat) : Bool :=
  match (w.obj o).map Obj.body with
  | some (.doc e _) => e == d
  | some (.node _ _ (some q)) => w.asDoc q == some d
  | _ => false

/-- What the object is about is in memory. -/
def isAlive (w : World) (o : Nat) : Bool :=
  match (w.obj o).map Obj.body with
  | some (.doc d _) => (w.mem.root d).isSome
  | some (.node (some n) _ _) => decide (n ∈ w.mem.ids)
  | some (.node none _ _) => true
  | some (.cursor (some n) _) => decide (n ∈ w.mem.ids)
  | some (.cursor none _) => true
  | none => false

/-- The nodes of a document. -/
def docNodes (w : World) (d : Nat) : List Nat := ((w.mem.root d).map Forest.ids).getD []

/-- The nodes from a node on down. -/
def below (w : World) (n : Nat) : List Nat := ((w.mem.look (Forest.sub n)).map Forest.ids).getD []

/-- The objects that go away when the program drops a reference to `o`. -/
def gone (w : World) (o : Nat) : List Nat :=
  match w.obj o with
  | some ⟨1, .node _ _ (some q)⟩ => if (w.obj q).any (·.rc == 1) then [o, q] else [o]
  | some ⟨1, _⟩ => [o]
  | _ => []

/-- The documents that go away with an object. -/
def docsOf (w : World) (o : Nat) : List Nat :=
  match (w.obj o).map Obj.body with
  | some (.doc d true) => [d]
  | _ => []

/-- The nodes that go away with an object. -/
def nodesOf (w : World) (o : Nat) : List Nat :=
  match (w.obj o).map Obj.body with
  | some (.doc d true) => docNodes w d
  | some (.node (some n) true _) => if w.mem.look (Forest.docOf n) = some none then below w n else []
  | _ => []

/-- The object is about one of these documents or nodes. -/
def about (w : World) (docs nodes : List Nat) (o : Nat) : Bool :=
  match (w.obj o).map Obj.body with
  | some (.doc d _) => decide (d ∈ docs)
  | some (.node (some n) _ _) => decide (n ∈ nodes)
  | some (.cursor (some n) _) => decide (n ∈ nodes)
  | _ => false

/-- No object is about what goes away, but those that go away themselves. -/
def noneLeft (w : World) (docs nodes except : List Nat) : Bool :=
  (List.range w.objs.length).all fun o => decide (o ∈ except) || !about w docs nodes o

/-- The object is a node that the program made and that was not placed yet. -/
def isFree (w : World) (c : Nat) : Bool :=
  match w.asNode c with
  | some (some _, true, _) => true
  | _ => false

/-- The node knows its document, or its object is the one that frees it. -/
def mayHold (w : World) (p : Nat) : Bool :=
  match w.asNode p with
  | some (some n, f, _) => f || (w.mem.look (Forest.docOf n)).join.isSome
  | _ => false

/-- The nodes named are in different trees. -/
def apart (w : World) (p c : Nat) : Bool :=
  match w.asNode p, w.asNode c with
  | some (some n, _, _), some (some k, _, _) => !decide (n ∈ below w k)
  | _, _ => false

/-- The node has a parent. -/
def hasParent (w : World) (p : Nat) : Bool :=
  match w.asNode p with
  | some (some n, _, _) => (w.mem.look (Forest.parentOf n none)).join.isSome
  | _ => false

/-- The document has no root yet. -/
def noRoot (w : World) (o : Nat) : Bool := (w.asDoc o).any fun d => w.mem.root d == some .nil

/-- The call is made with the care that the binding does not take itself: what goes away is not in
use any more, and a node is placed once, and only in a node that knows its document or that the
program made. -/
def careful (w : World) : Op → Bool
  | .setRoot o c => noRoot w o && c.any (isFree w)
  | .setChild p c => isFree w c && mayHold w p && apart w p c
  | .setChildAfter p c => isFree w c && mayHold w p && apart w p c && hasParent w p
  | .remove o =>
    match w.asNode o with
    | some (some n, _, _) => noneLeft w [] (below w n) [o]
    | _ => true
  | .drop o => noneLeft w ((gone w o).flatMap (docsOf w)) ((gone w o).flatMap (nodesOf w)) (gone w o)
  | _ => true

/-- Every call is legal and careful. -/
def Careful : World → List Op → Bool
  | _, [] => true
  | w, op :: ops => legal w op && careful w op && match w.step op with
    | none => true
    | some (w', _) => Careful w' ops

end Axl.Py.Spec
