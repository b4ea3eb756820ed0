/-
C60, C61: how long documents and nodes stay when they are used from Python.
-/
import Verif.Proofs.PyRead
import Verif.Model.Lit

namespace Axl
open Py

/-- **C60**: a Python program that parses documents and reads them (`root`, `get`, the calls that go
from node to node, `name`), with its variables copied and dropped in any order, never uses freed
memory: every call is defined, what every object it holds is about is in memory, a document is in
memory exactly as long as the program holds the `axl.Doc` or an `axl.Node` that was got from it, and
when the program holds nothing any more nothing is left. -/
theorem C60_reading {ops : List Op} (hl : Py.Spec.Legal .start ops = true) (hr : ops.all Py.Spec.reads = true) :
    ∃ w, World.start.run ops = some w ∧
      (∀ o ∈ w.vars, Py.Spec.isAlive w o = true) ∧
      (∀ d, (w.mem.root d).isSome = true ↔ ∃ o ∈ w.vars, Py.Spec.keeps w d o = true) ∧
      (w.vars = [] → (∀ o, w.obj o = none) ∧ (∀ d, w.mem.root d = none) ∧ w.mem.loose = .nil) := by
  obtain ⟨w, h1, h2, _⟩ := reads_ok start_reads hl hr
  exact ⟨w, h1, fun o ho => alive_ok h2.inv ho, keeps_ok h2.inv, empty_ok h2.inv⟩

/-- A program: two documents, the first dropped while a node of it is held, a second reference to that node,
and everything dropped. -/
example : Py.Spec.Legal .start [.parse c!"a" (.node c!"b" .nil .nil), .root 0, .parse c!"c" .nil, .drop 0, .nav 1 .firstChild,
    .dup 3, .drop 1, .name 3, .drop 3, .drop 2, .drop 3] = true ∧
    (World.start.run [.parse c!"a" (.node c!"b" .nil .nil), .root 0, .parse c!"c" .nil, .drop 0, .nav 1 .firstChild,
      .dup 3, .drop 1, .name 3]).map (fun w => (w.vars, w.mem.docs.map Option.isSome)) =
      some ([3, 3, 2], [true, false, true, false]) := by decide +kernel

/-- **C60**: what a program that reads is told about a node does not change: the name that an
`axl.Node` had is the name it has later, whatever was parsed, read and dropped meanwhile. -/
theorem C60_stable {ops ops' : List Op} (hl : Py.Spec.Legal .start (ops ++ ops') = true)
    (hr : (ops ++ ops').all Py.Spec.reads = true) {w w' : World} (hw : World.start.run ops = some w) (hw' : w.run ops' = some w')
    {o : Nat} {s : List Char} (hs : w.step (.name o) = some (w, .text s)) (ho : o ∈ w'.vars) :
    w'.step (.name o) = some (w', .text s) := by
  have split : ∀ (a : List Op) {b : List Op} {v u : World}, Py.Spec.Legal v (a ++ b) = true → v.run a = some u →
      Py.Spec.Legal v a = true ∧ Py.Spec.Legal u b = true := by
    intro a
    induction a with
    | nil => intro b v u h1 h2; cases h2; exact ⟨rfl, h1⟩
    | cons x a ih =>
      intro b v u h1 h2
      simp only [List.cons_append, Py.Spec.Legal, Bool.and_eq_true] at h1 ⊢
      simp only [World.run, Option.bind_eq_bind] at h2
      obtain ⟨⟨v1, r⟩, h3, h4⟩ := Option.bind_eq_some_iff.1 h2
      obtain ⟨h5, h6⟩ := h1
      simp only [h3] at h6 ⊢
      exact ⟨⟨h5, (ih h6 h4).1⟩, (ih h6 h4).2⟩
  obtain ⟨h1, h2⟩ := split ops hl hw
  simp only [List.all_append, Bool.and_eq_true] at hr
  obtain ⟨u, k1, k2, _⟩ := reads_ok start_reads h1 hr.1
  rw [hw] at k1
  cases k1
  obtain ⟨u', k3, k4, k5⟩ := reads_ok k2 h2 hr.2
  rw [hw'] at k3
  cases k3
  exact name_later k2 k4 k5 hs ho

example : ∃ w w', World.start.run [.parse c!"a" (.node c!"b" .nil .nil), .root 0, .nav 1 .firstChild] = some w ∧
    w.run [.drop 0, .parse c!"c" .nil, .drop 1] = some w' ∧ w.step (.name 2) = some (w, .text c!"b") ∧ 2 ∈ w'.vars := by
  refine ⟨_, _, rfl, rfl, ?_, ?_⟩ <;> decide +kernel

/-- **C60**: a document that was parsed is read back: its root has the name that was parsed. -/
theorem C60_root_name {ops : List Op} (hl : Py.Spec.Legal .start ops = true) (hr : ops.all Py.Spec.reads = true) (s : List Char)
    (kids : Shape) {w : World} (hw : World.start.run ops = some w) :
    ∃ w1 w2 w3 o p, w.step (.parse s kids) = some (w1, .object o) ∧ w1.step (.root o) = some (w2, .object p) ∧
      w2.step (.name p) = some (w3, .text s) := by
  obtain ⟨u, h1, h2, _⟩ := reads_ok start_reads hl hr
  rw [hw] at h1
  cases h1
  obtain ⟨w1, k1, k2, k3, k4, k5, k6, k7⟩ := parse_ok h2.inv s kids
  obtain ⟨r1, _⟩ := newDoc_reads h2 k2 (by rw [k3, List.append_assoc]) k5 k6
  have hb : w1.body w.objs.length = some (.doc w.mem.docs.length true) := by rw [k5]; simp [upd]
  have hroot : w1.mem.root w.mem.docs.length =
      some ((Shape.node s kids .nil).build w.mem.docs.length w.mem.nextNode).1 := by
    simp [Mem.root, k3]
  have hd := World.asDoc_eq.2 ⟨_, hb⟩
  -- the root
  have htop : (((Shape.node s kids .nil).build w.mem.docs.length w.mem.nextNode).1.tops.head?.map (·.1)) = some w.mem.nextNode := rfl
  have hin : w.mem.nextNode ∈ ((Shape.node s kids .nil).build w.mem.docs.length w.mem.nextNode).1.ids := by
    simp [Shape.build, Forest.ids]
  obtain ⟨w2, v, g1, g2, g3, g4, g5, g6, g7⟩ := give_ok r1.inv (n := some w.mem.nextNode) (q := some w.objs.length)
    (fun i hi => by cases hi; exact Mem.mem_ids.2 (.inr ⟨_, _, hroot, hin⟩)) (fun p hp => by cases hp; exact ⟨_, _, hb⟩)
  obtain ⟨r2, _⟩ := give_reads r1 hb hroot (fun i hi => by cases hi; exact hin) g1
  simp only at g4 g6 g7
  subst g7
  have hb2 : w2.body w1.objs.length = some (.node (some w.mem.nextNode) false (some w.objs.length)) := by rw [g4]; simp [upd]
  refine ⟨w1, w2, w2, _, w1.objs.length, k1, ?_, ?_⟩
  · simp only [World.step, hd, hroot, htop, Option.bind_eq_bind, Option.bind_some, g1]
  · have hl := r2.look (Forest.nameOf_isSome w.mem.nextNode) (by rw [g3]; exact hroot) hin
    simp only [World.step, World.asNode_eq.2 hb2, Option.bind_eq_bind, Option.bind_some, hl]
    simp [Shape.build, Forest.nameOf]

/-- **C61**: a program that also makes documents and nodes, places and removes nodes, and uses `node.doc` and
attribute cursors, and does so with the care that the binding does not take (`Spec.careful`): every call is
defined, what every object it holds is about is in memory, a document is in memory exactly as long as an
object that keeps it is held, and nothing is left in the end.  Without that care the claim is not true of
the code: `C61_not_…`. -/
theorem C61_careful_partial {ops : List Op} (hc : Py.Spec.Careful .start ops = true) :
    ∃ w, World.start.run ops = some w ∧
      (∀ o ∈ w.vars, Py.Spec.isAlive w o = true) ∧
      (∀ d, (w.mem.root d).isSome = true ↔ ∃ o ∈ w.vars, Py.Spec.keeps w d o = true) ∧
      (w.vars = [] → (∀ o, w.obj o = none) ∧ (∀ d, w.mem.root d = none) ∧ w.mem.loose = .nil) := by
  obtain ⟨w, h1, h2⟩ := run_ok start_inv hc
  exact ⟨w, h1, fun o ho => alive_ok h2 ho, keeps_ok h2, empty_ok h2⟩

/-- A document is made by hand, three deep, a node is removed, and everything is dropped, nodes first. -/
example : Py.Spec.Careful .start [.newDoc, .newNode (some c!"a"), .setRoot 0 (some 1), .newNode (some c!"b"), .setChild 1 2,
    .newNode (some c!"c"), .setChild 2 3, .newNode (some c!"d"), .setChildAfter 3 4, .getDoc 2, .root 5, .cursor 4, .cursorRead 7,
    .drop 7, .remove 4, .drop 4, .drop 3, .drop 2, .drop 1, .newNode (some c!"e"), .drop 8, .drop 6, .drop 5, .drop 0] = true := by
  decide +kernel

/-- **C61**: not of the code.  The object that `node.doc` gives does not keep the document: when the others are
dropped the document is freed, and the object leads to freed memory. -/
theorem C61_not_doc_attribute : ∃ ops, Py.Spec.Legal .start ops = true ∧ World.start.run ops = none :=
  ⟨[.parse c!"a" .nil, .root 0, .getDoc 1, .drop 0, .drop 1, .root 2], by decide +kernel⟩

/-- **C61**: not of the code.  An `axl.Node` that the program made and placed as the root of a document does not
keep that document. -/
theorem C61_not_new_root : ∃ ops, Py.Spec.Legal .start ops = true ∧ World.start.run ops = none :=
  ⟨[.newDoc, .newNode (some c!"a"), .setRoot 0 (some 1), .drop 0, .name 1], by decide +kernel⟩

/-- **C61**: not of the code.  A node that the program made does not stay when the node it was placed in goes. -/
theorem C61_not_parent_dropped : ∃ ops, Py.Spec.Legal .start ops = true ∧ World.start.run ops = none :=
  ⟨[.newNode (some c!"a"), .newNode (some c!"b"), .setChild 0 1, .drop 0, .name 1], by decide +kernel⟩

/-- **C61**: not of the code.  A node that is placed in a node which is itself placed, in no document yet, is
still freed by its object, though it has a parent. -/
theorem C61_not_three_deep : ∃ ops, Py.Spec.Legal .start ops = true ∧ World.start.run ops = none :=
  ⟨[.newNode (some c!"a"), .newNode (some c!"b"), .newNode (some c!"c"), .setChild 0 1, .setChild 1 2, .drop 2], by decide +kernel⟩

/-- **C61**: not of the code.  An attribute cursor does not keep the node that it leads to. -/
theorem C61_not_cursor : ∃ ops, Py.Spec.Legal .start ops = true ∧ World.start.run ops = none :=
  ⟨[.parse c!"a" .nil, .root 0, .cursor 1, .drop 0, .drop 1, .cursorRead 2], by decide +kernel⟩

/-- **C61**: not of the code.  A node that is removed is gone for the other objects that are about it. -/
theorem C61_not_removed : ∃ ops, Py.Spec.Legal .start ops = true ∧ World.start.run ops = none :=
  ⟨[.parse c!"a" (.node c!"b" .nil .nil), .root 0, .nav 1 .firstChild, .nav 1 .firstChild, .remove 2, .name 3], by decide +kernel⟩

/-- **C61**: not of the code.  `doc.root = None` is allowed, and writes where no `axl.Node` is. -/
theorem C61_not_root_none : ∃ ops, Py.Spec.Legal .start ops = true ∧ World.start.run ops = none :=
  ⟨[.newDoc, .setRoot 0 none], by decide +kernel⟩

/-- **C61**: not of the code.  A root that is replaced is never freed. -/
theorem C61_not_replaced_root : ∃ ops w, Py.Spec.Legal .start ops = true ∧ World.start.run ops = some w ∧ w.vars = [] ∧
    w.mem.loose ≠ .nil :=
  ⟨[.newDoc, .newNode (some c!"a"), .setRoot 0 (some 1), .newNode (some c!"b"), .setRoot 0 (some 2), .drop 0, .drop 1, .drop 2], _,
    by decide +kernel, rfl, by decide +kernel, by decide +kernel⟩

end Axl
