/-
Property C79: what is built with calls is what is written, read back and compared.
-/
import Verif.Proofs.TreeDump
import Verif.Props.Tree
import Verif.Props.RoundTrip
import Verif.Props.Compare

namespace Axl
open Spec.Tree Spec.Tree.Forest Spec.Dump Spec.RoundTrip Dump Parse Spec.Compare
open Str hiding split

/-- **C79**: after a history of calls, a node that was not freed stands for one tree: its name, its attributes and its children in
order, with what is below them. -/
theorem C79_tree (ops : List Op) (hf : Forest.empty.Fits ops = true) (x : Extra) (n : Nat) (hn : (Forest.empty.run ops).live n = true) :
    ∃ t, IsTree (Forest.empty.run ops) x n t ∧ ∀ u, IsTree (Forest.empty.run ops) x n u → u = t := by
  obtain ⟨h, e, I⟩ := Heap.inv_run ops Heap.inv_empty hf
  obtain ⟨t, ht⟩ := I.tree x hn
  exact ⟨t, ht, fun u hu => isTree_unique hu ht⟩

/-- **C79**: and that tree, nothing else, is what the functions that walk the pointers of the node see: its dump and its size, with
any layout and at any level, the dump of a document with that root, and the comparison of two nodes with all that is below. -/
theorem C79_dump (ops : List Op) (hf : Forest.empty.Fits ops = true) :
    ∃ h, Heap.empty.run ops = some h ∧ ∀ (x : Extra) (n : Nat) (t : Node), IsTree (Forest.empty.run ops) x n t →
      (∀ pretty level tabular, h.dumpNode x n pretty level tabular = Dump.dumpNode t pretty level tabular) ∧
      (∀ encoding standalone pretty tabular, h.dumpDoc x n encoding standalone pretty tabular =
        Dump.dumpDoc ⟨encoding, standalone, t, [], []⟩ pretty tabular) ∧
      (∀ (m : Nat) (u : Node) trimmed, IsTree (Forest.empty.run ops) x m u → h.docEqual x n m trimmed = t.deepEqual trimmed u) := by
  obtain ⟨h, e, I⟩ := Heap.inv_run ops Heap.inv_empty hf
  exact ⟨h, e, fun x n t ht => ⟨I.dumpNode ht, I.dumpDoc ht, fun m u trimmed hu => I.docEqual ht hu trimmed⟩⟩

/-- **C79** (text, partial).  So the text of a node built with calls is the text of its tree, and it has the size announced.  Missing: a
tree with an instruction without content or an empty comment (`C26_no_pi_content`, `C26_empty_comment`). -/
theorem C79_text_partial (ops : List Op) (hf : Forest.empty.Fits ops = true) :
    ∃ (ord : Order) (h : Heap), ord.Good ∧ Heap.empty.run ops = some h ∧
      ∀ (x : Extra) (n : Nat) (t : Node), IsTree (Forest.empty.run ops) x n t → Writable t →
        h.dumpNode x n false 0 0 = some (some (nodeText ord .plain 0 t ++ [NUL], ((nodeText ord .plain 0 t).length : Int))) ∧
        ∀ tabular : Nat, h.dumpNode x n true 0 tabular =
          some (some (nodeText ord (.pretty tabular) 0 t ++ [NUL], ((nodeText ord (.pretty tabular) 0 t).length : Int))) := by
  obtain ⟨h, e, I⟩ := Heap.inv_run ops Heap.inv_empty hf
  refine ⟨written, h, written_good, e, fun x n t ht hw => ⟨?_, fun tab => ?_⟩⟩
  · rw [I.dumpNode ht]; exact dumpNode_spec (y := .plain) rfl 0 t hw
  · rw [I.dumpNode ht]; exact dumpNode_spec (y := .pretty tab) ⟨rfl, rfl⟩ 0 t hw

/-- **C79** (round trip, partial).  A document built with calls, written and read again, is the same document, for the trees that can be
read again (C27). -/
theorem C79_round_trip_partial (ops : List Op) (hf : Forest.empty.Fits ops = true) :
    ∃ h, Heap.empty.run ops = some h ∧ ∀ (x : Extra) (n : Nat) (t : Node) (encoding : Option (List Char)) (standalone : Bool),
      IsTree (Forest.empty.run ops) x n t →
      (FineDoc .plain ⟨encoding, standalone, t, [], []⟩ → ∃ (text : List Char) (d : Doc),
        h.dumpDoc x n encoding standalone false 0 = some (some (text ++ [NUL], (text.length : Int))) ∧
        parse text = .ok d ∧ SameDoc ⟨encoding, standalone, t, [], []⟩ d) ∧
      ∀ tabular : Nat, FineDoc (.pretty tabular) ⟨encoding, standalone, t, [], []⟩ → ∃ (text : List Char) (d : Doc),
        h.dumpDoc x n encoding standalone true tabular = some (some (text ++ [NUL], (text.length : Int))) ∧
        parse text = .ok d ∧ SameDoc ⟨encoding, standalone, t, [], []⟩ d := by
  obtain ⟨h, e, I⟩ := Heap.inv_run ops Heap.inv_empty hf
  refine ⟨h, e, fun x n t encoding standalone ht => ⟨fun hd => ?_, fun tabular hd => ?_⟩⟩
  · rw [I.dumpDoc ht]; exact C27_round_trip_partial _ hd
  · rw [I.dumpDoc ht]; exact C27_round_trip_pretty_partial _ tabular hd

/-- **C79** (comparison, partial).  Two nodes built with calls, in the same or in different ways, compare equal exactly when their trees
have the same names, the same attributes and the same items in the same order (C32). -/
theorem C79_compare_partial (ops : List Op) (hf : Forest.empty.Fits ops = true) :
    ∃ h, Heap.empty.run ops = some h ∧ ∀ (x : Extra) (n m : Nat) (t u : Node) (trimmed : Bool),
      IsTree (Forest.empty.run ops) x n t → IsTree (Forest.empty.run ops) x m u → Made Comparable t → Made Comparable u →
      ∃ r, h.docEqual x n m trimmed = some r ∧ (r = true ↔ SameNode (SameText trimmed) t u) := by
  obtain ⟨h, e, I⟩ := Heap.inv_run ops Heap.inv_empty hf
  refine ⟨h, e, fun x n m t u trimmed ht hu hmt hmu => ?_⟩
  rw [I.docEqual ht hu]
  exact C32_documents_partial ⟨none, false, t, [], []⟩ ⟨none, false, u, [], []⟩ trimmed hmt hmu

/-- The document of the example of C27, built bottom up with a child that is moved and a node that is taken out. -/
def builtOps : List Op :=
  [.create c!"e", .create c!"b", .create c!"a", .create c!"z", .setChild 2 (.node 3), .setChild 2 (.node 1),
   .setChild 1 (.text .content c!" te xt "), .removeNode 3 true, .setChild 2 (.node 0), .setAfter 2 0 (.text .pi c!"p q"),
   .setAfter 2 0 (.text .comment c!"note"), .setAfter 1 0 (.text .cdata c!"<&")]

def builtExtra : Extra := ⟨fun n => if n = 2 then C26_attrs else Attrs.empty, fun _ => ⟨c!"p", some c!"q"⟩⟩

theorem built_tree : IsTree (Forest.empty.run builtOps) builtExtra 2 C27_example.root := by
  have h0 : IsTree (Forest.empty.run builtOps) builtExtra 0 (.mk c!"e" Attrs.empty .nil) :=
    .mk (n := 0) (by decide) (by rw [show (Forest.empty.run builtOps).kids 0 = [] from by decide]; exact .nil)
  have h1 : IsTree (Forest.empty.run builtOps) builtExtra 1
      (.mk c!"b" Attrs.empty (.leaf (.content c!" te xt ") (.leaf (.cdata c!"<&") .nil))) :=
    .mk (n := 1) (by decide) (by
      rw [show (Forest.empty.run builtOps).kids 1 = [.text .content c!" te xt ", .text .cdata c!"<&"] from by decide]
      exact .text (.text .nil))
  exact .mk (n := 2) (by decide) (by
    rw [show (Forest.empty.run builtOps).kids 2 = [.node 1, .text .comment c!"note", .text .pi c!"p q", .node 0] from by decide]
    exact .node h1 (.text (.text (.node h0 .nil))))

example : Forest.empty.Fits builtOps = true := by decide
example : FineDoc .plain ⟨some c!"utf-8", true, C27_example.root, [], []⟩ := C27_example_fine .plain
example (tabular : Nat) : FineDoc (.pretty tabular) ⟨some c!"utf-8", true, C27_example.root, [], []⟩ := C27_example_fine _
example : ∃ h, Heap.empty.run builtOps = some h ∧ h.dumpDoc builtExtra 2 (some c!"utf-8") true false 0 =
    some (some (c!"<?xml version='1.0' encoding='utf-8' standalone='yes' ?><a x='1' y='it&apos;s'><b> te xt <![CDATA[<&]]></b><!-- note --><?p q?><e /></a>" ++ [NUL], 136)) := by
  refine ⟨_, rfl, ?_⟩
  decide +kernel
/-- Two nodes with the same name and texts with other blanks; and one that differs. -/
example : ∃ h, Heap.empty.run [.create c!"a", .setChild 0 (.text .content c!"x"), .create c!"a", .setChild 1 (.text .content c!" x "),
      .create c!"b", .setChild 2 (.node 0)] = some h ∧
    h.docEqual ⟨fun _ => Attrs.empty, fun _ => ⟨[], none⟩⟩ 0 1 true = some true ∧
    h.docEqual ⟨fun _ => Attrs.empty, fun _ => ⟨[], none⟩⟩ 0 1 false = some false ∧
    h.docEqual ⟨fun _ => Attrs.empty, fun _ => ⟨[], none⟩⟩ 2 0 true = some false := by
  refine ⟨_, rfl, ?_⟩
  decide +kernel

end Axl
