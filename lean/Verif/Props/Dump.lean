/-
Property C26: the dump of a document fills exactly the computed size.
-/
import Verif.Proofs.Dump

namespace Axl
open Str Spec.Dump Dump

/-- **C26** (partial).  For every node with its descendants, axl_node_dump gives a block with the text of
the node and a terminator; the text has exactly the size announced, the one of
axl_node_get_flat_size, and no byte is written outside of the block.  Missing: nodes with an
instruction without content or an empty comment (see `C26_no_pi_content` and `C26_empty_comment`). -/
theorem C26_node_dump_partial :
    ∃ ord : Order, ord.Good ∧ ∀ n : Node, Writable n →
      nodeSize false 0 0 n = some ((nodeText ord .plain 0 n).length : Int) ∧
      nodeDumpPlain n = some (some (nodeText ord .plain 0 n ++ [NUL], ((nodeText ord .plain 0 n).length : Int))) ∧
      ∀ tabular : Nat,
        nodeSize true tabular 0 n = some ((nodeText ord (.pretty tabular) 0 n).length : Int) ∧
        nodeDumpPretty n tabular = some (some (nodeText ord (.pretty tabular) 0 n ++ [NUL],
          ((nodeText ord (.pretty tabular) 0 n).length : Int))) := by
  refine ⟨written, written_good, fun n hw => ⟨?_, ?_, fun t => ⟨?_, ?_⟩⟩⟩
  · exact (node_spec (y := .plain) rfl 0 n hw).1
  · exact dumpNode_spec (y := .plain) rfl 0 n hw
  · exact (node_spec (y := .pretty t) ⟨rfl, rfl⟩ 0 n hw).1
  · exact dumpNode_spec (y := .pretty t) ⟨rfl, rfl⟩ 0 n hw

/-- **C26** (document, partial).  The same for axl_doc_dump and axl_doc_dump_pretty: the header and the
text of the root. -/
theorem C26_doc_dump_partial :
    ∃ ord : Order, ord.Good ∧ ∀ d : Doc, d.noValue = [] → Writable d.root →
      docDumpPlain d = some (some (docText ord .plain d ++ [NUL], ((docText ord .plain d).length : Int))) ∧
      ∀ tabular : Nat, docDumpPretty d tabular = some (some (docText ord (.pretty tabular) d ++ [NUL],
        ((docText ord (.pretty tabular) d).length : Int))) := by
  refine ⟨written, written_good, fun d hv hw => ⟨?_, fun t => ?_⟩⟩
  · exact dumpDoc_spec (y := .plain) rfl d hv hw
  · exact dumpDoc_spec (y := .pretty t) ⟨rfl, rfl⟩ d hv hw

/-- **C26** (at a place, partial).  axl_node_dump_at, at any level, in memory of the caller with room for
axl_node_get_flat_size bytes, writes exactly that many bytes and changes no other byte. -/
theorem C26_dump_at_partial (n : Node) (hw : Writable n) (pretty : Bool) (level tabular : Nat) :
    ∃ (size : Nat) (text : List Char), nodeSize pretty tabular level n = some (size : Int) ∧ text.length = size ∧
      ∀ before free : List Char, size ≤ free.length →
        nodeDump pretty tabular level ⟨before ++ free, before.length⟩ n =
          some ⟨before ++ text ++ free.drop size, before.length + size⟩ := by
  cases pretty with
  | false =>
    obtain ⟨h1, h2⟩ := node_spec (pretty := false) (tabular := tabular) (y := .plain) rfl level n hw
    exact ⟨_, _, h1, rfl, fun w r h => (h2 w r h).trans (by rw [List.length_append])⟩
  | true =>
    obtain ⟨h1, h2⟩ := node_spec (pretty := true) (tabular := tabular) (y := .pretty tabular) ⟨rfl, rfl⟩ level n hw
    exact ⟨_, _, h1, rfl, fun w r h => (h2 w r h).trans (by rw [List.length_append])⟩

/-- A node with two attributes, a child, a text, a section, a comment, an instruction and a reference. -/
def C26_attrs : Attrs := (Attrs.empty.run [.set c!"x" c!"1", .set c!"y" c!"it's"]).getD Attrs.empty

def C26_example : Node :=
  .mk c!"a" C26_attrs (.node (.mk c!"b" Attrs.empty (.leaf (.content c!"text") .nil))
    (.leaf (.comment c!"note") (.leaf (.pi ⟨c!"p", some c!"q"⟩) (.leaf (.cdata c!"<&") (.leaf (.ref c!"r")
      (.node (.mk c!"e" Attrs.empty .nil) .nil))))))

theorem made_empty : Attrs.empty.Made := .empty

theorem getD_run {ops : List Spec.Attr.Op} (h : (Attrs.empty.run ops).isSome = true) :
    Attrs.empty.run ops = some ((Attrs.empty.run ops).getD Attrs.empty) := by
  cases hr : Attrs.empty.run ops with
  | none => simp [hr] at h
  | some a => rfl

theorem C26_writable : Writable C26_example := by
  have h1 : C26_attrs.Made := .of ⟨[.set c!"x" c!"1", .set c!"y" c!"it's"], by decide +kernel,
    getD_run (by decide +kernel)⟩
  simp only [C26_example, Writable, WritableItems, Leaf.Writable]
  exact ⟨h1, ⟨made_empty, trivial, trivial⟩, by simp, by simp, trivial, trivial, ⟨made_empty, trivial⟩, trivial⟩

example : nodeDumpPlain C26_example =
    some (some (c!"<a x='1' y='it&apos;s'><b>text</b><!-- note --><?p q?><![CDATA[<&]]>&r;<e /></a>" ++ [NUL], 80)) := by
  refine Eq.trans (dumpNode_spec (y := .plain) rfl 0 _ C26_writable) ?_
  decide +kernel

example : nodeDumpPretty C26_example 2 =
    some (some (c!"<a x='1' y='it&apos;s'>\n  <b>text</b>\n  <!-- note -->\n<?p q?><![CDATA[<&]]>&r;  <e />\n</a>\n" ++ [NUL], 91)) := by
  refine Eq.trans (dumpNode_spec (y := .pretty 2) ⟨rfl, rfl⟩ 0 _ C26_writable) ?_
  decide +kernel

/-- **C26 fails** for an instruction without content: dumping it reads a NULL pointer. -/
theorem C26_no_pi_content :
    nodeDumpPlain (.mk c!"a" Attrs.empty (.leaf (.pi ⟨c!"p", none⟩) .nil)) = none := by decide +kernel

/-- **C26 fails** for an empty comment: the byte before its text is read. -/
theorem C26_empty_comment :
    nodeDumpPlain (.mk c!"a" Attrs.empty (.leaf (.comment []) .nil)) = none := by decide +kernel

/-- **C26 fails** for a negative tabular: the block is smaller than the text written. -/
theorem C26_negative_tabular :
    nodeSize true (-4) 0 (.mk c!"a" Attrs.empty (.node (.mk c!"b" Attrs.empty .nil) .nil)) = some 11 ∧
    nodeDumpPretty (.mk c!"a" Attrs.empty (.node (.mk c!"b" Attrs.empty .nil) .nil)) (-4) = none := by decide +kernel

end Axl
