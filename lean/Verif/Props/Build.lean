/-
Property C81: the strings that a program puts in a document come back.
-/
import Verif.Proofs.BuildRead

namespace Axl
open Spec.Build Spec.Tree Spec.Dump Spec.RoundTrip Dump Parse
open Str hiding split

/-- **C81** (attributes, partial).  A program makes nodes, copies them, moves them and frees them, and sets, trims and removes attributes in
between, in any order: none of the calls has undefined behaviour, and after them the attributes of every node are those given to that
node, or to the node that it was copied from before the copy, whatever was done to the others.  Missing: what C22 does not have (a
removal that leaves ten of eleven attributes with special characters) and what C24 does not have. -/
theorem C81_attributes_partial (calls : List Call) (hf : Spec.Build.Fits State.empty calls = true) (ht : ∀ c ∈ calls, TidyCall c) :
    ∃ w, Work.empty.run calls = some w ∧ ∀ n, (State.empty.run calls).forest.live n = true →
      (∃ c, w.heap.nodes n = some c ∧ c.name = (State.empty.run calls).forest.name n) ∧
      ∀ k, (w.attrs n).getValueTrans k = some ((State.empty.run calls).value n k) := by
  obtain ⟨w, h1, I, F⟩ := Work.run_spec calls (w := Work.empty) (s := State.empty) Heap.inv_empty (fun _ => .empty) hf ht
  refine ⟨w, h1, fun n hn => ⟨(I.shows hn).node, fun k => ?_⟩⟩
  exact Work.trans_given (Work.getValue_given (F n) k) (fun v hv => (Work.given_good (F n) hv).2.2)

/-- **C81** (documents, partial).  And when the document with the root `r` is written, plain or with any indentation, and the text is read
again, the document read has the same names, exactly the attributes given with the values given, and the same children in the
same order with the texts given, however these strings look: markup characters, quotes, entities.  Missing: strings with a
terminator, names with markup or white space, blank texts and two texts in a row (which a reader cannot tell, C27), and what the
first theorem does not have. -/
theorem C81_document_partial (calls : List Call) (pi : List Char → PI) (hf : Spec.Build.Fits State.empty calls = true)
    (ht : ∀ c ∈ calls, TidyCall c) :
    ∃ w, Work.empty.run calls = some w ∧ ∀ (r : Nat) (encoding : Option (List Char)) (standalone : Bool),
      (State.empty.run calls).forest.live r = true → (∀ e ∈ encoding, '"' ∉ e ∧ '\'' ∉ e ∧ Char.ofNat 0 ∉ e) →
      (Tidy .plain pi (State.empty.run calls).forest → ∃ (text : List Char) (d : Doc),
        w.heap.dumpDoc ⟨w.attrs, pi⟩ r encoding standalone false 0 = some (some (text ++ [NUL], (text.length : Int))) ∧
        parse text = .ok d ∧ d.encoding = encoding ∧ d.standalone = standalone ∧
        Holds (State.empty.run calls).forest pi (State.empty.run calls).value r d.root) ∧
      ∀ tabular : Nat, Tidy (.pretty tabular) pi (State.empty.run calls).forest → ∃ (text : List Char) (d : Doc),
        w.heap.dumpDoc ⟨w.attrs, pi⟩ r encoding standalone true tabular = some (some (text ++ [NUL], (text.length : Int))) ∧
        parse text = .ok d ∧ d.encoding = encoding ∧ d.standalone = standalone ∧
        Holds (State.empty.run calls).forest pi (State.empty.run calls).value r d.root := by
  obtain ⟨w, h1, I, F⟩ := Work.run_spec calls (w := Work.empty) (s := State.empty) Heap.inv_empty (fun _ => .empty) hf ht
  refine ⟨w, h1, fun r encoding standalone hr he => ?_⟩
  obtain ⟨t, hT⟩ := I.tree ⟨w.attrs, pi⟩ hr
  refine ⟨fun T => ?_, fun tabular T => ?_⟩
  · have hF := Work.fine_tree (x := ⟨w.attrs, pi⟩) F T hT
    obtain ⟨text, d, g1, g2, g3⟩ := C27_round_trip_partial ⟨encoding, standalone, t, [], []⟩ ⟨he, hF, rfl, rfl⟩
    refine ⟨text, d, ?_, g2, g3.encoding, g3.standalone, Work.holds_tree (x := ⟨w.attrs, pi⟩) F T hT g3.root⟩
    rw [I.dumpDoc hT]; exact g1
  · have hF := Work.fine_tree (x := ⟨w.attrs, pi⟩) F T hT
    obtain ⟨text, d, g1, g2, g3⟩ := C27_round_trip_pretty_partial ⟨encoding, standalone, t, [], []⟩ tabular ⟨he, hF, rfl, rfl⟩
    refine ⟨text, d, ?_, g2, g3.encoding, g3.standalone, Work.holds_tree (x := ⟨w.attrs, pi⟩) F T hT g3.root⟩
    rw [I.dumpDoc hT]; exact g1

/-- The copy of a node is a new node; when the attributes are asked for, it has those of the original. -/
theorem State.value_copy (s : State) (n : Nat) (k : List Char) : (Call.step s (.copy n true false)).value s.forest.next k = s.value n k := by
  simp [Call.step, State.value, State.add, State.setAttrs]

/-- A program: two nodes, attributes set twice and removed in between, texts with markup, a comment, a node that is moved, and a copy of
it with what is below, whose original is changed after that. -/
def buildCalls : List Call :=
  [.tree (.create c!"a"), .tree (.create c!"b"), .setAttr 0 c!"x" c!"\t it's <1> & \"2\" ", .trimAttr 0 c!"x", .tree (.create c!"z"), .setAttr 2 c!"x" c!"o'",
   .content 1 c!"a < b && c]]>&lt;", .tree (.setChild 2 (.node 1)), .setAttr 0 c!"x" c!"again", .setAttr 1 c!"k" c!"v",
   .removeAttr 1 c!"k", .setAttr 1 c!"k" c!"</b>", .copy 2 true true, .removeAttr 2 c!"x", .tree (.removeNode 1 false),
   .tree (.setChild 0 (.text .comment c!"note")), .cdata 0 c!"<&>", .tree (.setChild 0 (.node 1)), .tree (.free 2),
   .removeAttr 1 c!"k", .tree (.setChild 0 (.node 3))]

theorem buildCalls_ok : ∀ c ∈ buildCalls, TidyCall c := by
  intro c hc
  simp only [buildCalls, List.mem_cons, List.not_mem_nil, or_false] at hc
  rcases hc with rfl | rfl | rfl | rfl | rfl | rfl | rfl | rfl | rfl | rfl | rfl | rfl | rfl | rfl | rfl | rfl | rfl | rfl | rfl | rfl | rfl <;>
    simp only [TidyCall, Spec.Escape.NoCdataEnd] <;> first | trivial | decide +kernel

theorem buildCalls_live (n : Nat) (hn : (State.empty.run buildCalls).forest.live n = true) : n = 0 ∨ n = 1 ∨ n = 3 ∨ n = 4 := by
  refine Classical.byContradiction fun h => ?_
  simp only [not_or] at h
  obtain ⟨h0, h1, h3, h4⟩ := h
  by_cases h2 : n = 2
  · subst h2; revert hn; decide +kernel
  · obtain ⟨w, -, ⟨-, T⟩, -⟩ := Work.run_spec buildCalls (w := Work.empty) (s := State.empty) Heap.inv_empty (fun _ => .empty)
      (by decide +kernel) buildCalls_ok
    have : n < (State.empty.run buildCalls).forest.next := T.bound n hn
    have hx : (State.empty.run buildCalls).forest.next = 5 := by decide +kernel
    omega

theorem buildCalls_tidy : Tidy .plain (fun _ => ⟨[], none⟩) (State.empty.run buildCalls).forest := by
  have hl := buildCalls_live
  have k0 : (State.empty.run buildCalls).forest.kids 0 =
      [.text .comment c!"note", .text .cdata c!"<&>", .node 1, .node 3] := by decide +kernel
  have k1 : (State.empty.run buildCalls).forest.kids 1 = [.text .content c!"a < b && c]]>&lt;"] := by decide +kernel
  have k3 : (State.empty.run buildCalls).forest.kids 3 = [.node 4] := by decide +kernel
  have k4 : (State.empty.run buildCalls).forest.kids 4 = [.text .content c!"a < b && c]]>&lt;"] := by decide +kernel
  refine ⟨fun n hn => ?_, fun n hn => ?_, Or.inl rfl⟩
  · rcases hl n hn with rfl | rfl | rfl | rfl <;> decide +kernel
  · rcases hl n hn with rfl | rfl | rfl | rfl
    · rw [k0]
      simp only [TidyKids, Spec.Escape.NoCdataEnd]
      decide +kernel
    · rw [k1]
      simp only [TidyKids]
      decide +kernel
    · rw [k3]
      simp only [TidyKids]
    · rw [k4]
      simp only [TidyKids]
      decide +kernel

example : Spec.Build.Fits State.empty buildCalls = true := by decide +kernel
example : (State.empty.run buildCalls).value 0 c!"x" = some c!"it's <1> & \"2\"" ∧ (State.empty.run buildCalls).value 1 c!"k" = none ∧
    (State.empty.run buildCalls).value 4 c!"k" = some c!"</b>" ∧ (State.empty.run buildCalls).value 3 c!"x" = some c!"o'" := by decide +kernel
/-- What is written. -/
example : (Work.empty.run buildCalls).bind (fun w => w.heap.dumpDoc ⟨w.attrs, fun _ => ⟨[], none⟩⟩ 0 none false false 0) =
    some (some (c!"<?xml version='1.0' ?><a x='it&apos;s &lt;1&gt; &amp; &quot;2&quot;'><!-- note --><![CDATA[&lt;&amp;&gt;]]><b>a &lt; b &amp;&amp; c]]&gt;&amp;lt;</b><z x='o&apos;'><b k='&lt;/b&gt;'>a &lt; b &amp;&amp; c]]&gt;&amp;lt;</b></z></a>" ++ [NUL], 229)) := by
  decide +kernel

end Axl
