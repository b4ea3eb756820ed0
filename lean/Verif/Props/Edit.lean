/-
Property C80: a document that was read can be edited and written, with its attributes.
-/
import Verif.Proofs.Edit

namespace Axl
open Spec.Tree Spec.Tree.Forest Spec.Dump Spec.RoundTrip Spec.Build Spec.Edit Dump Parse
open Str hiding split

/-- **C80** (attributes, partial).  A document is read, and a program makes calls on its nodes and on new ones: nodes are made, copied with
or without their attributes, moved and freed, contents are added, attributes are set, trimmed and removed, in any order.  No call has undefined
behaviour; the attributes of every node are those that were read and those that were set; what is written is the tree that the calls
leave with these attributes; and a document that can be read again (C27) is read as that tree.  Missing: what C24 does not have, and
sections that contain their end mark. -/
theorem C80_edit_attributes_partial (s : List Char) (d : Doc) (hs : parse s = .ok d) (attrs : Nat → List (List Char × List Char))
    (ha : ∀ n, (Load.attrs d.root n).Lists (attrs n)) (calls : List Call) (hf : Spec.Edit.Fits (start d attrs) calls = true)
    (hc : ∀ c ∈ calls, StringsOk c) :
    ∃ w0 w, Work.load d = some w0 ∧ w0.run calls = some w ∧
      ∀ n, (Spec.Edit.run (start d attrs) calls).forest.live n = true →
        (∀ k, (w.attrs n).getValue k = some ((Spec.Edit.run (start d attrs) calls).value n k)) ∧
        ∃ t, IsTree (Spec.Edit.run (start d attrs) calls).forest ⟨w.attrs, Load.piOf⟩ n t ∧
          ∀ (encoding : Option (List Char)) (standalone : Bool),
            (∀ pretty tabular, w.heap.dumpDoc ⟨w.attrs, Load.piOf⟩ n encoding standalone pretty tabular =
              Dump.dumpDoc ⟨encoding, standalone, t, [], []⟩ pretty tabular) ∧
            (FineDoc .plain ⟨encoding, standalone, t, [], []⟩ → ∃ (text : List Char) (d' : Doc),
              w.heap.dumpDoc ⟨w.attrs, Load.piOf⟩ n encoding standalone false 0 = some (some (text ++ [NUL], (text.length : Int))) ∧
              parse text = .ok d' ∧ SameDoc ⟨encoding, standalone, t, [], []⟩ d') ∧
            ∀ tabular : Nat, FineDoc (.pretty tabular) ⟨encoding, standalone, t, [], []⟩ → ∃ (text : List Char) (d' : Doc),
              w.heap.dumpDoc ⟨w.attrs, Load.piOf⟩ n encoding standalone true tabular = some (some (text ++ [NUL], (text.length : Int))) ∧
              parse text = .ok d' ∧ SameDoc ⟨encoding, standalone, t, [], []⟩ d' := by
  obtain ⟨F, -, -⟩ := Load.root_spec d (noRefs_parse hs)
  obtain ⟨h, e, I⟩ := Heap.inv_run _ Heap.inv_empty F
  have K : ∀ n, Work.Kept (Load.attrs d.root n) (attrs n) := fun n => .of (Work.attrs_made (parsed_made hs) n) (ha n)
  obtain ⟨w, h1, I', K'⟩ := Work.edit_spec calls (w := ⟨h, Load.attrs d.root⟩) (s := start d attrs) I K hf hc
  refine ⟨⟨h, Load.attrs d.root⟩, w, by simp [Work.load, e], h1, fun n hn => ⟨fun k => (Attrs.rep_find (K' n).rep k).2, ?_⟩⟩
  obtain ⟨t, ht⟩ := I'.tree ⟨w.attrs, Load.piOf⟩ hn
  refine ⟨t, ht, fun encoding standalone => ⟨I'.dumpDoc ht encoding standalone, fun hd => ?_, fun tabular hd => ?_⟩⟩
  · rw [I'.dumpDoc ht]
    exact C27_round_trip_partial _ hd
  · rw [I'.dumpDoc ht]
    exact C27_round_trip_pretty_partial _ tabular hd

/-- The attributes of the document of the example. -/
def editedAttrs : Nat → List (List Char × List Char)
  | 0 => [(c!"x", c!"1")]
  | 2 => [(c!"y", c!"2")]
  | _ => []

theorem editedAttrs_ok (n : Nat) : (Load.attrs editedDoc.root n).Lists (editedAttrs n) := by
  have h : ∀ a : Attrs, ∀ l, a.ptr = .list l → a.num = l.length → l.length ≤ 10 → (l.map (·.name)).Nodup →
      a.Lists (l.map fun x => (x.name, x.value)) := by
    intro a l h1 h2 h3 h4
    obtain ⟨num, ptr⟩ := a
    cases h1
    exact Attrs.rep_lists (ps := l.map Attrs.kv) ⟨by rw [List.map_map]; exact h4, h2, h3, .refl _⟩ (.refl _)
  have hd : editedDoc.root = .mk c!"a" ⟨1, .list [⟨c!"x", c!"1", true⟩]⟩ (.node (.mk c!"b" Attrs.empty (.leaf (.content c!"gone") .nil))
      (.leaf (.comment c!" note ") (.node (.mk c!"c" ⟨1, .list [⟨c!"y", c!"2", true⟩]⟩
        (.leaf (.content c!"kept") (.leaf (.pi ⟨c!"p", some c!"q"⟩) .nil))) .nil))) := by rfl
  rw [hd]
  match n with
  | 0 => exact h _ [⟨c!"x", c!"1", true⟩] rfl rfl (by decide) (by decide)
  | 1 => exact h _ [] rfl rfl (by decide) (by decide)
  | 2 => exact h _ [⟨c!"y", c!"2", true⟩] rfl rfl (by decide) (by decide)
  | n + 3 =>
    have : ∀ k, ¬ (k + 2 < 1) := by omega
    exact h _ [] (by simp [Load.attrs, Load.attrsIn, Node.count, Items.count]; rfl) (by simp [Load.attrs, Load.attrsIn, Node.count, Items.count]; rfl) (by decide) (by decide)

/-- Calls that edit it: an attribute of the document is removed and given again, a node of the document is copied with its content, and
the copy is changed and placed. -/
def workEdits : List Call :=
  [.removeAttr 0 c!"x", .setAttr 0 c!"x" c!"<new>", .copy 2 true true, .setAttr 3 c!"z" c!" it's", .trimAttr 3 c!"z", .removeAttr 2 c!"y",
   .content 3 c!"a & b", .tree (.setAfter 0 0 (.node 3)), .tree (.removeNode 1 true)]

example : Spec.Edit.Fits (start editedDoc editedAttrs) workEdits = true := by decide +kernel
example : ∀ c ∈ workEdits, StringsOk c := by
  intro c hc
  simp only [workEdits, List.mem_cons, List.not_mem_nil, or_false] at hc
  rcases hc with rfl | rfl | rfl | rfl | rfl | rfl | rfl | rfl | rfl <;> simp only [StringsOk] <;> first | trivial | decide +kernel
/-- What is written. -/
example : ((Work.load editedDoc).bind (·.run workEdits)).bind (fun w => w.heap.dumpDoc ⟨w.attrs, Load.piOf⟩ 0 none false false 0) =
    some (some (c!"<?xml version='1.0' ?><a x='&lt;new&gt;'><c y='2' z='it&apos;s'>kept<?p q?>a &amp; b</c><!-- note --><c>kept<?p q?></c></a>" ++ [NUL], 123)) := by
  decide +kernel

end Axl
