/-
Property C27: parsing the dump of a document gives the document back.
-/
import Verif.Proofs.RoundTrip
import Verif.Props.Dump
import Verif.Props.Parse

namespace Axl
open Str Parse Dump Spec.Dump Spec.RoundTrip Spec.Xml

/-- **C27** (partial).  For every document, axl_doc_parse accepts what axl_doc_dump writes and gives a
document with the same encoding, names, attributes, values and items in the same order; comments come
back with the blanks added around them.  Missing: the texts, names and values that `FineDoc` leaves
out, for which it is false (see the theorems below). -/
theorem C27_round_trip_partial (d : Doc) (h : FineDoc .plain d) :
    ∃ (text : List Char) (d' : Doc), docDumpPlain d = some (some (text ++ [NUL], (text.length : Int))) ∧
      parse text = .ok d' ∧ SameDoc d d' := by
  obtain ⟨d', h1, h2⟩ := parse_fine .plain h
  exact ⟨_, d', dumpDoc_spec (y := .plain) rfl d h.noValue (fine_writable _ _ h.root), h1, h2⟩

/-- **C27** (pretty, partial).  The same for axl_doc_dump_pretty with any number of blanks, if no node has
texts among nodes, comments or instructions. -/
theorem C27_round_trip_pretty_partial (d : Doc) (tabular : Nat) (h : FineDoc (.pretty tabular) d) :
    ∃ (text : List Char) (d' : Doc), docDumpPretty d tabular = some (some (text ++ [NUL], (text.length : Int))) ∧
      parse text = .ok d' ∧ SameDoc d d' := by
  obtain ⟨d', h1, h2⟩ := parse_fine (.pretty tabular) h
  exact ⟨_, d', dumpDoc_spec (y := .pretty tabular) ⟨rfl, rfl⟩ d h.noValue (fine_writable _ _ h.root), h1, h2⟩

/-- A document with attributes, nested nodes, a text, a section, a comment and an instruction. -/
def C27_example : Doc :=
  ⟨some c!"utf-8", true, .mk c!"a" C26_attrs (.node (.mk c!"b" Attrs.empty (.leaf (.content c!" te xt ") (.leaf (.cdata c!"<&") .nil)))
    (.leaf (.comment c!"note") (.leaf (.pi ⟨c!"p", some c!"q"⟩) (.node (.mk c!"e" Attrs.empty .nil) .nil)))), [], []⟩

instance (c : Char) : Decidable (White c) := inferInstanceAs (Decidable (_ ∨ _))
instance (c : Char) : Decidable (NameChar c) := inferInstanceAs (Decidable (_ ∧ _))
instance (n : List Char) : Decidable (IsName n) := inferInstanceAs (Decidable (_ ∧ _))

instance (v : List Char) : Decidable (Quotable v) := inferInstanceAs (Decidable (_ ∧ _))
instance (n v : List Char) : Decidable (FineAttr n v) := inferInstanceAs (Decidable (_ ∧ _ ∧ (_ → _)))
instance (m t : List Char) : Decidable (UpTo m t) := inferInstanceAs (Decidable (¬ _))
instance (t : List Char) : Decidable (Blank t) := inferInstanceAs (Decidable (∀ c ∈ t, White c))

theorem C27_attrs_fine : ∀ n v, C26_attrs.getValue n = some (some v) → FineAttr n v := by
  intro n v h
  have hrun : Attrs.empty.run [.set c!"x" c!"1", .set c!"y" c!"it's"] = some C26_attrs := getD_run (by decide +kernel)
  obtain ⟨a, h1, -, h2, -⟩ := C22_attributes_are_a_map_partial [.set c!"x" c!"1", .set c!"y" c!"it's"]
    (by decide +kernel) (by decide +kernel) (by decide +kernel)
  rw [hrun] at h1
  cases h1
  rw [h2 n] at h
  have hp : Spec.Attr.pairs [Spec.Attr.Op.set c!"x" c!"1", .set c!"y" c!"it's"].reverse = [(c!"y", c!"it&apos;s"), (c!"x", c!"1")] := by
    decide +kernel
  simp only [Spec.Attr.value, hp, Option.some.injEq, Option.map_eq_some_iff] at h
  obtain ⟨p, h3, h4⟩ := h
  have h5 := List.mem_of_find?_eq_some h3
  have h6 := List.find?_some h3
  simp only [beq_iff_eq] at h6
  subst h4 h6
  simp only [List.mem_cons, List.not_mem_nil, or_false] at h5
  rcases h5 with rfl | rfl <;> decide +kernel

theorem C27_empty_fine : ∀ n v, Attrs.empty.getValue n = some (some v) → FineAttr n v := by
  intro n v h
  rw [(Attrs.rep_find Attrs.rep_empty n).2] at h
  simp at h

theorem C27_example_fine (y : Layout) : FineDoc y C27_example := by
  refine ⟨?_, ?_, rfl, rfl⟩
  · intro e he
    simp only [C27_example, Option.mem_def, Option.some.injEq] at he
    subst he
    decide +kernel
  · have hmade : C26_attrs.Made := (C26_writable).1
    simp only [C27_example, Fine, FineItems, FineLeaf, Allowed, after, NoContent, hasBlocks, SlashFirst]
    refine ⟨by decide +kernel, hmade, C27_attrs_fine, Or.inr fun _ => trivial, fun h => h.2,
      ⟨by decide +kernel, made_empty, C27_empty_fine, Or.inr (by simp), fun h => absurd h.2 (by decide +kernel), by decide +kernel, trivial, by decide +kernel, trivial, trivial⟩,
      by decide +kernel, trivial, ⟨by decide +kernel, ?_, _, rfl, by decide +kernel, by decide +kernel, by decide +kernel⟩, trivial,
      ⟨by decide +kernel, made_empty, C27_empty_fine, Or.inr fun h => h.elim, fun h => h.2, trivial⟩, trivial⟩
    rintro ⟨x, m, l, h, _⟩
    simp at h

example : ∃ (text : List Char) (d' : Doc), docDumpPlain C27_example = some (some (text ++ [NUL], (text.length : Int))) ∧
    parse text = .ok d' ∧ SameDoc C27_example d' := C27_round_trip_partial _ (C27_example_fine .plain)

example : ∃ (text : List Char) (d' : Doc), docDumpPretty C27_example 2 = some (some (text ++ [NUL], (text.length : Int))) ∧
    parse text = .ok d' ∧ SameDoc C27_example d' := C27_round_trip_pretty_partial _ 2 (C27_example_fine (.pretty 2))

/-- The items of the root: its texts, comments and instructions, and `none` for each node. -/
def C27_rootItems (d : Doc) : List (Option Leaf) := go d.root.items
where go : Items → List (Option Leaf)
  | .nil => []
  | .node _ next => none :: go next
  | .leaf l next => some l :: go next

/-- A document with only a root, `<a>`, that has these items. -/
def C27_doc (items : Items) : Doc := ⟨none, false, .mk c!"a" Attrs.empty items, [], []⟩

/-- What is read from the dump of a document. -/
def C27_read (d : Doc) : Option Doc :=
  match docDumpPlain d with
  | some (some (text, n)) => (parse (text.take n.toNat)).toOption
  | _ => none

theorem C27_read_eq {d : Doc} {text : List Char} (hv : d.noValue = []) (hw : Writable d.root) (ht : docText written .plain d = text) :
    C27_read d = (parse text).toOption := by
  unfold C27_read
  rw [show docDumpPlain d = _ from dumpDoc_spec (y := .plain) rfl d hv hw]
  simp [ht]

/-- **C27 fails** for a text of only white spaces: it is lost. -/
theorem C27_white_text : (C27_read (C27_doc (.leaf (.content c!" ") .nil))).map C27_rootItems = some [] := by
  rw [C27_read_eq (d := C27_doc (.leaf (.content c!" ") .nil)) (text := c!"<?xml version='1.0' ?><a> </a>") rfl
    ⟨made_empty, trivial, trivial⟩ (by decide +kernel)]
  decide +kernel

/-- **C27 fails** for a text that begins with `/>` just after the tag of a node without attributes: it is lost. -/
theorem C27_slash_text : (C27_read (C27_doc (.leaf (.content c!"/>x") .nil))).map C27_rootItems = some [] := by
  rw [C27_read_eq (d := C27_doc (.leaf (.content c!"/>x") .nil)) (text := c!"<?xml version='1.0' ?><a>/>x</a>") rfl
    ⟨made_empty, trivial, trivial⟩ (by decide +kernel)]
  decide +kernel

/-- **C27 fails** for two texts in a row: they come back as one. -/
theorem C27_two_texts : (C27_read (C27_doc (.leaf (.content c!"x") (.leaf (.content c!"y") .nil)))).map C27_rootItems =
    some [some (.content c!"xy")] := by
  rw [C27_read_eq (d := C27_doc (.leaf (.content c!"x") (.leaf (.content c!"y") .nil))) (text := c!"<?xml version='1.0' ?><a>xy</a>") rfl
    ⟨made_empty, trivial, trivial, trivial⟩ (by decide +kernel)]
  decide +kernel

/-- **C27 fails** for a text that begins with a white space after a comment: the white space is lost. -/
theorem C27_text_after_comment : (C27_read (C27_doc (.leaf (.comment c!" c ") (.leaf (.content c!" x") .nil)))).map C27_rootItems =
    some [some (.comment c!" c "), some (.content c!"x")] := by
  rw [C27_read_eq (d := C27_doc (.leaf (.comment c!" c ") (.leaf (.content c!" x") .nil)))
    (text := c!"<?xml version='1.0' ?><a><!-- c --> x</a>") rfl
    ⟨made_empty, by simp [Leaf.Writable], trivial, trivial⟩ (by decide +kernel)]
  decide +kernel

/-- **C27 fails** for a reference to an entity: it comes back as a text. -/
theorem C27_reference : (C27_read (C27_doc (.leaf (.content c!"x") (.leaf (.ref c!"r") .nil)))).map C27_rootItems =
    some [some (.content c!"x&r;")] := by
  rw [C27_read_eq (d := C27_doc (.leaf (.content c!"x") (.leaf (.ref c!"r") .nil))) (text := c!"<?xml version='1.0' ?><a>x&r;</a>") rfl
    ⟨made_empty, trivial, trivial, trivial⟩ (by decide +kernel)]
  decide +kernel

/-- **C27 fails** for a section with its own end mark: the rest comes back as a text. -/
theorem C27_section_end : (C27_read (C27_doc (.leaf (.cdata c!"]]>") .nil))).map C27_rootItems =
    some [some (.cdata []), some (.content c!"]]>")] := by
  rw [C27_read_eq (d := C27_doc (.leaf (.cdata c!"]]>") .nil)) (text := c!"<?xml version='1.0' ?><a><![CDATA[]]>]]></a>") rfl
    ⟨made_empty, trivial, trivial⟩ (by decide +kernel)]
  decide +kernel

/-- **C27 fails** for the instructions out of the root: they are lost. -/
theorem C27_instructions : (C27_read { C27_doc .nil with pis := [⟨c!"p", some c!"q"⟩] }).map (·.pis) = some [] := by
  rw [C27_read_eq (d := { C27_doc .nil with pis := [⟨c!"p", some c!"q"⟩] }) (text := c!"<?xml version='1.0' ?><a />") rfl
    ⟨made_empty, trivial⟩ (by decide +kernel)]
  decide +kernel

end Axl
