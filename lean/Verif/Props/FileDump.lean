/-
Property C56: what is written to a file is what is dumped, and it can be read again.
-/
import Verif.Proofs.FileLost
import Verif.Props.RoundTrip

namespace Axl
open FileDump Dump Spec.Dump Spec.RoundTrip Spec.FileDump FileParse

/-- The system opens the file, takes that many bytes and keeps them. -/
def Stores (sys : System) (size : Nat) : Prop := sys.opens = true ∧ size ≤ sys.taken ∧ size ≤ sys.kept

/-- What a function that writes a text to a file must do: the result tells if the file was opened and all of the text
was taken; then, if the system keeps it, the file has the text and nothing else; without opening it, the file is as before. -/
structure WritesText (f : System → Option (Bool × Option (List Char))) (text : List Char) : Prop where
  result : ∀ sys, ∃ ok file, f sys = some (ok, file) ∧ (ok = true ↔ sys.opens = true ∧ text.length ≤ sys.taken) ∧
    (sys.opens = false → file = sys.before) ∧ (ok = true → text.length ≤ sys.kept → file = some text)
  part   : ∀ sys ok file, f sys = some (ok, file) → sys.opens = true → ∃ t, file = some t ∧ t <+: text

theorem writes_of {text : List Char} {dump : Option (Option (List Char × Int))} (h : dump = some (some (text ++ [Str.NUL], (text.length : Int)))) :
    WritesText (toFile dump) text := by
  subst h
  refine ⟨fun sys => ⟨(store sys (text ++ [Str.NUL]) text.length).1, (store sys (text ++ [Str.NUL]) text.length).2, rfl, ?_, ?_, ?_⟩, ?_⟩
  · unfold store
    cases sys.opens
    · simp
    · simp
      omega
  · intro h
    simp [store, h]
  · unfold store
    cases sys.opens
    · simp
    · simp only [Bool.not_true, Bool.false_eq_true, if_false, Int.toNat_natCast]
      intro h1 h2
      have : min sys.taken text.length = text.length := by
        have h3 : ((min sys.taken text.length : Nat) : Int) = text.length := by simpa using h1
        omega
      rw [this, List.take_append_of_le_length (by omega), List.take_length, List.take_of_length_le h2]
  · intro sys ok file h ho
    simp only [toFile, store, ho, Bool.not_true, Bool.false_eq_true, if_false, Int.toNat_natCast, Option.some.injEq, Prod.mk.injEq] at h
    refine ⟨_, h.2.symm, ?_⟩
    rw [List.take_append_of_le_length (by omega), List.take_take]
    exact List.take_prefix _ _

/-- **C56** (partial).  axl_doc_dump_to_file and axl_doc_dump_pretty_to_file write the text of the document, that of
axl_doc_dump and axl_doc_dump_pretty, and nothing else: whatever the system does, the result tells whether all of the
text was taken, and the file has a prefix of it.  Missing: that a result of `axl_true` means that the text is in the file (see
`C56_close`), and what `Writable` leaves out (see C26). -/
theorem C56_doc_written_partial :
    ∃ ord : Order, ord.Good ∧ ∀ d : Doc, d.noValue = [] → Writable d.root →
      WritesText (docToFile d) (docText ord .plain d) ∧
      ∀ tabular : Nat, WritesText (docPrettyToFile d tabular) (docText ord (.pretty tabular) d) :=
  ⟨written, written_good, fun d hv hw => ⟨writes_of (dumpDoc_spec (y := .plain) rfl d hv hw),
    fun t => writes_of (dumpDoc_spec (y := .pretty t) ⟨rfl, rfl⟩ d hv hw)⟩⟩

/-- **C56** (partial).  axl_node_dump_pretty_to_file writes the text of axl_node_dump_pretty; axl_node_dump_to_file
too, that of no blanks.  Missing: as before, and that axl_node_dump_to_file writes the text of axl_node_dump (see
`C56_node_lines`). -/
theorem C56_node_written_partial :
    ∃ ord : Order, ord.Good ∧ ∀ n : Node, Writable n →
      WritesText (nodeToFile n) (nodeText ord (.pretty 0) 0 n) ∧
      ∀ tabular : Nat, WritesText (nodePrettyToFile n tabular) (nodeText ord (.pretty tabular) 0 n) :=
  ⟨written, written_good, fun n hw => ⟨writes_of (dumpNode_spec (y := .pretty 0) ⟨rfl, rfl⟩ 0 n hw),
    fun t => writes_of (dumpNode_spec (y := .pretty t) ⟨rfl, rfl⟩ 0 n hw)⟩⟩

/-- **C56**: not of the code.  A disk that is full when the file is closed: the result is `axl_true` and the file is
empty. -/
theorem C56_close : docToFile (C27_doc .nil) ⟨true, 4096, 0, none⟩ = some (true, some []) := by
  have h : dumpDoc (C27_doc .nil) false 0 = _ := dumpDoc_spec (y := .plain) rfl (C27_doc .nil) rfl ⟨made_empty, trivial⟩
  unfold docToFile
  rw [h, show docText written .plain (C27_doc .nil) = c!"<?xml version='1.0' ?><a />" by decide +kernel]
  decide +kernel

/-- **C56**: not of the code.  What axl_node_dump_to_file writes is not what axl_node_dump gives: there are line ends. -/
theorem C56_node_lines :
    nodeDumpPlain (.mk c!"a" Attrs.empty (.node (.mk c!"b" Attrs.empty .nil) .nil)) = some (some (c!"<a><b /></a>" ++ [Str.NUL], 12)) ∧
    nodeToFile (.mk c!"a" Attrs.empty (.node (.mk c!"b" Attrs.empty .nil) .nil)) ⟨true, 4096, 4096, none⟩ =
      some (true, some c!"<a>\n<b />\n</a>\n") := by
  have hw : Writable (.mk c!"a" Attrs.empty (.node (.mk c!"b" Attrs.empty .nil) .nil)) := ⟨made_empty, ⟨made_empty, trivial⟩, trivial⟩
  constructor
  · refine (dumpNode_spec (y := .plain) rfl 0 _ hw).trans ?_
    decide +kernel
  · have h := dumpNode_spec (y := .pretty 0) ⟨rfl, rfl⟩ 0 _ hw
    unfold nodeToFile
    rw [show dumpNode _ true 0 0 = _ from h, show nodeText written (.pretty 0) 0 (.mk c!"a" Attrs.empty (.node (.mk c!"b" Attrs.empty .nil) .nil)) =
      c!"<a>\n<b />\n</a>\n" by decide +kernel]
    decide +kernel

theorem stored {text : List Char} {f : System → Option (Bool × Option (List Char))} (h : WritesText f text) {sys : System} (hs : Stores sys text.length) :
    f sys = some (true, some text) := by
  obtain ⟨ok, file, h1, h2, -, h3⟩ := h.result sys
  have hok : ok = true := h2.2 ⟨hs.1, hs.2.1⟩
  rw [h1, hok, h3 hok hs.2.2]

/-- **C56** (partial).  A document whose text has up to 8192 bytes, written to a file with axl_doc_dump_to_file and
read with axl_doc_parse_from_file, is the same document.  Missing: what `FineDoc` leaves out (see C27), texts that begin
with white space and items with a `>` (see `C55_leading_white`), and larger texts (see `C56_lost`). -/
theorem C56_read_back_partial (d : Doc) (h : FineDoc .plain d) (hc : CalmDoc true d) :
    ∃ text, docDumpPlain d = some (some (text ++ [Str.NUL], (text.length : Int))) ∧
      ∀ sys, Stores sys text.length → ∃ file, docToFile d sys = some (true, file) ∧
        (text.length ≤ 8192 → ∃ d', parseFile file = .ok d' ∧ SameDoc d d') := by
  have hd := dumpDoc_spec (pretty := false) (tabular := 0) (y := .plain) rfl d h.noValue (Parse.fine_writable _ _ h.root)
  exact ⟨_, hd, fun sys hs => ⟨_, stored (writes_of hd) hs, fun hl => back_small h hc hl⟩⟩

/-- **C56** (pretty, partial).  The same with axl_doc_dump_pretty_to_file; if there are no comments, instructions and
CDATA sections, for documents of any size. -/
theorem C56_read_back_pretty_partial (d : Doc) (tabular : Nat) (h : FineDoc (.pretty tabular) d) (misc : Bool) (hc : CalmDoc misc d) :
    ∃ text, docDumpPretty d tabular = some (some (text ++ [Str.NUL], (text.length : Int))) ∧
      ∀ sys, Stores sys text.length → ∃ file, docPrettyToFile d tabular sys = some (true, file) ∧
        (misc = false ∨ text.length ≤ 8192 → ∃ d', parseFile file = .ok d' ∧ SameDoc d d') := by
  have hd := dumpDoc_spec (y := .pretty tabular) ⟨rfl, rfl⟩ d h.noValue (Parse.fine_writable _ _ h.root)
  refine ⟨_, hd, fun sys hs => ⟨_, stored (writes_of hd) hs, fun hl => ?_⟩⟩
  cases misc with
  | false => exact back_big h hc
  | true => exact back_small h hc (hl.resolve_left (by simp))

/-- An element with a text of this many characters. -/
def longDoc (k : Nat) : Doc := ⟨none, false, .mk c!"abcdefghijklmnop" Attrs.empty (.leaf (.content (List.replicate k 'x')) .nil), [], []⟩

theorem longDoc_fine (y : Layout) (k : Nat) : FineDoc y (longDoc (k + 1)) := by
  refine ⟨by simp [longDoc], ?_, rfl, rfl⟩
  simp only [longDoc, Fine, FineItems, FineLeaf, Allowed, after, NoContent, hasBlocks, SlashFirst]
  refine ⟨by decide +kernel, made_empty, C27_empty_fine, Or.inr (by simp), ?_, ⟨?_, ?_, ?_⟩, trivial, trivial⟩
  · rintro ⟨-, t, ht⟩
    simp [List.replicate_succ] at ht
  · intro h
    have := h 'x' (by simp)
    simp [Spec.Xml.White] at this
  · simp [List.mem_replicate]
  · intro h
    have := (List.mem_replicate.1 h).2
    revert this
    decide

theorem longDoc_calm (misc : Bool) (k : Nat) : CalmDoc misc (longDoc k) := by
  refine ⟨by simp [longDoc], ?_⟩
  simp only [longDoc, Calm, CalmItems, CalmLeaf]
  refine ⟨?_, ⟨by simp [List.mem_replicate], ?_⟩, trivial⟩
  · intro n v h
    rw [(Attrs.rep_find Attrs.rep_empty n).2] at h
    simp at h
  · intro c hc
    cases k with
    | zero => simp at hc
    | succ k =>
      simp [List.replicate_succ] at hc
      subst hc
      simp [Spec.Xml.White]

theorem longDoc_text (k : Nat) : docText written .plain (longDoc k) = lostText k ++ c!">" := by
  have hw : written Attrs.empty = [] := by decide +kernel
  simp [docText, longDoc, headerText, encodingText, nodeText, itemsText, leafText, hasBlocks, hasTexts, Layout.pad, Layout.line, lostText, hw]

theorem longDoc_pretty (k : Nat) : (docText written (.pretty 2) (longDoc k)).length = k + 61 := by
  have hw : written Attrs.empty = [] := by decide +kernel
  simp [docText, longDoc, headerText, encodingText, nodeText, itemsText, leafText, hasBlocks, hasTexts, Layout.pad, Layout.line, hw]

theorem lostText_length (k : Nat) : (lostText k).length = k + 58 := by
  simp [lostText]

theorem lostText_new (k : Nat) (hk : k + 58 = 8192) :
    FileStream.new ⟨lostText k ++ c!">", []⟩ 8192 = on 8192 (some ⟨c!">", []⟩) [] (lostText k) := by
  have hl : (lostText k).length = 8192 := by rw [lostText_length, hk]
  unfold FileStream.new FileStream.readPlain FileStream.Source.read FileStream.accepts
  simp only [List.length_nil, Nat.sub_zero, Bool.not_true, Bool.false_eq_true, if_false]
  rw [List.take_left' hl, List.drop_left' hl]
  have : (lostText k).isEmpty = false := rfl
  simp [this, on]

theorem long_lost (k : Nat) (hk : k + 1 + 58 = 8192) :
    ∃ text d', docToFile (longDoc (k + 1)) ⟨true, 10000, 10000, none⟩ = some (true, some text) ∧
      Parse.parse text = .ok d' ∧ SameDoc (longDoc (k + 1)) d' ∧ parseFile (some text) = .error ∧
      ∃ text' d', docPrettyToFile (longDoc (k + 1)) 2 ⟨true, 10000, 10000, none⟩ = some (true, some text') ∧
        parseFile (some text') = .ok d' ∧ SameDoc (longDoc (k + 1)) d' := by
  obtain ⟨d', h1, h2⟩ := Parse.parse_fine .plain (longDoc_fine .plain k)
  have hw := Parse.fine_writable .plain _ (longDoc_fine .plain k).root
  have hlen : (docText written .plain (longDoc (k + 1))).length = k + 1 + 59 := by
    rw [longDoc_text, List.length_append, lostText_length]
    rfl
  have hd := dumpDoc_spec (pretty := false) (tabular := 0) (y := .plain) rfl (longDoc (k + 1)) rfl hw
  refine ⟨_, d', stored (writes_of hd) ⟨rfl, ?_, ?_⟩, h1, h2, ?_, ?_⟩
  · rw [hlen]
    show _ ≤ 10000
    omega
  · rw [hlen]
    show _ ≤ 10000
    omega
  · rw [longDoc_text]
    show parseStream (FileStream.new ⟨lostText (k + 1) ++ c!">", []⟩ 8192) = .error
    rw [lostText_new _ hk]
    exact lost_parse k
  · have hd' := dumpDoc_spec (pretty := true) (tabular := 2) (y := .pretty 2) ⟨rfl, rfl⟩ (longDoc (k + 1)) rfl hw
    obtain ⟨d', h3, h4⟩ := back_big (longDoc_fine (.pretty 2) k) (longDoc_calm false (k + 1))
    refine ⟨_, d', stored (writes_of hd') ⟨rfl, ?_, ?_⟩, h3, h4⟩
    · rw [longDoc_pretty]
      show _ ≤ 10000
      omega
    · rw [longDoc_pretty]
      show _ ≤ 10000
      omega

/-- **C56**: not of the code.  An element with a text of 8134 characters: what axl_doc_dump_to_file writes is the text of
the document, it is parsed from memory, and axl_doc_parse_from_file gives an error for the file.  Written with
axl_doc_dump_pretty_to_file, it is read. -/
theorem C56_lost : ∃ text d', docToFile (longDoc 8134) ⟨true, 10000, 10000, none⟩ = some (true, some text) ∧
    Parse.parse text = .ok d' ∧ SameDoc (longDoc 8134) d' ∧ parseFile (some text) = .error ∧
    ∃ text' d', docPrettyToFile (longDoc 8134) 2 ⟨true, 10000, 10000, none⟩ = some (true, some text') ∧
      parseFile (some text') = .ok d' ∧ SameDoc (longDoc 8134) d' :=
  long_lost 8133 (by decide)

/-- A document with all kinds of items that is read back. -/
def calmDoc : Doc :=
  ⟨some c!"utf-8", true, .mk c!"a" C26_attrs (.node (.mk c!"b" Attrs.empty (.leaf (.content c!"te xt ") (.leaf (.cdata c!"<&") .nil)))
    (.leaf (.comment c!"note") (.leaf (.pi ⟨c!"p", some c!"q"⟩) (.node (.mk c!"e" Attrs.empty .nil) .nil)))), [], []⟩

theorem calmDoc_fine (y : Layout) : FineDoc y calmDoc := by
  refine ⟨?_, ?_, rfl, rfl⟩
  · intro e he
    simp only [calmDoc, Option.mem_def, Option.some.injEq] at he
    subst he
    decide +kernel
  · have hmade : C26_attrs.Made := (C26_writable).1
    simp only [calmDoc, Fine, FineItems, FineLeaf, Allowed, after, NoContent, hasBlocks, SlashFirst]
    refine ⟨by decide +kernel, hmade, C27_attrs_fine, Or.inr fun _ => trivial, fun h => h.2,
      ⟨by decide +kernel, made_empty, C27_empty_fine, Or.inr (by simp), fun h => absurd h.2 (by decide +kernel), by decide +kernel, trivial, by decide +kernel, trivial, trivial⟩,
      by decide +kernel, trivial, ⟨by decide +kernel, ?_, _, rfl, by decide +kernel, by decide +kernel, by decide +kernel⟩, trivial,
      ⟨by decide +kernel, made_empty, C27_empty_fine, Or.inr fun h => h.elim, fun h => h.2, trivial⟩, trivial⟩
    rintro ⟨x, m, l, h, _⟩
    simp at h

theorem calmDoc_values : ∀ n v, C26_attrs.getValue n = some (some v) → '>' ∉ v ∧ (true = false → '<' ∉ v) := by
  intro n v h
  have hrun : Attrs.empty.run [.set c!"x" c!"1", .set c!"y" c!"it's"] = some C26_attrs := getD_run (by decide +kernel)
  obtain ⟨a, h1, -, h2, -⟩ := C22_attributes_are_a_map_partial [.set c!"x" c!"1", .set c!"y" c!"it's"]
    (by decide +kernel) (by decide +kernel) (by decide +kernel)
  rw [hrun] at h1
  cases h1
  rw [h2 n] at h
  have hp : Spec.Attr.pairs [Spec.Attr.Op.set c!"x" c!"1", .set c!"y" c!"it's"].reverse = [(c!"y", c!"it&apos;s"), (c!"x", c!"1")] := by
    decide +kernel
  simp only [Spec.Attr.value, hp, Option.some.injEq, Option.map_eq_some_iff] at h
  obtain ⟨p, h3, h4⟩ := h
  have h5 := List.mem_of_find?_eq_some h3
  subst h4
  simp only [List.mem_cons, List.not_mem_nil, or_false] at h5
  rcases h5 with rfl | rfl <;> decide +kernel

theorem calmDoc_calm : CalmDoc true calmDoc := by
  refine ⟨?_, ?_⟩
  · intro e he
    simp only [calmDoc, Option.mem_def, Option.some.injEq] at he
    subst he
    decide +kernel
  · have he : ∀ n v, Attrs.empty.getValue n = some (some v) → '>' ∉ v ∧ (true = false → '<' ∉ v) := by
      intro n v h
      rw [(Attrs.rep_find Attrs.rep_empty n).2] at h
      simp at h
    simp only [calmDoc, Calm, CalmItems, CalmLeaf]
    exact ⟨calmDoc_values, ⟨he, ⟨by decide, by simp [Spec.Xml.White]⟩, ⟨trivial, by decide⟩, trivial⟩, ⟨trivial, by decide⟩, ⟨trivial, by simp⟩, ⟨he, trivial⟩, trivial⟩

example : ∃ text file d', docDumpPlain calmDoc = some (some (text ++ [Str.NUL], (text.length : Int))) ∧
    docToFile calmDoc ⟨true, 4096, 4096, some c!"old"⟩ = some (true, file) ∧ parseFile file = .ok d' ∧ SameDoc calmDoc d' := by
  obtain ⟨text, h1, h2⟩ := C56_read_back_partial calmDoc (calmDoc_fine .plain) calmDoc_calm
  have hd := dumpDoc_spec (pretty := false) (tabular := 0) (y := .plain) rfl calmDoc rfl (Parse.fine_writable .plain _ (calmDoc_fine .plain).root)
  have hlen : text.length ≤ 4096 := by
    have := hd.symm.trans h1
    simp only [Option.some.injEq, Prod.mk.injEq, Int.ofNat_inj] at this
    rw [← this.2]
    decide +kernel
  obtain ⟨file, h3, h4⟩ := h2 ⟨true, 4096, 4096, some c!"old"⟩ ⟨rfl, hlen, hlen⟩
  obtain ⟨d', h5, h6⟩ := h4 (by omega)
  exact ⟨text, file, d', h1, h3, h5, h6⟩

/-- A system without room: the result is `axl_false` and the file has the beginning of the text. -/
example : docToFile (C27_doc .nil) ⟨true, 10, 10, none⟩ = some (false, some c!"<?xml vers") := by
  have h : dumpDoc (C27_doc .nil) false 0 = _ := dumpDoc_spec (y := .plain) rfl (C27_doc .nil) rfl ⟨made_empty, trivial⟩
  unfold docToFile
  rw [h, show docText written .plain (C27_doc .nil) = c!"<?xml version='1.0' ?><a />" by decide +kernel]
  decide +kernel

end Axl
