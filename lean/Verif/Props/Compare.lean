/-
C32 and C33: comparing and copying trees.
-/
import Verif.Proofs.Compare
import Verif.Props.Dump

namespace Axl
open Spec.Compare Str

/-- **C32**, documents: for documents whose attributes were made through the API, whose texts have no
terminator inside and whose instructions have content, axl_doc_are_equal_full answers true exactly
when the trees have the same names, the same attributes and the same items in the same order, texts
being compared as they are or, if asked, without the white space at their ends. -/
theorem C32_documents_partial (d e : Doc) (trimmed : Bool) (hd : Made Comparable d.root) (he : Made Comparable e.root) :
    ∃ r, d.areEqualFull e trimmed = some r ∧ (r = true ↔ SameNode (SameText trimmed) d.root e.root) :=
  deepEqual_spec trimmed _ _ (good_made (fun _ h => h) _ hd) (good_made (fun _ h => h) _ he)

/-- **C32**: it is reflexive, symmetric and transitive. -/
theorem C32_equivalence_partial (d e f : Doc) (trimmed : Bool) (hd : Made Comparable d.root)
    (he : Made Comparable e.root) (hf : Made Comparable f.root) :
    d.areEqualFull d trimmed = some true ∧
    d.areEqualFull e trimmed = e.areEqualFull d trimmed ∧
    (d.areEqualFull e trimmed = some true → e.areEqualFull f trimmed = some true →
      d.areEqualFull f trimmed = some true) := by
  have key : ∀ {x y : Doc}, Made Comparable x.root → Made Comparable y.root →
      (x.areEqualFull y trimmed = some true ↔ SameNode (SameText trimmed) x.root y.root) ∧
      (x.areEqualFull y trimmed = some false ↔ ¬ SameNode (SameText trimmed) x.root y.root) := by
    intro x y hx hy
    obtain ⟨r, e, h⟩ := C32_documents_partial x y trimmed hx hy
    rw [e, ← h]
    cases r <;> simp
  refine ⟨(key hd hd).1.2 (sameNode_refl (sameText_refl trimmed) _), ?_, ?_⟩
  · by_cases h : SameNode (SameText trimmed) d.root e.root
    · rw [(key hd he).1.2 h, (key he hd).1.2 (sameNode_symm sameText_symm h)]
    · rw [(key hd he).2.2 h, (key he hd).2.2 fun g => h (sameNode_symm sameText_symm g)]
  · intro h g
    exact (key hd hf).1.2 (sameNode_trans (R := SameText trimmed) sameText_trans _ ((key hd he).1.1 h) ((key he hf).1.1 g))

/-- axl_doc_are_equal is documented not to trim, but it does. -/
theorem C32_doc_are_equal_trims (d e : Doc) : d.areEqual e = d.areEqualFull e true ∧ d.areEqualTrimmed e = d.areEqualFull e true :=
  ⟨rfl, rfl⟩

/-- **C32**, nodes, for the part of the nodes that axl_node_are_equal looks at: it answers true
exactly when the names, the attributes and the numbers of children are the same and both nodes have
text or none has; the items themselves are not compared: `C32_items_not_compared`. -/
theorem C32_nodes_partial (n m : Node) (hn : n.attrs.Made) (hm : m.attrs.Made) :
    ∃ r, n.areEqual m = some r ∧ (r = true ↔ SameHead n m) := by
  obtain ⟨ps, hp⟩ := hn.rep
  obtain ⟨qs, hq⟩ := hm.rep
  obtain ⟨r, e, h⟩ := areEqual_spec hp hq
  exact ⟨r, e, h.trans (shallow_iff n m)⟩

/-- Eleven attributes, set in two orders (one of them the reverse of the other). -/
def manyAttrs (ks : List Char) : List Spec.Attr.Op := ks.map fun k => .set [k] [k, 'v']
def attrsUp : Attrs := (Attrs.empty.run (manyAttrs c!"abcdefghijk")).getD Attrs.empty
def attrsDown : Attrs := (Attrs.empty.run (manyAttrs c!"kjihgfedcba")).getD Attrs.empty

theorem made_attrsUp : attrsUp.Made := .of ⟨manyAttrs c!"abcdefghijk", by decide +kernel, getD_run (by decide +kernel)⟩
theorem made_attrsDown : attrsDown.Made := .of ⟨manyAttrs c!"kjihgfedcba", by decide +kernel, getD_run (by decide +kernel)⟩

def docOf (a : Attrs) (text : List Char) : Doc :=
  ⟨none, false, .mk c!"r" a (.leaf (.content text) (.node (.mk c!"b" Attrs.empty (.leaf (.pi ⟨c!"p", some c!"q"⟩) .nil)) .nil)), [], []⟩

theorem made_docOf {a : Attrs} (h : a.Made) {t : List Char} (ht : NUL ∉ t) : Made Comparable (docOf a t).root := by
  simp only [docOf, Made, MadeItems, Comparable]
  exact ⟨h, ht, ⟨made_empty, by simp⟩, trivial⟩

example : Made Comparable (docOf attrsUp c!"x").root ∧ Made Comparable (docOf attrsDown c!" x\n").root :=
  ⟨made_docOf made_attrsUp (by decide), made_docOf made_attrsDown (by decide)⟩
example : (docOf attrsUp c!"x").areEqualFull (docOf attrsDown c!"x") false = some true := by decide +kernel
example : (docOf attrsUp c!"x").areEqualFull (docOf attrsDown c!" x\n") true = some true := by decide +kernel
example : (docOf attrsUp c!"x").areEqualFull (docOf attrsDown c!" x\n") false = some false := by decide +kernel
example : (docOf attrsUp c!"x").areEqualFull (docOf attrsDown c!"y") true = some false := by decide +kernel

/-- Two nodes with different texts are equal for axl_node_are_equal. -/
theorem C32_items_not_compared :
    (Node.mk c!"a" Attrs.empty (.leaf (.content c!"x") .nil)).areEqual (.mk c!"a" Attrs.empty (.leaf (.content c!"y") .nil)) =
      some true := by decide

/-- A document with an instruction without content is not equal to itself. -/
theorem C32_pi_without_content :
    (⟨none, false, .mk c!"a" Attrs.empty (.leaf (.pi ⟨c!"p", none⟩) .nil), [], []⟩ : Doc).areEqualFull
      ⟨none, false, .mk c!"a" Attrs.empty (.leaf (.pi ⟨c!"p", none⟩) .nil), [], []⟩ false = some false := by
  decide +kernel

/-- **C33**: for a node whose attributes, and those of its descendants, were made through the API,
with no entity references and no terminator inside its texts, axl_node_copy gives a node with the
same name, the same attributes if asked and none otherwise, and the same items in the same order if
asked and none otherwise. -/
theorem C33_copy_partial (n : Node) (hn : Made Copiable n) (copyAttributes copyChilds : Bool) :
    ∃ m, n.copy copyAttributes copyChilds = some m ∧ m.name = n.name ∧
      (if copyAttributes then SameAttrs n.attrs m.attrs else m.attrs = Attrs.empty) ∧
      (if copyChilds then SameItems Eq n.items m.items else m.items = .nil) :=
  copy_flags _ _ n (good_made (fun _ h => h) n hn)

/-- **C33**: a full copy is equal to the node for the library itself. -/
theorem C33_copy_equal (n : Node) (hn : Made Copiable n) (hc : Made Comparable n) (trimmed : Bool) :
    ∃ m, n.copy true true = some m ∧ SameNode Eq n m ∧ n.areEqual m = some true ∧
      n.deepEqual trimmed m = some true := by
  have g := good_made (fun _ h => h) n hn
  have gc := good_made (fun _ h => h) n hc
  obtain ⟨m, e, hs, hg⟩ := copy_node n g
  have hs' : SameNode (SameText trimmed) n m := sameNode_mono (fun h => h ▸ sameText_refl _ _) hs
  obtain ⟨r, e1, h1⟩ := areEqual_spec g.rep.choose_spec hg.rep.choose_spec
  obtain ⟨r2, e2, h2⟩ := deepEqual_spec trimmed n m gc (good_same hs gc hg)
  refine ⟨m, e, hs, ?_, ?_⟩
  · rw [e1, h1.2]
    cases hs with
    | mk _ ha h => exact ⟨rfl, same_isEmpty h, same_haveChilds h, same_childNum h, ha⟩
  · rw [e2, h2.2 hs']

theorem copiable_docOf {a : Attrs} (h : a.Made) {t : List Char} (ht : NUL ∉ t) : Made Copiable (docOf a t).root := by
  simp only [docOf, Made, MadeItems, Copiable]
  exact ⟨h, ht, ⟨made_empty, trivial, trivial⟩, trivial⟩

example : Made Copiable (docOf attrsUp c!"x").root ∧ Made Comparable (docOf attrsUp c!"x").root :=
  ⟨copiable_docOf made_attrsUp (by decide), made_docOf made_attrsUp (by decide)⟩
example : ((docOf attrsUp c!"x").root.copy true true).bind (fun m => m.deepEqual false (docOf attrsDown c!"x").root) = some true := by
  decide +kernel
example : ((docOf attrsUp c!"x").root.copy false false).map (fun m => (m.name, m.attrs.num, m.items.childNum)) =
    some (c!"r", 0, 0) := by decide +kernel

/-- A reference is copied without its data: the copy cannot be used. -/
theorem C33_reference : (Node.mk c!"a" Attrs.empty (.leaf (.ref c!"x") .nil)).copy true true = none := by decide +kernel

end Axl
