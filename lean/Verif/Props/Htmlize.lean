/-
Property C64: the page that axl-knife --htmlize writes for a document shows the document.
-/
import Verif.Proofs.Htmlize
import Verif.Props.Dump

namespace Axl
open Str Spec.Dump Spec.Htmlize Htmlize

/-- The tag that opens the page. -/
def preTag : Option (List Char) → List Char
  | some k => c!"pre class='" ++ k ++ c!"'"
  | none => c!"pre"

theorem htmlize_page (skip : Bool) (k : Option (List Char)) (hk : ∀ s, k = some s → '>' ∉ s) (n : Node) (h : Without '<' n) :
    ∃ page ts, htmlize skip k n = some page ∧ scan none page = .tag (preTag k) :: .char '\n' :: (ts ++ [.tag c!"/pre", .char '\n']) ∧
      Spans (tagsOf ts) ∧ (Without '&' n ∧ Showable n →
        ∃ v, Shows (charsOf ts) v ∧ norm v = norm (nodeText cursorOrder .plain 0 n)) := by
  obtain ⟨t, h1, ts, h2, h3, h4⟩ := node_spec skip 0 n h
  refine ⟨opening k ++ (t ++ c!"</pre>\n"), ts,
    by unfold htmlize; rw [h1]; rfl, ?_, h3, h4⟩
  have h5 : scan none (t ++ c!"</pre>\n") = ts ++ [.tag c!"/pre", .char '\n'] := by rw [h2]; rfl
  have h6 : ∀ u : List Char, '>' ∉ u → ∀ r, scan none ('<' :: (u ++ '>' :: '\n' :: r)) = .tag u :: .char '\n' :: scan none r := by
    intro u hu r
    have := piece_tag hu ('\n' :: r)
    simpa [scan] using this
  cases k with
  | none => rw [← h5]; exact h6 c!"pre" (by decide) _
  | some k =>
    have := h6 (preTag (some k)) (by simp [preTag, hk k rfl]) (t ++ c!"</pre>\n")
    rw [← h5, ← this]
    simp [preTag, opening]

/-- **C64** (tags).  Whatever the texts, sections and comments of the document, if no name and no value of an attribute has
a `<` then the tags of the page are the ones of axl-knife: `pre`, and in it spans of its four classes, each one closed. -/
theorem C64_tags (skip : Bool) (k : Option (List Char)) (hk : ∀ s, k = some s → '>' ∉ s) (n : Node) (h : Without '<' n) :
    ∃ page spans, htmlize skip k n = some page ∧ Spans spans ∧ tags page = preTag k :: (spans ++ [c!"/pre"]) := by
  obtain ⟨page, ts, h1, h2, h3, -⟩ := htmlize_page skip k hk n h
  refine ⟨page, _, h1, h3, ?_⟩
  rw [tags, h2]
  simp [tagsOf, tagsOf_append]

/-- **C64** (partial).  The text that the page shows is the one of the document, but for white space, the kind of quotes and
the order of the attributes: each one is shown once, and from the last set to the first if there were never more than ten.
Missing: `&` in a text, a name or a value; `<` in a name or a value; instructions and references; elements without
attributes and without content (see the theorems below). -/
theorem C64_shown_partial :
    ∃ ord : Order, (∀ a : Attrs, a.Made → a.Lists (ord a)) ∧
      (∀ (ops : List Spec.Attr.Op) (a : Attrs), Spec.Attr.NoNul NUL ops → AtMostTen ops.reverse →
        Attrs.empty.run ops = some a → ord a = Spec.Attr.pairs ops.reverse) ∧
      ∀ (skip : Bool) (k : Option (List Char)) (n : Node), (∀ s, k = some s → '>' ∉ s) →
        Without '<' n → Without '&' n → Showable n →
        ∃ page, htmlize skip k n = some page ∧ norm (shown page) = norm (nodeText ord .plain 0 n) := by
  refine ⟨cursorOrder, fun a h => ?_, fun ops a hn hl hr => ?_, fun skip k n hk h1 h2 h3 => ?_⟩
  · obtain ⟨_, _, _, h, _⟩ := cursorOrder_reads h
    exact h
  · have := Dump.ordered_run ops [] (a := Attrs.empty) (b := a) ⟨rfl, [], rfl, rfl⟩ hn (by simpa using hl) hr
    rw [List.append_nil] at this
    obtain ⟨-, l, h1, h2⟩ := this
    unfold cursorOrder
    rw [h1]
    exact h2
  · obtain ⟨page, ts, g1, g2, -, g3⟩ := htmlize_page skip k hk n h1
    obtain ⟨v, g4, g5⟩ := g3 ⟨h2, h3⟩
    refine ⟨page, g1, ?_⟩
    rw [shown, g2]
    simp only [charsOf, charsOf_append]
    rw [references_cons (by decide), g4]
    rw [← g5, show '\n' :: (v ++ references ['\n']) = ['\n'] ++ (v ++ ['\n']) from rfl, norm_append, norm_append]
    simp [norm]

/-- Two attributes. -/
def attrs64 : Attrs := (Attrs.empty.run [.set c!"x" c!"1", .set c!"y" c!"two"]).getD Attrs.empty

/-- An element with attributes, a child with a text, a comment and a section that looks like a tag. -/
def sample64 : Node :=
  .mk c!"a" attrs64 (.node (.mk c!"b" Attrs.empty (.leaf (.content c!"one < two") .nil))
    (.leaf (.comment c!"note") (.leaf (.cdata c!"<script>") (.node (.mk c!"e" attrs64 .nil) .nil))))

theorem made64 : attrs64.Made :=
  .of ⟨[.set c!"x" c!"1", .set c!"y" c!"two"], by decide +kernel, getD_run (by decide +kernel)⟩

theorem lists_without {a : Attrs} (hm : a.Made) {c : Char} (h : ∀ p ∈ cursorOrder a, c ∉ p.1 ∧ c ∉ p.2) :
    ∀ qs, a.Lists qs → ∀ p ∈ qs, c ∉ p.1 ∧ c ∉ p.2 := by
  intro qs hq p hp
  obtain ⟨_, _, _, hl, _⟩ := cursorOrder_reads hm
  exact h p ((hl.mem p.1 p.2).2 ((hq.mem p.1 p.2).1 hp))

theorem without64 (c : Char) (h : c = '<' ∨ c = '&') : Without c sample64 := by
  have h1 := lists_without made64 (c := c) (by rcases h with rfl | rfl <;> decide +kernel)
  have h2 := lists_without made_empty (c := c) (by rcases h with rfl | rfl <;> decide +kernel)
  simp only [sample64, Without, ItemsWithout]
  rcases h with rfl | rfl <;>
    exact ⟨made64, by decide, h1, ⟨made_empty, by decide, h2, trivial⟩, ⟨made64, by decide, h1, trivial⟩, trivial⟩

theorem showable64 : Showable sample64 := by
  have h : attrs64.hasAttributes = true := by decide +kernel
  simp only [sample64, Showable, ItemsShowable, LeafShown]
  exact ⟨.inl h, ⟨.inr (by simp), by decide, trivial⟩, by decide, by decide, ⟨.inl h, trivial⟩, trivial⟩

example : htmlize false none sample64 = some
    c!"<pre>\n&lt;<span class=\"node\">a</span> y=<span class=\"attrvalue\">\"two\"</span> x=<span class=\"attrvalue\">\"1\"</span> >\n   &lt;<span class=\"node\">b</span>>one &lt; two&lt;/<span class=\"node\">b</span>>\n   <span class=\"comment\">&lt;!-- note --></span>\n<span class=\"cdata\">&lt;![CDATA[</span>&lt;script&gt;<span class=\"cdata\">]]></span>   &lt;<span class=\"node\">e</span> y=<span class=\"attrvalue\">\"two\"</span> x=<span class=\"attrvalue\">\"1\"</span> />\n&lt;/<span class=\"node\">a</span>>\n</pre>\n" := by
  decide +kernel

/-- The hypotheses of `C64_tags` and `C64_shown_partial` hold of it. -/
example : ∃ page, htmlize false none sample64 = some page ∧
    norm (shown page) = c!"<ay=\"two\"x=\"1\"><b>one<two</b><!--note--><![CDATA[<script>]]><ey=\"two\"x=\"1\"/></a>" := by
  obtain ⟨ord, -, h2, h3⟩ := C64_shown_partial
  obtain ⟨page, h4, h5⟩ := h3 false none sample64 (by simp) (without64 _ (.inl rfl)) (without64 _ (.inr rfl)) showable64
  refine ⟨page, h4, h5.trans ?_⟩
  have e1 : ord attrs64 = [(c!"y", c!"two"), (c!"x", c!"1")] :=
    h2 [.set c!"x" c!"1", .set c!"y" c!"two"] _ (by decide +kernel) ⟨by decide +kernel, by decide +kernel, trivial⟩ (getD_run (by decide +kernel))
  have e2 : ord Attrs.empty = [] := h2 [] _ (by decide) trivial rfl
  simp only [sample64, nodeText, itemsText, e1, e2]
  decide +kernel

/-- A node with one attribute. -/
def oneAttr (v : List Char) : Attrs := ⟨1, .list [⟨c!"x", v, false⟩]⟩

/-- **C64**: not of the code for a value with `<` (a parsed value can have one).  It is printed as it is, so that what
follows is a tag of the page: here a script. -/
theorem C64_not_value : ∃ page, htmlize false none (.mk c!"a" (oneAttr c!"<script>") .nil) = some page ∧
    tags page = [c!"pre", c!"span class=\"node\"", c!"/span", c!"span class=\"attrvalue\"", c!"script", c!"/span", c!"/pre"] :=
  ⟨_, rfl, by decide +kernel⟩

/-- **C64**: not of the code for `&`.  A text that has `&lt;`, as parsed from a document, is shown with `<`. -/
theorem C64_not_reference : ∃ page, htmlize false none (.mk c!"a" Attrs.empty (.leaf (.content c!"1 &lt; 2") .nil)) = some page ∧
    norm (shown page) = c!"<a>1<2</a>" :=
  ⟨_, rfl, by decide +kernel⟩

/-- **C64**: not of the code for an element without attributes and without content.  It is shown open, and never closed. -/
theorem C64_not_empty :
    ∃ page, htmlize false none (.mk c!"a" Attrs.empty (.node (.mk c!"b" Attrs.empty .nil) .nil)) = some page ∧
      norm (shown page) = c!"<a><b></a>" :=
  ⟨_, rfl, by decide +kernel⟩

/-- **C64**: not of the code for instructions and references.  They are not shown. -/
theorem C64_not_instruction :
    ∃ page, htmlize false none (.mk c!"a" Attrs.empty (.leaf (.pi ⟨c!"p", some c!"q"⟩) (.leaf (.ref c!"r") .nil))) = some page ∧
      norm (shown page) = c!"<a></a>" :=
  ⟨_, rfl, by decide +kernel⟩

end Axl
