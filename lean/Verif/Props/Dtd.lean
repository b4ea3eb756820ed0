/-
C35: the children of a node are compared with the content model.  C36: validation ends.  C37: the
attributes.
-/
import Verif.Proofs.DtdDoc
import Verif.Model.Lit

namespace Axl.Dtd

/-! ### Content models used below -/

/-- An item that names an element. -/
def nm (s : List Char) (t : Times := .one) : Part := .node t s

/-- `(...)`, a sequence. -/
def sq (items : List Part) (t : Times := .one) : Content := ⟨.seq, t, items⟩

/-- `(...|...)`, a choice. -/
def ch (items : List Part) (t : Times := .one) : Content := ⟨.choice, t, items⟩

/-- `((title, author+, note?), (chapter | part)*, index?)` -/
def bookModel : Content :=
  sq [.list .seq .one [nm c!"title", nm c!"author" .some1, nm c!"note" .opt],
      .list .choice .many [nm c!"chapter", nm c!"part"], nm c!"index" .opt]

/-- `(para | note)*` -/
def chapterModel : Content := ch [nm c!"para", nm c!"note"] .many

/-! ### C35 -/

/-- **C35, soundness, for the content models in `Content.exact`.**  If the children of a node are accepted, the
sequence of their names is one of those that the content model describes.  The full claim is for every content
model, and is false: see `C35_left_out`, `C35_half_matched` and `C35_plus_of_nothing`. -/
theorem C35_accepted_partial {l : Content} (hl : l.exact = true) (fuel : Nat) (top : Bool) (w : Word)
    (h : children fuel l top w = some true) : l.Lang w := children_sound hl h

example : bookModel.exact = true ∧ chapterModel.exact = true ∧ (sq [nm c!"a", nm c!"b" .some1, nm c!"c" .opt] .many).exact = true := by
  decide +kernel

example : children 9 bookModel true [c!"title", c!"author", c!"author", c!"chapter", c!"part", c!"chapter"] = some true ∧
    children 9 bookModel true [c!"title", c!"author", c!"index", c!"chapter"] = some false := by decide +kernel

/-- **C35, completeness, for the content models in `Content.total`.**  Every sequence of children that the content
model describes is accepted.  The full claim is for every content model, and is false: see `C35_refused`. -/
theorem C35_words_accepted_partial {l : Content} {top : Bool} (hl : l.total top = true) (w : Word) (hw : l.Lang w)
    (fuel : Nat) (hf : w.length < fuel) : children fuel l top w = some true := children_total hl hw hf

example : bookModel.total true = true ∧ chapterModel.total true = true ∧
    (sq [nm c!"a", nm c!"b" .some1, nm c!"c" .opt] .many).total true = true := by decide +kernel

/-- **C35, the document, for DTDs whose content models are in the three classes and declare no ANY, and documents
where every node that may have an ID has one.**  `axl_dtd_validate` returns, and answers true exactly for the
documents that conform to the DTD. -/
theorem C35_conforms_partial {d : Dtd} (hp : d.Parsed) (hany : d.NoAny)
    (hm : d.Models fun l => l.exact = true ∧ l.total false = true ∧ l.ends = true) {root : Node}
    (hroot : ∀ e l, d.element root.name = some e → e.type = .children l → l.total true = true)
    (hr : Regular d root) {fuel : Nat} (hf : (nodes root).length ≤ fuel) :
    (∃ b, validate fuel d root = .ok b) ∧ (validate fuel d root = .ok true ↔ Conforms d root) := by
  obtain ⟨h1, h2, h3⟩ := validate_spec hp hany hr fuel
  have hc := conforms_iff (d := d) (root := root) (fuel := fuel)
    (fun e he l hl => ⟨(hm e he l hl).1, (hm e he l hl).2.1⟩) hroot hf
  refine ⟨h3 hf fun m hn e he top => ?_, fun h => hc.2 (h1 h), fun h => h2 hf (hc.1 h)⟩
  exact content_ends (fun l hl => (hm e he l hl).2.2) (Nat.lt_of_lt_of_le (kids_lt hn) hf)

/-! A DTD and a document that meet the hypotheses. -/

/-- `(#PCDATA)` -/
def text : Content := sq [nm c!"#PCDATA"]

/-- `<!ELEMENT book ((title, author+, note?), (chapter | part)*, index?)>` and so on; chapters have an `id`, which
notes refer to. -/
def bookDtd : Dtd where
  elements := [⟨c!"book", .children bookModel⟩, ⟨c!"chapter", .children chapterModel⟩, ⟨c!"part", .empty⟩,
    ⟨c!"title", .pcdata text⟩, ⟨c!"author", .pcdata text⟩, ⟨c!"note", .pcdata text⟩, ⟨c!"para", .pcdata text⟩, ⟨c!"index", .empty⟩]
  attributes := [⟨c!"chapter", [⟨c!"id", .id, .required, none⟩, ⟨c!"kind", .enum [c!"short", c!"long"], .implied, none⟩]⟩,
    ⟨c!"note", [⟨c!"to", .idref, .implied, none⟩]⟩, ⟨c!"index", [⟨c!"version", .cdata, .fixed, some c!"1"⟩]⟩]
  root := some ⟨c!"book", .children bookModel⟩
  haveId := true
  haveIdRef := true
  entities := []

/-- A list of items. -/
def items : List Node → Items
  | [] => .nil
  | n :: l => .node n (items l)

/-- A node without attributes. -/
def el (name : List Char) (kids : List Node := []) : Node := .mk name Attrs.empty (items kids)

/-- A node with an attribute. -/
def elWith (name : List Char) (key value : List Char) (kids : List Node := []) : Node :=
  .mk name ⟨1, .list [⟨key, value, false⟩]⟩ (items kids)

/-- A node with text. -/
def elText (name text : List Char) : Node := .mk name Attrs.empty (.leaf (.content text) .nil)

/-- A document; the first note refers to `to`. -/
def book (to : List Char) : Node :=
  el c!"book" [elText c!"title" c!"T", elText c!"author" c!"A", elWith c!"note" c!"to" to,
    elWith c!"chapter" c!"id" c!"one" [elText c!"para" c!"text", el c!"note"],
    elWith c!"chapter" c!"id" c!"two" [], elWith c!"index" c!"version" c!"1"]

theorem made_empty : Attrs.empty.Made := .empty

theorem made_one {k v : List Char} (hk : Str.NUL ∉ k) (hv : Str.NUL ∉ v) : Attrs.Made ⟨1, .list [⟨k, v, false⟩]⟩ :=
  .of ⟨[.setRef k v false], by simp [Spec.Attr.NoNul, Spec.Attr.Op.texts, hk, hv], rfl⟩

/-- The document gives an ID to every node of which the declarations speak: a check for concrete documents. -/
def idsGiven (d : Dtd) (n : Node) : Bool :=
  match d.attr n.name with
  | none => true
  | some al =>
    match al.decls.find? (fun x => decide (x.type = .id)) with
    | none => true
    | some decl => match n.attrs.getValue decl.name with
      | some (some _) => true
      | _ => false

theorem regular_of {d : Dtd} {root : Node} (h1 : ∀ n ∈ nodes root, n.attrs.Made) (h2 : (nodes root).all (idsGiven d) = true) :
    Regular d root := by
  refine ⟨h1, fun n hn al decl hal hdecl => ?_⟩
  have h := List.all_eq_true.1 h2 n hn
  unfold idsGiven at h
  rw [hal] at h
  dsimp only at h
  rw [hdecl] at h
  dsimp only at h
  split at h
  · exact ⟨_, ‹_›⟩
  · cases h

theorem bookDtd_parsed : bookDtd.Parsed where
  root := .inr ⟨_, rfl, by simp [Dtd.element, bookDtd]⟩
  ids := fun _ _ _ _ _ => rfl
  refs := fun _ _ _ _ _ => rfl
  marked := fun _ => rfl

theorem bookDtd_noAny : bookDtd.NoAny := by
  intro e he
  simp only [bookDtd, List.mem_cons, List.not_mem_nil, or_false] at he
  rcases he with rfl | rfl | rfl | rfl | rfl | rfl | rfl | rfl <;> rfl

theorem bookDtd_models : bookDtd.Models fun l => l.exact = true ∧ l.total false = true ∧ l.ends = true := by
  intro e he l hl
  simp only [bookDtd, List.mem_cons, List.not_mem_nil, or_false] at he
  rcases he with rfl | rfl | rfl | rfl | rfl | rfl | rfl | rfl <;> cases hl <;> decide +kernel

theorem book_regular {to : List Char} (h : Str.NUL ∉ to) : Regular bookDtd (book to) := by
  refine regular_of ?_ ?_
  · simp only [book, el, elWith, elText, items, nodes, nodesOf, List.cons_append, List.nil_append, List.append_nil, List.mem_cons,
      List.not_mem_nil, or_false, forall_eq_or_imp, forall_eq, Node.attrs]
    refine ⟨made_empty, made_empty, made_empty, made_one (by decide) h, made_one (by decide) (by decide), made_empty, made_empty,
      made_one (by decide) (by decide), made_one (by decide) (by decide)⟩
  · simp only [book, el, elWith, elText, items, nodes, nodesOf, List.cons_append, List.nil_append, List.append_nil, List.all_cons,
      List.all_nil, Bool.and_true]
    rfl

/-- The hypotheses of `C35_conforms_partial` hold, and both answers are given. -/
example : validate 20 bookDtd (book c!"two") = .ok true ∧ validate 20 bookDtd (book c!"three") = .ok false := by
  constructor <;> rfl

example : Conforms bookDtd (book c!"two") ∧ ¬ Conforms bookDtd (book c!"three") := by
  have h : ∀ to, Str.NUL ∉ to → (validate 20 bookDtd (book to) = .ok true ↔ Conforms bookDtd (book to)) := fun to ht =>
    (C35_conforms_partial bookDtd_parsed bookDtd_noAny bookDtd_models
      (by intro e l he hl
          have : e = ⟨c!"book", .children bookModel⟩ := by cases he; rfl
          subst this
          cases hl
          decide +kernel)
      (book_regular ht) (by simp [book, el, elWith, elText, items, nodes, nodesOf])).2
  exact ⟨(h _ (by decide)).1 rfl, fun hc => by have := (h _ (by decide)).2 hc; cases this⟩

/-! #### Where the full claim fails -/

/-- `(a*, b, c)` accepts `a a`, and `(a?, b?, c)` accepts `a`: when the children end at an item that may be left
out, the items after it are not looked at.  The number of children required, two and one here, is the only check. -/
theorem C35_left_out :
    (∀ fuel top, children fuel (sq [nm c!"a" .many, nm c!"b", nm c!"c"]) top [c!"a", c!"a"] = some true) ∧
    ¬ (sq [nm c!"a" .many, nm c!"b", nm c!"c"]).Lang [c!"a", c!"a"] ∧
    (∀ fuel top, children fuel (sq [nm c!"a" .opt, nm c!"b" .opt, nm c!"c"]) top [c!"a"] = some true) ∧
    ¬ (sq [nm c!"a" .opt, nm c!"b" .opt, nm c!"c"]).Lang [c!"a"] := by
  refine ⟨fun fuel top => by cases top <;> rfl, ?_, fun fuel top => by cases top <;> rfl, ?_⟩
  · rintro ⟨u, v, h, -, u2, v2, rfl, rfl, u3, v3, rfl, rfl, rfl⟩
    rcases u with _ | ⟨x, _ | ⟨y, u⟩⟩ <;> simp at h
  · rintro ⟨u, v, h, -, u2, v2, rfl, -, u3, v3, rfl, rfl, rfl⟩
    rcases u with _ | ⟨x, u⟩ <;> rcases u2 with _ | ⟨y, u2⟩ <;> simp at h

/-- `((a, b) | (c, d))` accepts `a c d`: the alternative that fails leaves the `a` consumed. -/
theorem C35_half_matched :
    (∀ fuel top, children fuel (ch [.list .seq .one [nm c!"a", nm c!"b"], .list .seq .one [nm c!"c", nm c!"d"]]) top
      [c!"a", c!"c", c!"d"] = some true) ∧
    ¬ (ch [.list .seq .one [nm c!"a", nm c!"b"], .list .seq .one [nm c!"c", nm c!"d"]]).Lang [c!"a", c!"c", c!"d"] := by
  refine ⟨fun fuel top => by cases top <;> rfl, ?_⟩
  rintro (⟨u, v, h, rfl, u2, v2, rfl, rfl, rfl⟩ | ⟨u, v, h, rfl, u2, v2, rfl, rfl, rfl⟩ | h)
  · simp at h
  · simp at h
  · exact h

/-- `(a, (b)+, c)` accepts `a c`: the list with `+` is content with no repetition. -/
theorem C35_plus_of_nothing :
    (∀ fuel top, children (fuel + 1) (sq [nm c!"a", .list .seq .some1 [nm c!"b"], nm c!"c"]) top [c!"a", c!"c"] = some true) ∧
    ¬ (sq [nm c!"a", .list .seq .some1 [nm c!"b"], nm c!"c"]).Lang [c!"a", c!"c"] := by
  refine ⟨fun fuel top => by cases top <;> rfl, ?_⟩
  rintro ⟨u, v, h, rfl, u2, v2, rfl, ⟨u3, v3, rfl, ⟨u4, v4, rfl, rfl, rfl⟩, -⟩, -⟩
  simp at h

/-- Words that are refused: `((a, b)?, c)` refuses `c`; for the root element, `(a, b)+` refuses `a b a b`; `(a, b)?`
refuses no children. -/
theorem C35_refused :
    ((∀ fuel top, children fuel (sq [.list .seq .opt [nm c!"a", nm c!"b"], nm c!"c"]) top [c!"c"] = some false) ∧
      (sq [.list .seq .opt [nm c!"a", nm c!"b"], nm c!"c"]).Lang [c!"c"]) ∧
    ((∀ fuel, children (fuel + 1) (sq [nm c!"a", nm c!"b"] .some1) true [c!"a", c!"b", c!"a", c!"b"] = some false) ∧
      (sq [nm c!"a", nm c!"b"] .some1).Lang [c!"a", c!"b", c!"a", c!"b"]) ∧
    (∀ fuel top, children fuel (sq [nm c!"a", nm c!"b"] .opt) top [] = some false) ∧
      (sq [nm c!"a", nm c!"b"] .opt).Lang [] := by
  have ab : SeqLang [nm c!"a", nm c!"b"] [c!"a", c!"b"] := ⟨[c!"a"], [c!"b"], rfl, rfl, [c!"b"], [], rfl, rfl, rfl⟩
  refine ⟨⟨fun fuel top => by cases top <;> rfl, ⟨[], [c!"c"], rfl, .inl rfl, [c!"c"], [], rfl, rfl, rfl⟩⟩,
    ⟨fun fuel => rfl, ⟨[c!"a", c!"b"], [c!"a", c!"b"], rfl, ab, .cons (v := []) ab .nil⟩⟩,
    fun fuel top => by cases top <;> rfl, .inl rfl⟩

/-! ### C36 -/

/-- **C36 for the content models in `Content.ends` and DTDs that declare no ANY.**  `axl_dtd_validate` returns: as
many rounds as the document has nodes suffice for each of its loops.  The full claim is for every DTD, and is false:
see `C36_never_ends` and `C36_any_never_ends`. -/
theorem C36_terminates_partial {d : Dtd} (hp : d.Parsed) (hany : d.NoAny) (hm : d.Models fun l => l.ends = true) (root : Node)
    {fuel : Nat} (hf : (nodes root).length ≤ fuel) : validate fuel d root ≠ .loop := validate_ends hp hany hm hf

/-- **C36, the matcher alone.** -/
theorem C36_children_partial {l : Content} (hl : l.ends = true) (top : Bool) (w : Word) {fuel : Nat} (hf : w.length < fuel) :
    children fuel l top w ≠ none := children_ends hl hf

example : bookDtd.Models fun l => l.ends = true := fun e he l hl => (bookDtd_models e he l hl).2.2

/-- Not only the models for which the answer is right: `((a, b?)* , (c | (d, e))+)`. -/
example : (sq [.list .seq .many [nm c!"a", nm c!"b" .opt], .list .choice .some1 [nm c!"c", .list .seq .one [nm c!"d", nm c!"e"]]]).ends = true := by
  decide +kernel

/-- `repeatSeq` of a body that succeeds without consuming does not end. -/
theorem repeatSeq_stuck {body : Nat → Option (Bool × Nat)} {p : Nat} (h : body p = some (true, p)) :
    ∀ fuel, repeatSeq body fuel p = none
  | 0 => rfl
  | fuel + 1 => by
    rw [repeatSeq, h]
    exact repeatSeq_stuck h fuel

/-- `(a?)*` never ends, whatever the children; `(a?, b)*` does not end for the children `b`, which it describes. -/
theorem C36_never_ends :
    (∀ fuel top, children fuel (sq [nm c!"a" .opt] .many) top [] = none) ∧
    (∀ fuel top, children fuel (sq [nm c!"a" .opt, nm c!"b"] .many) top [c!"b"] = none) ∧
    (sq [nm c!"a" .opt, nm c!"b"] .many).Lang [c!"b"] := by
  refine ⟨fun fuel top => ?_, fun fuel top => ?_, ?_⟩
  · have h : repeatSeq (seqLoop fuel [] [nm c!"a" .opt] .many top) fuel 0 = none :=
      repeatSeq_stuck (by cases top <;> rfl) fuel
    simp [children, compulsoryNum, sq, itemList, itemListTimes, h]
  · have h : repeatSeq (seqLoop fuel [c!"b"] [nm c!"a" .opt, nm c!"b"] .many top) fuel 0 = none := by
      cases fuel with
      | zero => rfl
      | succ fuel =>
        rw [repeatSeq]
        have : seqLoop (fuel + 1) [c!"b"] [nm c!"a" .opt, nm c!"b"] .many top 0 = some (true, 1) := by cases top <;> rfl
        rw [this]
        exact repeatSeq_stuck (by cases top <;> rfl) fuel
    simp [children, compulsoryNum, sq, itemList, itemListTimes, h]
  · have hb : SeqLang [nm c!"a" .opt, nm c!"b"] [c!"b"] := ⟨[], [c!"b"], rfl, .inl rfl, [c!"b"], [], rfl, rfl, rfl⟩
    exact .cons (v := []) hb .nil

/-- Not only those: the check of an element without children never ends for every content model that is a sequence
under `*` whose first particle is under `?` or `*`, and for every one under `+` that also requires no name. -/
theorem C36_repeated_optional {l : Content} {p : Part} {ps : List Part} (hk : l.kind = .seq) (hi : l.items = p :: ps)
    (ht : l.times = .many ∨ (l.times = .some1 ∧ compulsoryNum l = 0)) (hp : p.times = .opt ∨ p.times = .many) (fuel : Nat) (top : Bool) :
    children fuel l top [] = none := by
  have ho : ∀ qs, restOptional p.times qs = true := by
    intro qs
    induction qs with
    | nil => rfl
    | cons q qs ih => rcases hp with h | h <;> rw [restOptional, h] <;> rw [h] at ih <;> simpa [Times.optional] using ih
  have hs : seqItem fuel [] p ps 0 = some (.stop true 0) := by
    have ha : ∀ m, atEnd p ps m 0 = .stop true 0 := by
      intro m
      have : p.times ≠ .some1 := by rcases hp with h | h <;> rw [h] <;> decide
      simp [atEnd, this, ho]
    cases p with
    | node t n => simp [seqItem, nodeLoop, ha]
    | list k t items => simp [seqItem, ha]
  have hb : repeatSeq (seqLoop fuel [] (p :: ps) l.times top) fuel 0 = none :=
    repeatSeq_stuck (by rw [seqLoop, hs]) fuel
  have hc : compulsoryNum l = 0 := by
    rcases ht with h | h
    · simp [compulsoryNum, h]
    · exact h.2
  rcases ht with h | h
  · rw [h] at hb
    simp [children, hc, itemList, itemListTimes, hk, hi, h, hb]
  · rw [h.1] at hb
    simp [children, hc, itemList, itemListTimes, hk, hi, h.1, hb]

/-- `(a*, b)*` and `(a?)+` for an element without children. -/
example (fuel : Nat) : children fuel (sq [nm c!"a" .many, nm c!"b"] .many) true [] = none ∧
    children fuel (sq [nm c!"a" .opt] .some1) true [] = none :=
  ⟨C36_repeated_optional rfl rfl (.inl rfl) (.inr rfl) fuel true, C36_repeated_optional rfl rfl (.inr ⟨rfl, rfl⟩) (.inl rfl) fuel true⟩

/-- The validation never ends for every document, whatever it contains, whose root is declared ANY and has no ATTLIST. -/
theorem C36_any_root {d : Dtd} {n : Node} {e : Element} (he : d.rootElement n = some e) (hany : e.type = .any)
    (ha : ∀ a ∈ d.attributes, a.name ≠ n.name) (fuel : Nat) : validate fuel d n = .loop := by
  have hat : d.attr n.name = none := by
    rw [Dtd.attr, List.find?_eq_none]
    intro a h
    simpa using ha a h
  have h : ∀ k top st, validateLoop d fuel k n e top [] st = .loop := by
    intro k
    induction k with
    | zero => intro top st; rfl
    | succ k ih =>
      intro top st
      simp only [validateLoop, attrValidate, hat, contentValidate, hany, ElementType.isAny, if_true]
      exact ih false st
  simp only [validate, he, hany, ElementType.isEmpty]
  exact h fuel true _

/-- With `<!ELEMENT a ANY><!ELEMENT b (a)>`: the document `<a><b/></a>`. -/
example (fuel : Nat) : validate fuel ⟨[⟨c!"a", .any⟩, ⟨c!"b", .children (sq [nm c!"a"])⟩], [], some ⟨c!"b", .children (sq [nm c!"a"])⟩, false, false, []⟩
    (el c!"a" [el c!"b"]) = .loop := C36_any_root rfl rfl (by simp) fuel

/-- With `<!ELEMENT a ANY>` the validation of `<a/>` never ends. -/
theorem C36_any_never_ends (fuel : Nat) :
    validate fuel ⟨[⟨c!"a", .any⟩], [], some ⟨c!"a", .any⟩, false, false, []⟩ (el c!"a") = .loop := by
  have h : ∀ k top, validateLoop ⟨[⟨c!"a", .any⟩], [], some ⟨c!"a", .any⟩, false, false, []⟩ fuel k (el c!"a") ⟨c!"a", .any⟩ top []
      ⟨none, none⟩ = .loop := by
    intro k
    induction k with
    | zero => intro top; rfl
    | succ k ih =>
      intro top
      rw [validateLoop]
      exact ih false
  exact h fuel true

/-! ### C37 -/

/-- **C37 for DTDs that declare no ANY and documents where every node that may have an ID has one.**  If
`axl_dtd_validate` succeeds the attribute constraints hold in the whole document: every attribute is declared, with
a listed value if it is enumerated; required attributes are there, fixed ones with their value; no two nodes share an
ID value; and every IDREF names one.  Nodes without ATTLIST are not restricted (`C37_no_attlist`).  The full claim is
for every DTD and document, and is false: see `C37_under_any` and `C37_missing_id`. -/
theorem C37_attributes_partial {d : Dtd} (hp : d.Parsed) (hany : d.NoAny) {root : Node} (hr : Regular d root) (fuel : Nat)
    (h : validate fuel d root = .ok true) : AttributesHold d root := by
  obtain ⟨e, -, hg⟩ := (validate_spec hp hany hr fuel).1 h
  exact good_attributes hg

example : AttributesHold bookDtd (book c!"two") :=
  C37_attributes_partial bookDtd_parsed bookDtd_noAny (book_regular (by decide)) 20 rfl

/-- The nodes under one declared ANY are not looked at: here a required attribute is missing. -/
theorem C37_under_any :
    ∃ (d : Dtd) (root : Node), d.Parsed ∧ Regular d root ∧ validate 9 d root = .ok true ∧ ¬ AttributesHold d root := by
  let d : Dtd := ⟨[⟨c!"r", .children (sq [nm c!"a", nm c!"b"])⟩, ⟨c!"a", .empty⟩, ⟨c!"b", .any⟩], [⟨c!"a", [⟨c!"x", .cdata, .required, none⟩]⟩],
    some ⟨c!"r", .children (sq [nm c!"a", nm c!"b"])⟩, false, false, []⟩
  let root : Node := el c!"r" [elWith c!"a" c!"x" c!"1", el c!"b" [el c!"a"]]
  refine ⟨d, root, ⟨.inr ⟨⟨c!"r", .children (sq [nm c!"a", nm c!"b"])⟩, rfl, rfl⟩, ?_, ?_, by simp [d]⟩, regular_of ?_ rfl, rfl, fun h => ?_⟩
  · simp [d]
  · simp [d]
  · simp only [root, el, elWith, items, nodes, nodesOf, List.cons_append, List.nil_append, List.append_nil, List.mem_cons,
      List.not_mem_nil, or_false, forall_eq_or_imp, forall_eq, Node.attrs]
    exact ⟨made_empty, made_one (by decide) (by decide), made_empty, made_empty⟩
  · have h1 := h.allowed (el c!"a") (by simp [root, el, elWith, items, nodes, nodesOf]) _ rfl
    obtain ⟨v, hv⟩ := h1.required _ (List.mem_singleton.2 rfl) rfl
    cases hv

/-- A node without its ID attribute, which the declaration allows, puts a NULL key in the table of identifiers: a
reference that falls in the same bucket is then taken for an existing ID. -/
theorem C37_missing_id :
    ∃ (d : Dtd) (root : Node), d.Parsed ∧ d.NoAny ∧ (∀ n ∈ nodes root, n.attrs.Made) ∧ validate 9 d root = .ok true ∧
      ¬ AttributesHold d root := by
  let d : Dtd := ⟨[⟨c!"r", .children (sq [nm c!"a" .many])⟩, ⟨c!"a", .empty⟩],
    [⟨c!"a", [⟨c!"id", .id, .implied, none⟩, ⟨c!"to", .idref, .implied, none⟩]⟩],
    some ⟨c!"r", .children (sq [nm c!"a" .many])⟩, true, true, []⟩
  let root : Node := el c!"r" [elWith c!"a" c!"to" c!"d"]
  refine ⟨d, root, ⟨.inr ⟨⟨c!"r", .children (sq [nm c!"a" .many])⟩, rfl, rfl⟩, fun _ _ _ _ _ => rfl, fun _ _ _ _ _ => rfl, fun _ => rfl⟩, ?_, ?_, rfl,
    fun h => ?_⟩
  · intro e he
    simp only [d, List.mem_cons, List.not_mem_nil, or_false] at he
    rcases he with rfl | rfl <;> rfl
  · simp only [root, el, elWith, items, nodes, nodesOf, List.cons_append, List.nil_append, List.append_nil, List.mem_cons,
      List.not_mem_nil, or_false, forall_eq_or_imp, forall_eq, Node.attrs]
    exact ⟨made_empty, made_one (by decide) (by decide)⟩
  · obtain ⟨m, hm, al, decl, h1, h2, h3⟩ := h.resolved (elWith c!"a" c!"to" c!"d") (by simp [root, el, elWith, items, nodes, nodesOf]) c!"d"
      ⟨_, ⟨c!"to", .idref, .implied, none⟩, rfl, by simp, rfl, rfl⟩
    simp only [root, el, elWith, items, nodes, nodesOf, List.cons_append, List.nil_append, List.append_nil, List.mem_cons,
      List.not_mem_nil, or_false] at hm
    rcases hm with rfl | rfl
    · cases h1
    · cases h1
      cases h2
      cases h3

/-- And a document that conforms is refused: a node without ID before one with an ID that falls in that bucket. -/
theorem C37_missing_id_refused :
    ∃ (d : Dtd) (root : Node), d.Parsed ∧ d.NoAny ∧ (∀ n ∈ nodes root, n.attrs.Made) ∧ validate 9 d root = .ok false ∧
      Conforms d root := by
  let d : Dtd := ⟨[⟨c!"r", .children (sq [nm c!"a" .many])⟩, ⟨c!"a", .empty⟩], [⟨c!"a", [⟨c!"id", .id, .implied, none⟩]⟩],
    some ⟨c!"r", .children (sq [nm c!"a" .many])⟩, true, false, []⟩
  let root : Node := el c!"r" [elWith c!"a" c!"id" c!"d", el c!"a"]
  refine ⟨d, root, ⟨.inr ⟨⟨c!"r", .children (sq [nm c!"a" .many])⟩, rfl, rfl⟩, fun _ _ _ _ _ => rfl, ?_, ?_⟩, ?_, ?_, rfl, ?_, ?_, ?_, ?_⟩
  · simp [d]
  · simp [d]
  · intro e he
    simp only [d, List.mem_cons, List.not_mem_nil, or_false] at he
    rcases he with rfl | rfl <;> rfl
  · simp only [root, el, elWith, items, nodes, nodesOf, List.cons_append, List.nil_append, List.append_nil, List.mem_cons,
      List.not_mem_nil, or_false, forall_eq_or_imp, forall_eq, Node.attrs]
    exact ⟨made_empty, made_one (by decide) (by decide), made_empty⟩
  · intro n hn
    simp only [root, el, elWith, items, nodes, nodesOf, List.cons_append, List.nil_append, List.append_nil, List.mem_cons,
      List.not_mem_nil, or_false] at hn
    rcases hn with rfl | rfl | rfl
    · have h1 : Star (fun w => w = [c!"a"]) [c!"a"] := .cons (L := fun w => w = [c!"a"]) (u := [c!"a"]) (v := []) rfl .nil
      have h2 : Star (fun w => w = [c!"a"]) [c!"a", c!"a"] := .cons (L := fun w => w = [c!"a"]) (u := [c!"a"]) rfl h1
      exact ⟨_, rfl, [c!"a", c!"a"], [], rfl, h2, rfl⟩
    · exact ⟨_, rfl, rfl, rfl⟩
    · exact ⟨_, rfl, rfl, rfl⟩
  · intro n hn al hal
    simp only [root, el, elWith, items, nodes, nodesOf, List.cons_append, List.nil_append, List.append_nil, List.mem_cons,
      List.not_mem_nil, or_false] at hn
    rcases hn with rfl | rfl | rfl
    · cases hal
    · cases hal
      refine ⟨fun name v hv => ?_, ?_, ?_⟩
      · have hv : (if c!"id" = name then some (some c!"d") else some none) = some (some v) := by
          rw [← hv]
          simp [Node.attrs, Attrs.getValue, Attrs.hasAttributes, Attrs.findList, cmp_some]
          split <;> rfl
        split at hv
        · rename_i h
          subst h
          exact ⟨_, rfl, fun vs h => by cases h⟩
        · cases hv
      · simp
      · simp
    · cases hal
      exact ⟨fun name v hv => by (cases hv), by simp, by simp⟩
  · have key : ∀ i n v, (nodes root)[i]? = some n → Identifies d n v → i = 1 := by
      intro i n v hi hid
      obtain ⟨al, decl, h1, h2, h3⟩ := hid
      rcases i with _ | _ | _ | i
      · cases hi; cases h1
      · rfl
      · cases hi; cases h1; cases h2; cases h3
      · simp [root, el, elWith, items, nodes, nodesOf] at hi
    intro i j n m v hi hj h1 h2
    rw [key i n v hi h1, key j m v hj h2]
  · rintro n - v ⟨al, decl, h1, h2, h3, -⟩
    have hal : al ∈ d.attributes := List.mem_of_find?_eq_some h1
    simp only [d, List.mem_singleton] at hal
    subst hal
    simp only [List.mem_singleton] at h2
    subst h2
    cases h3

/-- The attributes of a node without ATTLIST are not restricted, whatever they are. -/
theorem C37_no_attlist {d : Dtd} {n : Node} (h : d.attr n.name = none) (st : IdState) : attrValidate d n st = some (true, st) := by
  rw [attrValidate, h]

end Axl.Dtd
