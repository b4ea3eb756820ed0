/-
Properties C46 to C48, the texts that axl_dtd_parse accepts and the DTDs that it gives.
-/
import Verif.Proofs.DtdSource
import Verif.Proofs.DtdFuel
import Verif.Proofs.DtdReject
import Verif.Props.Dtd

namespace Axl.Dtd
open Str Stream Source

/-! ### A DTD -/

/-- Two elements that are names. -/
def two (a b : List Char) (t : Times := .one) : Cps := .more (.name [] a .one []) (.last (.name [' '] b t []))

/-- `<!ELEMENT name model>` -/
def declEl (name : List Char) (model : Model) : Decl := .element [' '] name [' '] model []

/-- `((title, author+), (chapter| part)* )`, a sequence of groups. -/
def bookText : Model :=
  .children false (.more (.group [] false (two c!"title" c!"author" .some1) .one [])
    (.last (.group [' '] true (two c!"chapter" c!"part") .many [' ']))) .one

/-- `(#PCDATA |title| part)*` -/
def chapterText : Model := .mixed [] [' '] (two c!"title" c!"part")

/-- A DTD with a comment, elements, attributes and entities. -/
def sample46 : Subset where
  decls := [(c!"<!-- a book -->\n", declEl c!"book" bookText), ([], declEl c!"title" (.text [] [] false)), ([], declEl c!"author" (.text [] [] true)),
    (c!"\n", declEl c!"chapter" chapterText), ([], declEl c!"part" .empty),
    ([], .entity [' '] none c!"year" [' '] '"' c!"2009" [' ']), ([], .entity [' '] (some [' ']) c!"kind" [' '] '\'' c!"CDATA #IMPLIED" []),
    (c!" ", .attlist [' '] c!"chapter" [⟨[' '], c!"id", [' '], .id, [' '], .required⟩,
      ⟨c!"\n  ", c!"kind", [' '], .enum ⟨[], c!"short", [' ']⟩ [⟨[], c!"long", []⟩], [' '], .value none '"' c!"short"⟩] []),
    ([], .attlist [' '] c!"part" [⟨[' '], c!"of", [' '], .idref, [' '], .implied⟩] [])]
  tail := c!"\n"

/-- Its text. -/
def sample46_text : List Char := c!"<!-- a book -->
<!ELEMENT book ((title, author+), (chapter| part)* )><!ELEMENT title (#PCDATA)><!ELEMENT author (#PCDATA)*>
<!ELEMENT chapter (#PCDATA |title| part)*><!ELEMENT part EMPTY><!ENTITY year \"2009\" ><!ENTITY % kind 'CDATA #IMPLIED'> <!ATTLIST chapter id ID #REQUIRED
  kind (short |long) \"short\"><!ATTLIST part of IDREF #IMPLIED>
"

theorem sample46_chars : sample46.chars = sample46_text := by decide +kernel

instance (c : Char) : Decidable (Spec.RoundTrip.NameChar c) := by unfold Spec.RoundTrip.NameChar; infer_instance
instance (n : List Char) : Decidable (DtdName n) := by unfold DtdName Spec.RoundTrip.IsName; infer_instance
instance (m t : List Char) : Decidable (Spec.Xml.UpTo m t) := by unfold Spec.Xml.UpTo; infer_instance

theorem remarks_blank {t : List Char} (h : Spec.Xml.Blank t) : Remarks t :=
  ⟨[], by simpa using Spec.Xml.Misc.blank h .nil, by simp⟩

theorem sample46_valid : sample46.Valid where
  remarks := by
    have h1 : Remarks c!"<!-- a book -->\n" :=
      ⟨[.comment c!" a book "], .comment (t := c!"<!-- a book -->") (u := c!"\n") (.mk (text := c!" a book ") (by decide) (by decide +kernel))
        (by simpa using Spec.Xml.Misc.blank (t := c!"\n") (by decide +kernel) .nil), by simp⟩
    simp only [sample46, List.mem_cons, List.not_mem_nil, or_false, forall_eq_or_imp, forall_eq]
    exact ⟨h1, remarks_blank (by decide +kernel), remarks_blank (by decide +kernel), remarks_blank (by decide +kernel),
      remarks_blank (by decide +kernel), remarks_blank (by decide +kernel), remarks_blank (by decide +kernel),
      remarks_blank (by decide +kernel), remarks_blank (by decide +kernel)⟩
  decls := by
    simp only [sample46, List.mem_cons, List.not_mem_nil, or_false, forall_eq_or_imp, forall_eq, declEl, Decl.Valid, bookText, chapterText, two,
      Model.Valid, Cps.Valid, Cp.Valid, Cps.names, Default.Valid, Typ.Valid, Token.Valid, Quoted, reduceCtorEq, false_implies, implies_true,
      Option.some.injEq, forall_eq', true_and, and_true, Gap, ne_eq, not_false_eq_true,
      or_true, true_or]
    repeat' constructor
    all_goals first | decide +kernel | skip
    simp only [List.mem_singleton, forall_eq]
    exact ⟨by decide +kernel, by decide +kernel, by decide +kernel⟩
  tail := remarks_blank (by decide +kernel)
  names := by decide +kernel
  oneId := by
    intro n
    simp only [sample46, Subset.attributes, declEl, List.flatMap_cons, List.flatMap_nil, List.nil_append, List.append_nil, List.mem_append]
    grind [AttDef.decl, Typ.type]
  notFixed := by
    intro n
    simp only [sample46, Subset.attributes, declEl, List.flatMap_cons, List.flatMap_nil, List.nil_append, List.append_nil, List.mem_append]
    grind [AttDef.decl, Typ.type, Default.defaults]
  enums := by
    intro n
    simp only [sample46, Subset.attributes, declEl, List.flatMap_cons, List.flatMap_nil, List.nil_append, List.append_nil, List.mem_append]
    grind [AttDef.decl, Typ.type, Default.content]
  resolved := fun _ => ⟨c!"chapter", ⟨c!"id", .id, .required, none⟩, by decide +kernel, rfl⟩

/-- How far each element is from having no other. -/
theorem sample46_acyclic : Acyclic sample46.elements :=
  ⟨fun n => if n = c!"book" then 2 else if n = c!"chapter" then 1 else 0, by
    have h : sample46.elements = [⟨c!"book", bookText.stored⟩, ⟨c!"title", Model.stored (.text [] [] false)⟩,
      ⟨c!"author", Model.stored (.text [] [] true)⟩, ⟨c!"chapter", chapterText.stored⟩, ⟨c!"part", .empty⟩] := by rfl
    rw [h]
    simp [Element.Mentions, bookText, chapterText, Model.stored, two, Cps.stored, Cp.stored, MentionsAny, Part.Mentions]⟩

/-! ### C46 -/

/-- **C46, the declarations.**  Every DTD written as XML asks is read to its end, and what is read are the elements,
the attributes of each element and the entities that were written, in the same order; only the kind of some lists in
the content models, see `Cps.kind`, is not always the one written. -/
theorem C46_declarations (x : Subset) (h : x.Valid) (fuel : Nat) (hf : x.chars.length < fuel) :
    ∃ d, declarations fuel x.chars = .ok d ∧ x.Means d := declarations_of h hf

/-- **C46** (partial): every DTD written as XML asks in which no element is, through others, in its own content is
accepted.  What is found for each element is the content that was written, if there is a name before the last separator
of every list.  Missing: the other DTDs, see `C46_recursive` and `C46_choice_of_groups`. -/
theorem C46_accepted_partial (x : Subset) (h : x.Valid) (hac : Acyclic x.elements) :
    ∃ N, ∀ fuel, N ≤ fuel → ∃ d, parse fuel x.chars = .ok d ∧ x.Means d ∧
      ∀ before gap name gapModel model gapEnd, (before, Decl.element gap name gapModel model gapEnd) ∈ x.decls → model.Known →
        ∃ e, d.element name = some e ∧ SameContent e.type model.says := by
  obtain ⟨N, hN⟩ := parse_of h hac
  refine ⟨N, fun fuel hf => ?_⟩
  obtain ⟨d, h1, h2⟩ := hN fuel hf
  exact ⟨d, h1, h2, fun _ _ _ _ _ _ hx hk => found_of h h2 hx hk⟩

/-- The content of `chapter` is known when it is read. -/
example : chapterText.Known := trivial

/-- So is `(title, (chapter| part), title+)`. -/
example : (Model.children false (.more (.name [] c!"title" .one []) (.more (.group [' '] true (two c!"chapter" c!"part") .one [])
    (.last (.name [] c!"title" .some1 [])))) .one).Known := by
  simp [Model.Known, Cps.allKnown, Cp.known, two, Cps.kind, Cp.isName]

example : ∃ N, ∀ fuel, N ≤ fuel → ∃ d e, parse fuel sample46_text = .ok d ∧ d.element c!"chapter" = some e ∧ d.entities.length = 2 ∧
    SameContent e.type (.children ⟨.choice, .many, [.node .one c!"#PCDATA", .node .one c!"title", .node .one c!"part"]⟩) := by
  obtain ⟨N, hN⟩ := C46_accepted_partial sample46 sample46_valid sample46_acyclic
  refine ⟨N, fun fuel hf => ?_⟩
  obtain ⟨d, h1, h2, h3⟩ := hN fuel hf
  obtain ⟨e, h4, h5⟩ := h3 c!"\n" [' '] c!"chapter" [' '] chapterText [] (by simp [sample46, declEl]) trivial
  rw [sample46_chars] at h1
  exact ⟨d, e, h1, h4, by rw [h2.entities]; rfl, h5⟩

/-- **C46, the constraints.**  A DTD whose declarations are written as XML asks is accepted only if they meet the validity
constraints of XML (an element declared once, one ID attribute without fixed value, default values among those
enumerated, identifiers if there are references), and what is given is what was written. -/
theorem C46_only_valid (x : Subset) (h : x.Written) (fuel : Nat) (d : Dtd) (hp : parse fuel x.chars = .ok d) : x.Valid ∧ x.Means d :=
  parse_only_valid h hp

/-- **C46, exactly** (partial, for the elements that are not within themselves): a DTD whose declarations are written as XML asks
is accepted if and only if they meet the validity constraints. -/
theorem C46_exactly_partial (x : Subset) (h : x.Written) (hac : Acyclic x.elements) : (∃ fuel d, parse fuel x.chars = .ok d) ↔ x.Valid := by
  constructor
  · rintro ⟨fuel, d, hp⟩
    exact (parse_only_valid h hp).1
  · intro hv
    obtain ⟨N, hN⟩ := parse_of hv hac
    obtain ⟨d, hd, -⟩ := hN N (Nat.le_refl _)
    exact ⟨N, d, hd⟩

/-- `<!ELEMENT a EMPTY> <!ELEMENT a ANY>` -/
def twice46 : Subset := ⟨[([], declEl c!"a" .empty), ([' '], declEl c!"a" .any)], []⟩

theorem twice46_written : twice46.Written where
  remarks := by
    simp only [twice46, List.mem_cons, List.not_mem_nil, or_false, forall_eq_or_imp, forall_eq]
    exact ⟨remarks_blank (by decide +kernel), remarks_blank (by decide +kernel)⟩
  decls := by
    simp only [twice46, List.mem_cons, List.not_mem_nil, or_false, forall_eq_or_imp, forall_eq, declEl, Decl.Valid, Model.Valid, Gap]
    repeat' constructor
    all_goals first | decide +kernel | skip
  tail := remarks_blank (by decide +kernel)

example : twice46.chars = c!"<!ELEMENT a EMPTY> <!ELEMENT a ANY>" := by decide +kernel

example (fuel : Nat) (d : Dtd) : parse fuel c!"<!ELEMENT a EMPTY> <!ELEMENT a ANY>" ≠ .ok d := fun h =>
  absurd (C46_only_valid twice46 twice46_written fuel d h).1.names (by decide +kernel)

example : ∃ fuel d, parse fuel sample46.chars = .ok d :=
  (C46_exactly_partial sample46 sample46_valid.toWritten sample46_acyclic).2 sample46_valid

/-- **C46, separators.**  A list in which a name is followed by "," and another one by "|" is refused, wherever it is in the
content of an element and whatever was declared before.  Separators that follow a group are not looked at, see
`C46_separator_of_group`. -/
theorem C46_both_separators (ds : List (List Char × Decl)) (hd : ∀ p ∈ ds, Remarks p.1 ∧ p.2.Valid) (before gap name gapModel : List Char)
    (hb : Remarks before) (hg : Gap gap) (hn : DtdName name) (hm : Gap gapModel) (x : BothSeparators) (hx : x.Valid) (rest : List Char) :
    ∃ N, ∀ fuel, N ≤ fuel →
      parse fuel (ds.flatMap (fun p => p.1 ++ p.2.chars) ++ (before ++ (c!"<!ELEMENT" ++ (gap ++ (name ++ (gapModel ++ (x.chars ++ rest))))))) = .error :=
  ⟨(ds.flatMap fun p => p.1 ++ p.2.chars).length + 1, fun _ hf => parse_both hd hb hg hn hm hx rest (by omega)⟩

/-- `(a, (b|c)*, d+ |` within `(e|(`. -/
def both46 : BothSeparators :=
  ⟨[(⟨true, [.name [] c!"e" .one []]⟩, [])], ⟨false, [.name [] c!"a" .one [], .group [' '] true (two c!"b" c!"c") .many []]⟩, [' '], c!"d", .some1, [' ']⟩

example : both46.chars = c!"(e|(a, (b| c)*, d+ |" := by decide +kernel

theorem both46_valid : both46.Valid where
  outer := by simp only [both46, List.mem_singleton, forall_eq, Cp.Valid]; decide +kernel
  inner := by
    simp only [both46, List.mem_cons, List.not_mem_nil, or_false, forall_eq_or_imp, forall_eq, Cp.Valid, Cps.Valid, two]
    decide +kernel
  last := by simp only [both46, Cp.Valid]; decide +kernel
  named := ⟨.name [] c!"a" .one [], by simp [both46], rfl⟩

example : ∃ N, ∀ fuel, N ≤ fuel → parse fuel c!"<!ELEMENT a EMPTY> <!ELEMENT b (e|(a, (b| c)*, d+ | f))>" = .error :=
  C46_both_separators [([], declEl c!"a" .empty)] (by
    simp only [List.mem_singleton, forall_eq, declEl, Decl.Valid, Model.Valid, Gap]
    refine ⟨remarks_blank (by decide +kernel), ?_⟩
    decide +kernel) [' '] [' '] c!"b" [' '] (remarks_blank (by decide +kernel)) (by unfold Gap; decide +kernel) (by decide +kernel) (by unfold Gap; decide +kernel)
    both46 both46_valid c!" f))>"

/-- A separator that follows a group is not looked at: `(b,(c)|d)` is accepted, as a sequence. -/
theorem C46_separator_of_group (fuel : Nat) : ∃ d, parse (fuel + 1) c!"<!ELEMENT a (b,(c)|d)>" = .ok d ∧
    d.elements = [⟨c!"a", .children ⟨.seq, .one, [.node .one c!"b", .list .undef .one [.node .one c!"c"], .node .one c!"d"]⟩⟩] :=
  ⟨⟨[⟨c!"a", .children ⟨.seq, .one, [.node .one c!"b", .list .undef .one [.node .one c!"c"], .node .one c!"d"]⟩⟩], [],
    some ⟨c!"a", .children ⟨.seq, .one, [.node .one c!"b", .list .undef .one [.node .one c!"c"], .node .one c!"d"]⟩⟩, false, false, []⟩, by rfl, by rfl⟩

set_option maxRecDepth 4000 in
/-- The kind of a list whose separators follow groups is not read: `((b,c)|d)` is stored as a sequence, and a content
of it is not one of those written. -/
theorem C46_choice_of_groups :
    let model : Model := .children true (.more (.group [] false (two c!"b" c!"c") .one []) (.last (.name [] c!"d" .one []))) .one
    (∀ fuel, ∃ d, parse (fuel + 1) c!"<!ELEMENT a ((b, c)|d)>" = .ok d ∧ d.elements = [⟨c!"a", model.stored⟩]) ∧
      c!"<!ELEMENT a ((b, c)|d)>" = (declEl c!"a" model).chars ∧ (declEl c!"a" model).Valid ∧
      ¬ SameContent model.stored model.says := by
  refine ⟨fun fuel => ?_, by decide +kernel, ?_, fun h => ?_⟩
  · exact ⟨⟨[⟨c!"a", .children ⟨.seq, .one, [.list .seq .one [.node .one c!"b", .node .one c!"c"], .node .one c!"d"]⟩⟩], [],
      some ⟨c!"a", .children ⟨.seq, .one, [.list .seq .one [.node .one c!"b", .node .one c!"c"], .node .one c!"d"]⟩⟩, false, false, []⟩,
      by rfl, by rfl⟩
  · simp only [declEl, Decl.Valid, two, Model.Valid, Cps.Valid, Cp.Valid, Gap]
    repeat' constructor
    all_goals first | decide +kernel | skip
  · have := (h [c!"d"]).2 (.inr (.inl rfl))
    obtain ⟨u, v, h1, ⟨u2, v2, rfl, rfl, u3, v3, rfl, rfl, rfl⟩, -⟩ := this
    simp at h1

/-- Recursive content, which XML has, is not accepted: the search for the root does not end. -/
theorem C46_recursive : (declEl c!"a" (.children false (.last (.name [] c!"a" .opt [])) .one)).Valid ∧
    (declEl c!"a" (.children false (.last (.name [] c!"a" .opt [])) .one)).chars = c!"<!ELEMENT a (a?)>" ∧
    ∀ fuel, parse fuel c!"<!ELEMENT a (a?)>" = .loop := by
  refine ⟨?_, by decide +kernel, fun fuel => ?_⟩
  · simp only [declEl, Decl.Valid, Model.Valid, Cps.Valid, Cp.Valid, Gap]
    repeat' constructor
    all_goals first | decide +kernel | skip
  · have h1 : declarations fuel c!"<!ELEMENT a (a?)>" = .ok ⟨[⟨c!"a", .children ⟨.seq, .one, [.node .opt c!"a"]⟩⟩], [], none, false, false, []⟩ := by rfl
    have h2 : ∀ k, newRoot [⟨c!"a", .children ⟨.seq, .one, [.node .opt c!"a"]⟩⟩] k ⟨c!"a", .children ⟨.seq, .one, [.node .opt c!"a"]⟩⟩ = .loop := by
      intro k
      induction k with
      | zero => rfl
      | succ k ih =>
        rw [newRoot]
        exact ih
    unfold parse
    rw [h1]
    simp only [conclude, h2]

/-! ### C47 -/

/-- **C47, memory.**  No text makes axl_dtd_parse read what is not there, take NULL for a string or pop an empty stack. -/
theorem C47_safe (text : List Char) (fuel : Nat) : parse fuel text ≠ .ub := parse_ne_ub fuel text

/-- **C47, it ends** (partial): for the texts without references to parameter entities whose elements, if they are
read, are not within themselves.  Missing: the other texts, see `C47_recursive_entity` and `C46_recursive`. -/
theorem C47_ends_partial (text : List Char) (href : NoReferences text)
    (hac : ∀ fuel d, declarations fuel text = .ok d → Acyclic d.elements) : ∃ N, ∀ fuel, N ≤ fuel → parse fuel text ≠ .loop :=
  parse_ends href hac

/-- The answer does not depend on the rounds given to the model: once there is one, it is the same with more. -/
theorem C47_one_answer (text : List Char) {fuel fuel' : Nat} (hf : fuel ≤ fuel') (h : parse fuel text ≠ .loop) :
    parse fuel' text = parse fuel text := parse_mono hf h

/-- Text that is no DTD, with declarations that do not end and things that are not closed. -/
example : ∃ N, ∀ fuel, N ≤ fuel → parse fuel c!"<!ELEMENT a (b,(c|d)*" ≠ .loop ∧ parse fuel c!"<!ELEMENT a (b,(c|d)*" ≠ .ub := by
  have h1 : NoReferences c!"<!ELEMENT a (b,(c|d)*" := by
    intro a c b h
    have : '%' ∈ c!"<!ELEMENT a (b,(c|d)*" := h ▸ by simp
    exact absurd this (by decide +kernel)
  have h2 : ∀ fuel d, declarations fuel c!"<!ELEMENT a (b,(c|d)*" = .ok d → Acyclic d.elements := by
    intro fuel d h
    have : declarations fuel c!"<!ELEMENT a (b,(c|d)*" = .ok ⟨[⟨c!"a", .unclosed ⟨.seq, .one, [.node .one c!"b",
      .list .choice .many [.node .one c!"c", .node .one c!"d"]]⟩⟩], [], none, false, false, []⟩ := by rfl
    rw [this] at h
    cases h
    exact ⟨fun _ => 0, by simp [Element.Mentions, MentionsAny, Part.Mentions]⟩
  obtain ⟨N, hN⟩ := C47_ends_partial _ h1 h2
  exact ⟨N, fun fuel hf => ⟨hN fuel hf, C47_safe _ fuel⟩⟩

/-- `<!ENTITY % e 'CDATA #IMPLIED x %e;'>` -/
def selfDtd : Dtd := ⟨[], [], none, false, false, [⟨c!"e", .parameter, some c!"CDATA #IMPLIED x %e;"⟩]⟩

theorem attlist_stuck : ∀ (fuel : Nat) (decls : List AttDecl) (tail : List Char), attlistLoop fuel selfDtd decls (c!"x %e;" ++ tail) = .loop
  | 0, _, _ => rfl
  | fuel + 1, decls, tail => by
    rw [attlistLoop]
    have := attlist_stuck fuel (decls ++ [⟨c!"x", .cdata, .implied, none⟩]) (' ' :: tail)
    exact this

set_option maxRecDepth 4000 in
/-- An entity whose value refers to itself is expanded again and again. -/
theorem C47_recursive_entity : ∀ fuel, parse fuel c!"<!ENTITY % e 'CDATA #IMPLIED x %e;'><!ATTLIST a x %e;>" = .loop := by
  intro fuel
  have h1 : declarations fuel c!"<!ENTITY % e 'CDATA #IMPLIED x %e;'><!ATTLIST a x %e;>" = parseLoop fuel (fuel + 4) 0 selfDtd c!"<!ATTLIST a x %e;>" := by
    rfl
  have h2 : parseAttlist fuel selfDtd c!" a x %e;>" = .loop := by
    have := attlist_stuck fuel [] c!">"
    unfold parseAttlist
    have h3 : getUntil [c!" "] (skip c!" a x %e;>") = some ⟨c!"a", 0, c!" x %e;>", c!"x %e;>"⟩ := by rfl
    rw [h3]
    have h4 : attlistLoop fuel selfDtd (selfDtd.declsOf (toStr c!"a")) c!" x %e;>" = .loop := by
      rw [← this]
      cases fuel <;> rfl
    simp only [h4]
  have h5 : parseLoop fuel (fuel + 4) 0 selfDtd c!"<!ATTLIST a x %e;>" = .loop := by
    rw [parseLoop]
    have h6 : dtdComments c!"<!ATTLIST a x %e;>" = .ok c!"<!ATTLIST a x %e;>" := by rfl
    have h7 : declaration fuel selfDtd c!"<!ATTLIST a x %e;>" = some (parseAttlist fuel selfDtd c!" a x %e;>") := by rfl
    rw [if_neg (by decide), h6]
    simp only [h7, h2]
  unfold parse
  rw [h1, h5]

/-! ### C48 -/

/-- **C48.**  The DTD that axl_dtd_parse returns for any text satisfies the validity constraints of XML on a DTD:
see `Dtd.WellFormed`. -/
theorem C48_well_formed (text : List Char) (fuel : Nat) (d : Dtd) (h : parse fuel text = .ok d) : d.WellFormed := parse_wellFormed h

example : ∃ N, ∀ fuel, N ≤ fuel → ∃ d, parse fuel sample46_text = .ok d ∧ d.WellFormed ∧ d.haveId = true := by
  obtain ⟨N, hN⟩ := C46_accepted_partial sample46 sample46_valid sample46_acyclic
  refine ⟨N, fun fuel hf => ?_⟩
  obtain ⟨d, h1, h2, -⟩ := hN fuel hf
  rw [sample46_chars] at h1
  have hw := C48_well_formed sample46_text fuel d h1
  refine ⟨d, h1, hw, hw.ids.2 ?_⟩
  rcases h2.attributes c!"chapter" with ⟨-, h3⟩ | ⟨al, h3, -, h4, -⟩
  · exact absurd h3 (by decide +kernel)
  · exact ⟨al, List.mem_of_find?_eq_some h3, ⟨c!"id", .id, .required, none⟩, by rw [h4]; decide +kernel, rfl⟩

set_option maxRecDepth 4000 in
/-- Of two declarations of an element with the same name, two ID attributes, a fixed ID, a default value that is not
enumerated, and references without identifiers, none is accepted. -/
example : parse 60 c!"<!ELEMENT a EMPTY><!ELEMENT a ANY>" = .error ∧ parse 60 c!"<!ATTLIST a x ID #IMPLIED y ID #IMPLIED>" = .error ∧
    parse 60 c!"<!ATTLIST a x ID #FIXED 'v'>" = .error ∧ parse 60 c!"<!ATTLIST a x (u|v) 'w'>" = .error ∧
    parse 60 c!"<!ATTLIST a x IDREF #IMPLIED>" = .error := by
  refine ⟨?_, ?_, ?_, ?_, ?_⟩ <;> rfl

set_option maxRecDepth 4000 in
/-- The constraints are on the DTD and not on its text, which can be other than XML: a list that is not closed, one that
is closed twice, names without a separator, a declaration without its end. -/
theorem C48_not_xml : ∀ fuel,
    (∃ d, parse (fuel + 1) c!"<!ELEMENT a ((b)>" = .ok d) ∧ (∃ d, parse (fuel + 1) c!"<!ELEMENT a (b))>" = .ok d) ∧
    (∃ d, parse (fuel + 1) c!"<!ELEMENT a (b c)>" = .ok d) ∧ (∃ d, parse (fuel + 1) c!"<!ELEMENT a (b)" = .ok d) :=
  fun _ => ⟨⟨⟨[⟨c!"a", .unclosed ⟨.seq, .one, [.list .undef .one [.node .one c!"b"]]⟩⟩], [],
      some ⟨c!"a", .unclosed ⟨.seq, .one, [.list .undef .one [.node .one c!"b"]]⟩⟩, false, false, []⟩, by rfl⟩,
    ⟨⟨[⟨c!"a", .children ⟨.seq, .one, [.node .one c!"b"]⟩⟩], [], some ⟨c!"a", .children ⟨.seq, .one, [.node .one c!"b"]⟩⟩, false, false, []⟩, by rfl⟩,
    ⟨⟨[⟨c!"a", .children ⟨.seq, .one, [.node .one c!"b", .node .one c!"c"]⟩⟩], [],
      some ⟨c!"a", .children ⟨.seq, .one, [.node .one c!"b", .node .one c!"c"]⟩⟩, false, false, []⟩, by rfl⟩,
    ⟨⟨[⟨c!"a", .children ⟨.seq, .one, [.node .one c!"b"]⟩⟩], [], some ⟨c!"a", .children ⟨.seq, .one, [.node .one c!"b"]⟩⟩, false, false, []⟩, by rfl⟩⟩

/-- **C35 for a DTD that was parsed** (partial, as `C35_conforms_partial`). -/
theorem C35_parsed_partial {text : List Char} {fuel' : Nat} {d : Dtd} (h : parse fuel' text = .ok d) (hany : d.NoAny)
    (hm : d.Models fun l => l.exact = true ∧ l.total false = true ∧ l.ends = true) {root : Node}
    (hroot : ∀ e l, d.element root.name = some e → e.type = .children l → l.total true = true)
    (hr : Regular d root) {fuel : Nat} (hf : (nodes root).length ≤ fuel) :
    (∃ b, validate fuel d root = .ok b) ∧ (validate fuel d root = .ok true ↔ Conforms d root) :=
  C35_conforms_partial (parse_wellFormed h).parsed hany hm hroot hr hf

/-- **C36 for a DTD that was parsed** (partial, as `C36_terminates_partial`). -/
theorem C36_parsed_partial {text : List Char} {fuel' : Nat} {d : Dtd} (h : parse fuel' text = .ok d) (hany : d.NoAny)
    (hm : d.Models fun l => l.ends = true) (root : Node) {fuel : Nat} (hf : (nodes root).length ≤ fuel) : validate fuel d root ≠ .loop :=
  C36_terminates_partial (parse_wellFormed h).parsed hany hm root hf

/-- **C37 for a DTD that was parsed** (partial, as `C37_attributes_partial`). -/
theorem C37_parsed_partial {text : List Char} {fuel' : Nat} {d : Dtd} (h : parse fuel' text = .ok d) (hany : d.NoAny) {root : Node}
    (hr : Regular d root) (fuel : Nat) (hv : validate fuel d root = .ok true) : AttributesHold d root :=
  C37_attributes_partial (parse_wellFormed h).parsed hany hr fuel hv

end Axl.Dtd
