/-
Properties C49 and C50, what is found in a DTD that was parsed and the comparison of two of them.
-/
import Verif.Proofs.DtdEqual
import Verif.Props.DtdText

namespace Axl.Dtd
open Str Source

/-! ### C49 -/

/-- **C49, elements.**  axl_dtd_get_element gives the declaration of the element with the name, the only one there is. -/
theorem C49_element (text : List Char) (fuel : Nat) (d : Dtd) (h : parse fuel text = .ok d) (name : List Char) (e : Element) :
    d.element name = some e ↔ e ∈ d.elements ∧ e.name = name := by
  constructor
  · intro he
    exact ⟨List.mem_of_find?_eq_some he, by simpa using List.find?_some he⟩
  · rintro ⟨h1, rfl⟩
    exact element_of_nodup (parse_wellFormed h).names h1

/-- **C49, attributes.**  axl_dtd_get_attr gives the attributes of the element with the name, all of them in one list. -/
theorem C49_attr (text : List Char) (fuel : Nat) (d : Dtd) (h : parse fuel text = .ok d) (name : List Char) (al : AttList) :
    d.attr name = some al ↔ al ∈ d.attributes ∧ al.name = name := by
  constructor
  · intro he
    exact ⟨List.mem_of_find?_eq_some he, by simpa using List.find?_some he⟩
  · rintro ⟨h1, rfl⟩
    exact attr_of_nodup (parse_wellFormed h).lists h1

/-- **C49, the number of attributes** (partial): for an element that has attributes, those written for it.  Missing:
the other elements, for which `axl_dtd_get_attr_contraints` reads NULL (`C49_no_constraints`). -/
theorem C49_constraints_partial (x : Subset) (hac : Acyclic x.elements) (h : x.Valid) (name : List Char)
    (hn : x.attributes name ≠ []) : ∃ N, ∀ fuel, N ≤ fuel → ∃ d, parse fuel x.chars = .ok d ∧ attrConstraints d name = some (x.attributes name).length := by
  obtain ⟨N, hN⟩ := parse_of h hac
  refine ⟨N, fun fuel hf => ?_⟩
  obtain ⟨d, h1, h2⟩ := hN fuel hf
  refine ⟨d, h1, ?_⟩
  rcases h2.attributes name with ⟨-, h3⟩ | ⟨al, h3, -, h4, -⟩
  · exact absurd h3 hn
  · simp [attrConstraints, h3, h4]

example : sample46.attributes c!"chapter" ≠ [] := by decide +kernel

/-- An element without attributes: NULL is read. -/
theorem C49_no_constraints : ∃ d, parse 40 c!"<!ELEMENT a EMPTY>" = .ok d ∧ attrConstraints d c!"a" = none :=
  ⟨⟨[⟨c!"a", .empty⟩], [], some ⟨c!"a", .empty⟩, false, false, []⟩, by rfl, by rfl⟩

/-- **C49, entities.**  axl_dtd_entity_value gives the value in the first declaration of an entity of that type with that
name, as XML asks when there are more. -/
theorem C49_entity (d : Dtd) (name v : List Char) (type : EntityType) :
    d.entityValue name type = some v ↔
      ∃ before after, d.entities = before ++ ⟨name, type, some v⟩ :: after ∧ ∀ e ∈ before, ¬ (e.name = name ∧ e.type = type) := by
  unfold Dtd.entityValue Dtd.entity
  constructor
  · intro h
    obtain ⟨e, h1, h2⟩ := Option.bind_eq_some_iff.1 h
    rw [List.find?_eq_some_iff_append] at h1
    obtain ⟨h3, as, bs, h4, h5⟩ := h1
    rw [Bool.and_eq_true, decide_eq_true_iff, cmp_some_iff] at h3
    obtain ⟨n, t, c⟩ := e
    simp only at h2 h3
    obtain ⟨rfl, rfl⟩ := h3
    subst h2
    refine ⟨as, bs, h4, fun e he => ?_⟩
    have := h5 e he
    intro hc
    rw [hc.1, hc.2, cmp_some_iff.2 rfl] at this
    simp at this
  · rintro ⟨as, bs, h4, h5⟩
    have : List.find? (fun e => decide (e.type = type) && cmp (some e.name) (some name)) d.entities = some ⟨name, type, some v⟩ := by
      rw [List.find?_eq_some_iff_append]
      refine ⟨by simp [cmp_some_iff], as, bs, h4, fun e he => ?_⟩
      have := h5 e he
      rw [Bool.not_eq_true', ← Bool.not_eq_true, Bool.and_eq_true, decide_eq_true_iff, cmp_some_iff]
      exact fun hc => this ⟨hc.2, hc.1⟩
    rw [this]
    rfl

/-- **C49, entities.**  axl_dtd_entity_exists. -/
theorem C49_entity_exists (d : Dtd) (name : List Char) (type : EntityType) :
    entityExists d name type = true ↔ ∃ e ∈ d.entities, e.name = name ∧ e.type = type := by
  unfold entityExists Dtd.entity
  rw [List.find?_isSome]
  constructor
  · rintro ⟨e, h1, h2⟩
    rw [Bool.and_eq_true, decide_eq_true_iff, cmp_some_iff] at h2
    exact ⟨e, h1, h2.2, h2.1⟩
  · rintro ⟨e, h1, h2, h3⟩
    refine ⟨e, h1, ?_⟩
    rw [Bool.and_eq_true, decide_eq_true_iff, cmp_some_iff]
    exact ⟨h3, h2⟩

example : Dtd.entityValue ⟨[], [], none, false, false, [⟨c!"e", .parameter, some c!"p"⟩, ⟨c!"e", .general, some c!"1"⟩, ⟨c!"e", .general, some c!"2"⟩]⟩
    c!"e" .general = some c!"1" := by decide +kernel

/-- **C49, top level.**  axl_dtd_element_is_toplevel says whether the element is in the content of no element, and is
true for the root of a DTD that was parsed. -/
theorem C49_top_level (d : Dtd) (e : Element) :
    ∃ b, isTopLevel d e = .ok b ∧ (b = true ↔ ∀ p ∈ d.elements, ¬ p.Mentions e.name) := topLoop_ok

/-- **C49, top level, the root.** -/
theorem C49_root (text : List Char) (fuel : Nat) (d : Dtd) (h : parse fuel text = .ok d) (e : Element) (he : d.root = some e) :
    e ∈ d.elements ∧ isTopLevel d e = .ok true := by
  have hw := parse_wellFormed h
  by_cases hn : d.elements = []
  · rw [hw.noRoot hn] at he
    cases he
  · obtain ⟨r, h1, h2, h3⟩ := hw.root hn
    rw [h2] at he
    cases he
    obtain ⟨b, h4, h5⟩ := C49_top_level d e
    rw [h4, h5.2 h3]
    exact ⟨h1, rfl⟩

example : isTopLevel bookDtd ⟨c!"book", .children bookModel⟩ = .ok true ∧ isTopLevel bookDtd ⟨c!"note", .pcdata text⟩ = .ok false := by
  constructor <;> rfl

/-! ### C50 -/

/-- **C50** (partial): what axl_dtd_are_equal answers true for.  The full claim, that it answers true for the DTDs with
the same declarations and only for them, is false: `C50_other_names`, `C50_more_items`, `C50_other_default`,
`C50_not_itself`. -/
theorem C50_compares_partial (d d' : Dtd) : areEqual d d' = some true ↔ DtdsMatch d d' := areEqual_iff d d'

/-- **C50, the same DTD** (partial): it is equal to itself if its entities have values. -/
theorem C50_itself_partial (d : Dtd) (h : ∀ e ∈ d.entities, e.content ≠ none) : areEqual d d = some true :=
  (areEqual_iff d d).2 (dtdsMatch_refl h)

/-- **C50, the same text** (partial): two parses of a text written as XML asks give equal DTDs. -/
theorem C50_same_text_partial (x : Subset) (h : x.Valid) (hac : Acyclic x.elements) :
    ∃ N, ∀ fuel, N ≤ fuel → ∃ d, parse fuel x.chars = .ok d ∧ areEqual d d = some true := by
  obtain ⟨N, hN⟩ := parse_of h hac
  refine ⟨N, fun fuel hf => ?_⟩
  obtain ⟨d, h1, h2⟩ := hN fuel hf
  refine ⟨d, h1, C50_itself_partial d ?_⟩
  rw [h2.entities]
  intro e he
  obtain ⟨p, -, hp⟩ := List.mem_filterMap.1 he
  split at hp
  · cases hp; simp
  · cases hp

example : ∃ N, ∀ fuel, N ≤ fuel → ∃ d, parse fuel sample46.chars = .ok d ∧ areEqual d d = some true :=
  C50_same_text_partial sample46 sample46_valid sample46_acyclic

/-- **C50, memory** (partial): no NULL is read if the content models of the first DTD do not have more items, at the top,
than those at the same place in the second. -/
theorem C50_safe_partial (d d' : Dtd) (h : ∀ (i : Nat) e e', d.elements[i]? = some e → d'.elements[i]? = some e' → e.width ≤ e'.width) :
    areEqual d d' ≠ none := areEqual_none h

example : ∀ (i : Nat) e e', bookDtd.elements[i]? = some e → bookDtd.elements[i]? = some e' → e.width ≤ e'.width := by
  intro i e e' h1 h2
  rw [h1] at h2
  cases h2
  exact Nat.le_refl _

/-- The DTD of one element. -/
def one (type : ElementType) : Dtd := ⟨[⟨c!"a", type⟩], [], some ⟨c!"a", type⟩, false, false, []⟩

/-- The names in the content models are not compared. -/
theorem C50_other_names : ∃ d d', parse 40 c!"<!ELEMENT a (b)>" = .ok d ∧ parse 40 c!"<!ELEMENT a (c)>" = .ok d' ∧ areEqual d d' = some true ∧
    ∃ e e', d.element c!"a" = some e ∧ d'.element c!"a" = some e' ∧ ¬ SameContent e.type e'.type := by
  refine ⟨one (.children (sq [nm c!"b"])), one (.children (sq [nm c!"c"])), by rfl, by rfl, by rfl, _, _, rfl, rfl, fun h => ?_⟩
  have := (h [c!"b"]).1 ⟨_, _, rfl, rfl, rfl⟩
  obtain ⟨u, v, h1, rfl, rfl⟩ := this
  simp at h1

/-- The number of items is not compared: with more items in the second DTD the answer is true, and with more in the
first NULL is read. -/
theorem C50_more_items : ∃ d d', parse 40 c!"<!ELEMENT a (b)>" = .ok d ∧ parse 40 c!"<!ELEMENT a (b,c?)>" = .ok d' ∧
    areEqual d d' = some true ∧ areEqual d' d = none :=
  ⟨one (.children (sq [nm c!"b"])), one (.children (sq [nm c!"b", nm c!"c" .opt])), by rfl, by rfl, by rfl, by rfl⟩

/-- Default values are not compared. -/
theorem C50_other_default : ∃ d d', parse 40 c!"<!ATTLIST a x CDATA '1'>" = .ok d ∧ parse 40 c!"<!ATTLIST a x CDATA '2'>" = .ok d' ∧
    areEqual d d' = some true ∧ d.attr c!"a" ≠ d'.attr c!"a" :=
  ⟨⟨[], [⟨c!"a", [⟨c!"x", .cdata, .implied, some c!"1"⟩]⟩], none, false, false, []⟩,
    ⟨[], [⟨c!"a", [⟨c!"x", .cdata, .implied, some c!"2"⟩]⟩], none, false, false, []⟩, by rfl, by rfl, by rfl, by decide +kernel⟩

/-- A DTD with an entity without value is not equal to itself. -/
theorem C50_not_itself : ∃ d, parse 40 c!"<!ENTITY x PUBLIC>" = .ok d ∧ areEqual d d = some false :=
  ⟨⟨[], [], none, false, false, [⟨c!"x", .general, none⟩]⟩, by rfl, by rfl⟩

end Axl.Dtd
