/-
Property C75: a reference to a parameter entity in a list of attributes stands for the value of the entity.
-/
import Verif.Proofs.DtdRefs
import Verif.Props.DtdText

namespace Axl.Dtd
open Str Stream Source

/-! ### A DTD with references -/

/-- The definitions that the list of `sample75` stands for. -/
def sample75_defs : List AttDef :=
  [⟨[' '], c!"href", [' '], .cdata, c!"  ", .required⟩, ⟨[' '], c!"id", [' '], .id, [' '], .implied⟩,
   ⟨[' '], c!"class", [' '], .cdata, c!"  ", .implied⟩, ⟨c!"  ", c!"lang", [' '], .nmtoken, [' '], .value none '"' c!"en"⟩]

/-- A type as the value of an entity, and the end of a definition with another one after it, in which there is a
reference. -/
def sample75 : RefSubset where
  decls := [([], .plain (.entity [' '] (some [' ']) c!"uri" [' '] '"' c!"CDATA" [])),
    (c!"\n", .plain (.entity [' '] (some [' ']) c!"core" [' '] '"' c!"ID #IMPLIED class %uri; #IMPLIED" [])),
    (c!"\n", .plain (declEl c!"a" .empty)),
    (c!"\n", .attlist [' '] c!"a" c!" href %uri; #REQUIRED id %core; lang NMTOKEN \"en\">" sample75_defs [])]
  tail := []

example : sample75.chars = c!"<!ENTITY % uri \"CDATA\">
<!ENTITY % core \"ID #IMPLIED class %uri; #IMPLIED\">
<!ELEMENT a EMPTY>
<!ATTLIST a href %uri; #REQUIRED id %core; lang NMTOKEN \"en\">" := by decide +kernel

example : sample75.expanded.chars = c!"<!ENTITY % uri \"CDATA\">
<!ENTITY % core \"ID #IMPLIED class %uri; #IMPLIED\">
<!ELEMENT a EMPTY>
<!ATTLIST a href CDATA  #REQUIRED id ID #IMPLIED class CDATA  #IMPLIED  lang NMTOKEN \"en\">" := by decide +kernel

theorem sample75_defs_valid : ∀ a ∈ sample75_defs, a.Valid := by
  simp only [sample75_defs, List.mem_cons, List.not_mem_nil, or_false, forall_eq_or_imp, forall_eq]
  refine ⟨⟨?_, ?_, ?_, ?_, ?_, ?_⟩, ⟨?_, ?_, ?_, ?_, ?_, ?_⟩, ⟨?_, ?_, ?_, ?_, ?_, ?_⟩, ⟨?_, ?_, ?_, ?_, ?_, ?_⟩⟩ <;>
    first | decide +kernel | trivial | (simp only [Gap]; decide +kernel) | (simp only [Default.Valid, Quoted]; decide +kernel)

/-- The entities declared before the list. -/
def sample75_entities : List Entity := [⟨c!"uri", .parameter, some c!"CDATA"⟩, ⟨c!"core", .parameter, some c!"ID #IMPLIED class %uri; #IMPLIED"⟩]

theorem sample75_expands : Expands sample75_entities c!" href %uri; #REQUIRED id %core; lang NMTOKEN \"en\">"
    (sample75_defs.flatMap AttDef.chars ++ [] ++ c!">") := by
  have hv := sample75_defs_valid
  simp only [sample75_defs, List.mem_cons, List.not_mem_nil, or_false, forall_eq_or_imp, forall_eq] at hv
  obtain ⟨v1, v2, v3, v4⟩ := hv
  have hb : Gap [' '] := by simp only [Gap]; decide +kernel
  have uri : Value sample75_entities c!"uri" c!"CDATA" := ⟨[], _, rfl, by simp⟩
  have core : Value sample75_entities c!"core" c!"ID #IMPLIED class %uri; #IMPLIED" := ⟨[_], [], rfl, by simp⟩
  have h1 := Expands.definition (es := sample75_entities) _ v4 _ _ (.done [] (by decide +kernel))
  have h2 := Expands.definition _ v3 _ _ h1
  have h3 := Expands.reference [' '] c!"class" [' '] c!"uri" c!"CDATA" c!" #IMPLIED  lang NMTOKEN \"en\">" _ hb (by decide +kernel) hb (by decide +kernel) uri
    ⟨'C', _, rfl, by decide +kernel, by decide⟩ h2
  have h4 := Expands.definition _ v2 _ _ h3
  have h5 := Expands.reference [' '] c!"id" [' '] c!"core" c!"ID #IMPLIED class %uri; #IMPLIED" c!" lang NMTOKEN \"en\">" _ hb (by decide +kernel) hb (by decide +kernel)
    core ⟨'I', _, rfl, by decide +kernel, by decide⟩ h4
  have h6 := Expands.definition _ v1 _ _ h5
  exact Expands.reference [' '] c!"href" [' '] c!"uri" c!"CDATA" c!" #REQUIRED id %core; lang NMTOKEN \"en\">" _ hb (by decide +kernel) hb (by decide +kernel) uri
    ⟨'C', _, rfl, by decide +kernel, by decide⟩ h6

theorem sample75_written : sample75.Written where
  expanded := by
    refine ⟨?_, ?_, remarks_blank (by decide +kernel)⟩
    · simp only [sample75, RefSubset.expanded, List.map_cons, List.map_nil, List.mem_cons, List.not_mem_nil, or_false, forall_eq_or_imp, forall_eq]
      exact ⟨remarks_blank (by decide +kernel), remarks_blank (by decide +kernel), remarks_blank (by decide +kernel), remarks_blank (by decide +kernel)⟩
    · simp only [sample75, RefSubset.expanded, List.map_cons, List.map_nil, List.mem_cons, List.not_mem_nil, or_false, forall_eq_or_imp, forall_eq]
      simp only [RefDecl.expanded, declEl, Decl.Valid, Model.Valid, Gap, Option.some.injEq, forall_eq', Quoted]
      refine ⟨?_, ?_, ?_, ?_, ?_, ?_, sample75_defs_valid, ?_⟩ <;> first | decide +kernel | (simp only [sample75_defs]; decide)
  bodies := by
    intro before after m gap name body defs gapEnd h
    have hlen := congrArg List.length h
    simp only [sample75, List.length_cons, List.length_nil, List.length_append] at h hlen
    rcases before with _ | ⟨a, _ | ⟨b, _ | ⟨c, _ | ⟨d, l⟩⟩⟩⟩
    · simp at h
    · simp at h
    · simp [declEl] at h
    · simp only [List.cons_append, List.nil_append, List.cons.injEq, Prod.mk.injEq, RefDecl.attlist.injEq] at h
      obtain ⟨rfl, rfl, rfl, ⟨rfl, rfl, rfl, rfl, rfl, rfl⟩, -⟩ := h
      exact sample75_expands
    · simp only [List.length_cons] at hlen
      omega

theorem sample75_valid : sample75.expanded.Valid where
  toWritten := sample75_written.expanded
  names := by decide +kernel
  oneId := by
    intro n
    simp only [sample75, RefSubset.expanded, List.map_cons, List.map_nil, RefDecl.expanded, Subset.attributes, declEl, List.flatMap_cons, List.flatMap_nil,
      List.nil_append, List.append_nil, sample75_defs]
    grind [AttDef.decl, Typ.type]
  notFixed := by
    intro n
    simp only [sample75, RefSubset.expanded, List.map_cons, List.map_nil, RefDecl.expanded, Subset.attributes, declEl, List.flatMap_cons, List.flatMap_nil,
      List.nil_append, List.append_nil, sample75_defs]
    grind [AttDef.decl, Typ.type, Default.defaults]
  enums := by
    intro n
    simp only [sample75, RefSubset.expanded, List.map_cons, List.map_nil, RefDecl.expanded, Subset.attributes, declEl, List.flatMap_cons, List.flatMap_nil,
      List.nil_append, List.append_nil, sample75_defs]
    grind [AttDef.decl, Typ.type, Default.content]
  resolved := fun _ => ⟨c!"a", ⟨c!"id", .id, .implied, none⟩, by decide +kernel, rfl⟩

theorem sample75_acyclic : Acyclic sample75.expanded.elements :=
  ⟨fun _ => 0, by
    have h : sample75.expanded.elements = [⟨c!"a", .empty⟩] := by rfl
    rw [h]
    simp [Element.Mentions]⟩

/-! ### C75 -/

/-- **C75, the same answer** (partial: references at the place of the type of an attribute whose value begins with something that is
neither white space nor a reference).  The parse of a DTD with references does what that of the text with every reference replaced does:
the same DTD, or the same refusal.  Missing: references elsewhere and the other values, see `C75_not_definitions`, `C75_not_content`,
`C75_not_declarations`, `C75_not_white` and `C75_not_reference`. -/
theorem C75_replaced_partial (x : RefSubset) (h : x.Written) (fuel : Nat) (hf : x.expanded.chars.length < fuel) :
    parse fuel x.chars = parse fuel x.expanded.chars := parse_expands h hf

example (fuel : Nat) : parse (fuel + 1000) c!"<!ENTITY % uri \"CDATA\">
<!ENTITY % core \"ID #IMPLIED class %uri; #IMPLIED\">
<!ELEMENT a EMPTY>
<!ATTLIST a href %uri; #REQUIRED id %core; lang NMTOKEN \"en\">" = parse (fuel + 1000) c!"<!ENTITY % uri \"CDATA\">
<!ENTITY % core \"ID #IMPLIED class %uri; #IMPLIED\">
<!ELEMENT a EMPTY>
<!ATTLIST a href CDATA  #REQUIRED id ID #IMPLIED class CDATA  #IMPLIED  lang NMTOKEN \"en\">" :=
  C75_replaced_partial sample75 sample75_written (fuel + 1000) (by
    have : sample75.expanded.chars.length < 1000 := by decide +kernel
    omega)

/-- **C75, what is read** (partial, as `C75_replaced_partial`): if the declarations meet the validity constraints after the references
were replaced, and no element is within itself, the DTD is accepted with what the replaced text says. -/
theorem C75_accepted_partial (x : RefSubset) (h : x.Written) (hv : x.expanded.Valid) (hac : Acyclic x.expanded.elements) :
    ∃ N, ∀ fuel, N ≤ fuel → ∃ d, parse fuel x.chars = .ok d ∧ x.expanded.Means d := by
  obtain ⟨N, hN⟩ := parse_of hv hac
  refine ⟨N + x.expanded.chars.length + 1, fun fuel hf => ?_⟩
  rw [parse_expands h (by omega)]
  exact hN fuel (by omega)

example : ∃ N, ∀ fuel, N ≤ fuel → ∃ d, parse fuel sample75.chars = .ok d ∧ d.declsOf c!"a" =
    [⟨c!"href", .cdata, .required, none⟩, ⟨c!"id", .id, .implied, none⟩, ⟨c!"class", .cdata, .implied, none⟩, ⟨c!"lang", .nmtoken, .implied, some c!"en"⟩] := by
  obtain ⟨N, hN⟩ := C75_accepted_partial sample75 sample75_written sample75_valid sample75_acyclic
  refine ⟨N, fun fuel hf => ?_⟩
  obtain ⟨d, h1, h2⟩ := hN fuel hf
  refine ⟨d, h1, ?_⟩
  unfold Dtd.declsOf
  rcases h2.attributes c!"a" with ⟨-, h3⟩ | ⟨al, h3, -, h4, -⟩
  · exact absurd h3 (by decide +kernel)
  · rw [h3]
    simp only
    rw [h4]
    decide +kernel

/-- **C75, exactly** (partial, as `C75_replaced_partial`, for the elements that are not within themselves): the DTD is accepted if and only if
the declarations meet the validity constraints after the references were replaced. -/
theorem C75_exactly_partial (x : RefSubset) (h : x.Written) (hac : Acyclic x.expanded.elements) :
    (∃ N, ∀ fuel, N ≤ fuel → ∃ d, parse fuel x.chars = .ok d) ↔ x.expanded.Valid := by
  constructor
  · rintro ⟨N, hN⟩
    obtain ⟨d, hd⟩ := hN (N + x.expanded.chars.length + 1) (by omega)
    rw [parse_expands h (by omega)] at hd
    exact (parse_only_valid h.expanded hd).1
  · intro hv
    obtain ⟨N, hN⟩ := C75_accepted_partial x h hv hac
    exact ⟨N, fun fuel hf => (hN fuel hf).imp fun d hd => hd.1⟩

/-- **C75, the others are refused.**  A reference at the place of the type of an attribute to an entity that was not declared before, or whose value is
empty or begins with white space or with another reference, makes the DTD be refused, whatever was declared before and whatever
follows. -/
theorem C75_refused (ds : List (List Char × RefDecl)) (hds : RefSubset.Written ⟨ds, []⟩) (before gapName el gap name gapRef entity rest : List Char)
    (defs : List AttDef) (hb : Remarks before) (hgn : Gap gapName) (hel : DtdName el) (hdefs : ∀ a ∈ defs, a.Valid) (hg : Gap gap) (hn : DtdName name)
    (hr : Gap gapRef) (he : DtdName entity) (hv : ∀ v, Value (RefSubset.expanded ⟨ds, []⟩).entities entity v → ¬ PlainText v) :
    ∃ N, ∀ fuel, N ≤ fuel → parse fuel (ds.flatMap (fun p => p.1 ++ p.2.chars) ++ (before ++ (c!"<!ATTLIST" ++ gapName ++ el ++
      (defs.flatMap AttDef.chars ++ (gap ++ name ++ gapRef ++ '%' :: entity ++ ';' :: rest))))) = .error :=
  ⟨_, fun _ hf => parse_refused hds hb hgn hel hdefs hg hn hr he hv hf⟩

/-- An entity that is declared after the list. -/
example (rest : List Char) : ∃ N, ∀ fuel, N ≤ fuel → parse fuel (c!"<!ATTLIST a href %uri; #REQUIRED><!ENTITY % uri \"CDATA\">" ++ rest) = .error := by
  have hb : Gap [' '] := by simp only [Gap]; decide +kernel
  have := C75_refused [] ⟨⟨by simp [RefSubset.expanded], by simp [RefSubset.expanded], remarks_blank (by decide +kernel)⟩, by simp⟩ [] [' '] c!"a" [' '] c!"href" [' '] c!"uri"
    (c!" #REQUIRED><!ENTITY % uri \"CDATA\">" ++ rest) [] (remarks_blank (by decide +kernel)) hb (by decide +kernel) (by simp) hb (by decide +kernel) hb (by decide +kernel)
    (fun v h => by
      obtain ⟨a, b, h, -⟩ := h
      simp [RefSubset.expanded, Subset.entities] at h)
  simpa using this

/-! ### Not of the code -/

/-- **C75**: not of the code, a value that begins with white space. -/
theorem C75_not_white (fuel : Nat) : parse (fuel + 2) c!"<!ENTITY % uri \" CDATA\"><!ATTLIST a href %uri; #REQUIRED>" = .error ∧
    ∃ d, parse (fuel + 2) c!"<!ENTITY % uri \" CDATA\"><!ATTLIST a href  CDATA #REQUIRED>" = .ok d :=
  ⟨by rfl, _, by rfl⟩

/-- **C75**: not of the code, a value that begins with a reference. -/
theorem C75_not_reference (fuel : Nat) :
    parse (fuel + 2) c!"<!ENTITY % text \"CDATA\"><!ENTITY % uri \"%text;\"><!ATTLIST a href %uri; #REQUIRED>" = .error := by rfl

/-- **C75**: not of the code, definitions in the value of an entity. -/
theorem C75_not_definitions (fuel : Nat) :
    parse (fuel + 2) c!"<!ENTITY % core \"id ID #IMPLIED\"><!ATTLIST a %core;>" = .error := by rfl

/-- **C75**: not of the code, the content of an element in the value of an entity. -/
theorem C75_not_content (fuel : Nat) :
    parse (fuel + 2) c!"<!ENTITY % flow \"(b | c)\"><!ELEMENT a %flow;>" = .error ∧
    parse (fuel + 2) c!"<!ENTITY % flow \"EMPTY\"><!ELEMENT a %flow;>" = .error := ⟨by rfl, by rfl⟩

/-- **C75**: not of the code, declarations in the value of an entity. -/
theorem C75_not_declarations (fuel : Nat) :
    parse (fuel + 2) c!"<!ENTITY % all \"<!ELEMENT a EMPTY>\">%all;" = .error := by rfl

/-- A reference in a content model is not an error where a name can be: it is read as the name of an element. -/
theorem C75_not_names (fuel : Nat) : ∃ d, parse (fuel + 2) c!"<!ENTITY % names \"b | c\"><!ELEMENT a (%names;)>" = .ok d ∧
    d.elements = [⟨c!"a", .children ⟨.seq, .one, [.node .one c!"%names;"]⟩⟩] := ⟨_, by rfl, by rfl⟩

end Axl.Dtd
