/-
Property C74: a document is valid for a DTD exactly when XML says so, from the two texts.
-/
import Verif.Proofs.Valid
import Verif.Props.DtdText
import Verif.Props.Source
import Verif.Props.FileParse
import Verif.Props.DtdFile

namespace Axl
open Spec.Valid Spec.Source
open Dtd.Source (Subset Model)
open Dtd (declEl two remarks_blank)

/-! ### A DTD and documents -/

/-- `<!ELEMENT book (title, (chapter| part)*)>` and its other elements, an identifier for the chapters and references to them. -/
def sample74 : Subset where
  decls := [([], declEl c!"book" (.children false (.more (.name [] c!"title" .one []) (.last (.group [' '] true (two c!"chapter" c!"part") .many []))) .one)),
    ([], declEl c!"title" (.text [] [] false)), (c!"\n", declEl c!"chapter" (.mixed [] [] (two c!"title" c!"part"))), ([], declEl c!"part" .empty),
    (c!"\n", .attlist [' '] c!"chapter" [⟨[' '], c!"id", [' '], .id, [' '], .required⟩,
      ⟨[' '], c!"kind", [' '], .enum ⟨[], c!"short", []⟩ [⟨[], c!"long", []⟩], [' '], .value none '"' c!"short"⟩] []),
    ([], .attlist [' '] c!"part" [⟨[' '], c!"of", [' '], .idref, [' '], .implied⟩] [])]
  tail := []

/-- `<book> <title>T</title><chapter id="c1" kind='long'>See <part of='?'/></chapter></book>` -/
def doc74 (of : List Char) : Element :=
  .pair c!"book" [] [] (.text [' '] (.element (.pair c!"title" [] [] (.text c!"T" .nil) []) (.element
    (.pair c!"chapter" [⟨[' '], c!"id", '"', c!"c1"⟩, ⟨[' '], c!"kind", '\'', c!"long"⟩] [] (.text c!"See " (.element
      (.empty c!"part" [⟨[' '], c!"of", '\'', of⟩] []) .nil)) []) .nil))) []

theorem sample74_chars : sample74.chars = c!"<!ELEMENT book (title, (chapter| part)*)><!ELEMENT title (#PCDATA)>
<!ELEMENT chapter (#PCDATA|title| part)*><!ELEMENT part EMPTY>
<!ATTLIST chapter id ID #REQUIRED kind (short|long) \"short\"><!ATTLIST part of IDREF #IMPLIED>" := by decide +kernel

theorem doc74_chars (of : List Char) :
    (doc74 of).chars = c!"<book> <title>T</title><chapter id=\"c1\" kind='long'>See <part of='" ++ (of ++ c!"'/></chapter></book>") := by
  simp [doc74, Element.chars, Parts.chars, Attribute.chars]

theorem sample74_valid : sample74.Valid where
  remarks := by
    simp only [sample74, List.mem_cons, List.not_mem_nil, or_false, forall_eq_or_imp, forall_eq]
    exact ⟨remarks_blank (by decide +kernel), remarks_blank (by decide +kernel), remarks_blank (by decide +kernel),
      remarks_blank (by decide +kernel), remarks_blank (by decide +kernel), remarks_blank (by decide +kernel)⟩
  decls := by
    simp only [sample74, List.mem_cons, List.not_mem_nil, or_false, forall_eq_or_imp, forall_eq, declEl, Dtd.Source.Decl.Valid, two,
      Model.Valid, Dtd.Source.Cps.Valid, Dtd.Source.Cp.Valid, Dtd.Source.Cps.names, Dtd.Source.Default.Valid, Dtd.Source.Typ.Valid, Dtd.Source.Token.Valid,
      Dtd.Source.Quoted, reduceCtorEq, false_implies, implies_true,
      Option.some.injEq, forall_eq', true_and, and_true, Dtd.Source.Gap, ne_eq, not_false_eq_true, or_true, true_or]
    repeat' constructor
    all_goals first | decide +kernel | skip
    simp only [List.mem_singleton, forall_eq]
    exact ⟨by decide +kernel, by decide +kernel, by decide +kernel⟩
  tail := remarks_blank (by decide +kernel)
  names := by decide +kernel
  oneId := by
    intro n
    simp only [sample74, Subset.attributes, declEl, List.flatMap_cons, List.flatMap_nil, List.nil_append, List.append_nil, List.mem_append]
    grind [Dtd.Source.AttDef.decl, Dtd.Source.Typ.type]
  notFixed := by
    intro n
    simp only [sample74, Subset.attributes, declEl, List.flatMap_cons, List.flatMap_nil, List.nil_append, List.append_nil, List.mem_append]
    grind [Dtd.Source.AttDef.decl, Dtd.Source.Typ.type, Dtd.Source.Default.defaults]
  enums := by
    intro n
    simp only [sample74, Subset.attributes, declEl, List.flatMap_cons, List.flatMap_nil, List.nil_append, List.append_nil, List.mem_append]
    grind [Dtd.Source.AttDef.decl, Dtd.Source.Typ.type, Dtd.Source.Default.content]
  resolved := fun _ => ⟨c!"chapter", ⟨c!"id", .id, .required, none⟩, by decide +kernel, rfl⟩

theorem sample74_declares {n : List Char} {m : Model} (h : Declares sample74 n m) :
    (n = c!"book" ∧ m = .children false (.more (.name [] c!"title" .one []) (.last (.group [' '] true (two c!"chapter" c!"part") .many []))) .one) ∨
    (n = c!"title" ∧ m = .text [] [] false) ∨ (n = c!"chapter" ∧ m = .mixed [] [] (two c!"title" c!"part")) ∨ (n = c!"part" ∧ m = .empty) := by
  obtain ⟨b, g, gm, ge, h⟩ := h
  simp only [sample74, declEl, List.mem_cons, Prod.mk.injEq, Dtd.Source.Decl.element.injEq, List.not_mem_nil, or_false, reduceCtorEq, and_false] at h
  grind

theorem sample74_class : Class sample74 where
  valid := sample74_valid
  height := ⟨fun n => if n = c!"book" then 2 else if n = c!"chapter" then 1 else 0, by
    have h : sample74.elements = [⟨c!"book", Model.stored (.children false (.more (.name [] c!"title" .one [])
        (.last (.group [' '] true (two c!"chapter" c!"part") .many []))) .one)⟩, ⟨c!"title", Model.stored (.text [] [] false)⟩,
      ⟨c!"chapter", Model.stored (.mixed [] [] (two c!"title" c!"part"))⟩, ⟨c!"part", .empty⟩] := by rfl
    rw [h]
    simp [Dtd.Element.Mentions, Model.stored, two, Dtd.Source.Cps.stored, Dtd.Source.Cp.stored, Dtd.MentionsAny, Dtd.Part.Mentions]⟩
  known := by
    intro n m h
    rcases sample74_declares h with ⟨-, rfl⟩ | ⟨-, rfl⟩ | ⟨-, rfl⟩ | ⟨-, rfl⟩
    · refine ⟨⟨trivial, ⟨trivial, trivial⟩, .inr (by decide)⟩, .inr (by decide)⟩
    all_goals trivial
  noAny := by
    intro n h
    rcases sample74_declares h with ⟨-, h⟩ | ⟨-, h⟩ | ⟨-, h⟩ | ⟨-, h⟩ <;> cases h
  once := by
    intro n
    simp only [sample74, Subset.attributes, declEl, List.flatMap_cons, List.flatMap_nil, List.nil_append, List.append_nil]
    by_cases h1 : c!"chapter" = n
    · subst h1
      decide +kernel
    · by_cases h2 : c!"part" = n
      · subst h2
        decide +kernel
      · simp [h1, h2]
  models := by
    intro n m l h hl
    rcases sample74_declares h with ⟨-, rfl⟩ | ⟨-, rfl⟩ | ⟨-, rfl⟩ | ⟨-, rfl⟩ <;> cases hl <;> decide +kernel

theorem doc74_valid (of : List Char) (h : '\'' ∉ of ∧ Char.ofNat 0 ∉ of) : (doc74 of).Valid := by
  have ha : Spec.Source.ValidAttrs [⟨[' '], c!"id", '"', c!"c1"⟩, ⟨[' '], c!"kind", '\'', c!"long"⟩] := by
    refine ⟨?_, by decide +kernel⟩
    intro a ha
    simp only [List.mem_cons, List.not_mem_nil, or_false] at ha
    rcases ha with rfl | rfl <;> exact ⟨by decide +kernel, by decide +kernel, by decide +kernel, by decide +kernel, by decide +kernel⟩
  have ho : Spec.Source.ValidAttrs [⟨[' '], c!"of", '\'', of⟩] := by
    refine ⟨?_, by simp⟩
    intro a ha
    simp only [List.mem_singleton] at ha
    subst ha
    exact ⟨(by decide +kernel : Spec.Xml.Blank [' '] ∧ [' '] ≠ []), (by decide +kernel : Spec.RoundTrip.IsName c!"of"), .inr rfl, h,
      fun h => absurd h (by dsimp only; decide)⟩
  have hs : ¬ c!"/>" <+: (Parts.element (.empty c!"part" [⟨[' '], c!"of", '\'', of⟩] []) .nil).chars := fun h => by
    obtain ⟨t, h⟩ := h
    simp [Parts.chars, Element.chars] at h
  simp only [doc74, Element.Valid, Parts.Valid, Spec.Source.isText]
  refine ⟨by decide +kernel, sample45_noAttrs, by decide +kernel, ⟨by decide +kernel, by decide +kernel, by decide +kernel, id,
    ⟨by decide +kernel, sample45_noAttrs, by decide +kernel, ⟨by decide +kernel, by decide +kernel, by decide +kernel, id, trivial⟩, by decide +kernel, by decide +kernel, by decide +kernel⟩,
    ⟨by decide +kernel, ha, by decide +kernel, ⟨by decide +kernel, by decide +kernel, by decide +kernel, id, ⟨by decide +kernel, ho, by decide +kernel⟩, trivial⟩, by decide +kernel,
      by decide +kernel, fun h => by simp at h⟩, trivial⟩, by decide +kernel, by decide +kernel, ?_⟩
  rintro ⟨-, -, t, h⟩
  simp [Parts.chars] at h

theorem doc74_all (of : List Char) : (all (doc74 of)).map (fun k => (name k, (attrs k).map fun a => (a.name, a.value))) =
    [(c!"book", []), (c!"title", []), (c!"chapter", [(c!"id", c!"c1"), (c!"kind", c!"long")]), (c!"part", [(c!"of", of)])] := by
  simp [doc74, all, allOf, name, attrs]

theorem doc74_class (of : List Char) (h : '\'' ∉ of ∧ Char.ofNat 0 ∉ of) : ClassDoc sample74 (doc74 of) where
  valid := doc74_valid of h
  plain := by
    have hn : ¬ Spec.Source.asksPreserve [] := by rintro ⟨a, ha, _⟩; simp at ha
    simp only [doc74, NoPreserve, Spec.Source.NoPreserveParts]
    refine ⟨hn, ⟨hn, trivial⟩, ⟨?_, ?_, trivial⟩, trivial⟩
    · rintro ⟨a, ha, h, _⟩
      simp only [List.mem_cons, List.not_mem_nil, or_false] at ha
      rcases ha with rfl | rfl <;> revert h <;> decide +kernel
    · rintro ⟨a, ha, h, _⟩
      simp only [List.mem_singleton] at ha
      subst ha
      exact absurd h (by dsimp only; decide)
  root := by
    intro m l h hl
    rcases sample74_declares h with ⟨-, rfl⟩ | ⟨h, -⟩ | ⟨h, -⟩ | ⟨h, -⟩
    · cases hl
      decide +kernel
    all_goals exact absurd h (by simp [doc74, name])
  ids := by
    intro k hk d hd ht
    simp only [doc74, all, allOf, List.cons_append, List.nil_append, List.append_nil, List.mem_cons, List.not_mem_nil, or_false] at hk
    rcases hk with rfl | rfl | rfl | rfl
    · exact absurd hd (by simp [name, sample74, Subset.attributes, declEl])
    · exact absurd hd (by simp [name, sample74, Subset.attributes, declEl])
    · refine ⟨c!"c1", ⟨[' '], c!"id", '"', c!"c1"⟩, by simp [attrs], ?_, rfl⟩
      simp only [name, sample74, Subset.attributes, declEl, List.flatMap_cons, List.flatMap_nil, List.nil_append, List.append_nil] at hd
      simp at hd
      rcases hd with rfl | rfl
      · rfl
      · cases ht
    · simp only [name, sample74, Subset.attributes, declEl, List.flatMap_cons, List.flatMap_nil, List.nil_append, List.append_nil] at hd
      simp at hd
      subst hd
      cases ht

theorem sample74_attrs : sample74.attributes c!"book" = [] ∧ sample74.attributes c!"title" = [] ∧
    sample74.attributes c!"chapter" = [⟨c!"id", .id, .required, none⟩, ⟨c!"kind", .enum [c!"short", c!"long"], .implied, some c!"short"⟩] ∧
    sample74.attributes c!"part" = [⟨c!"of", .idref, .implied, none⟩] := ⟨rfl, rfl, rfl, rfl⟩

/-- The part has to be of the chapter that there is. -/
theorem doc74_checked (of : List Char) : Checked sample74 (doc74 of) ↔ of = c!"c1" := by
  obtain ⟨a1, a2, a3, a4⟩ := sample74_attrs
  have hall : all (doc74 of) = [doc74 of, .pair c!"title" [] [] (.text c!"T" .nil) [],
      .pair c!"chapter" [⟨[' '], c!"id", '"', c!"c1"⟩, ⟨[' '], c!"kind", '\'', c!"long"⟩] [] (.text c!"See " (.element
        (.empty c!"part" [⟨[' '], c!"of", '\'', of⟩] []) .nil)) [],
      .empty c!"part" [⟨[' '], c!"of", '\'', of⟩] []] := by
    simp [doc74, all, allOf]
  have hid : ∀ (i : Nat) (k : Element) (v : List Char), (all (doc74 of))[i]? = some k → Identifier sample74 k v → i = 2 ∧ v = c!"c1" := by
    intro i k v hi ⟨d, hd, ht, b, hb, h1, h2⟩
    rw [hall] at hi
    rcases i with _ | _ | _ | _ | i
    · simp at hi; subst hi; rw [show name (doc74 of) = c!"book" from rfl, a1] at hd; cases hd
    · simp at hi; subst hi; rw [name, a2] at hd; cases hd
    · simp at hi; subst hi; rw [name, a3] at hd
      simp only [attrs, List.mem_cons, List.not_mem_nil, or_false] at hb hd
      refine ⟨rfl, ?_⟩
      rcases hd with rfl | rfl
      · rcases hb with rfl | rfl
        · exact h2.symm
        · exact absurd h1 (by decide)
      · cases ht
    · simp at hi; subst hi; rw [name, a4] at hd
      simp only [List.mem_cons, List.not_mem_nil, or_false] at hd
      subst hd
      cases ht
    · simp at hi
  constructor
  · intro h
    obtain ⟨l, hl, hv⟩ := h.resolved (.empty c!"part" [⟨[' '], c!"of", '\'', of⟩] []) (by rw [hall]; simp) of
      ⟨⟨c!"of", .idref, .implied, none⟩, by rw [name, a4]; simp, rfl, _, by simp [attrs]; rfl, rfl, rfl⟩
    obtain ⟨i, hi⟩ := List.getElem?_of_mem hl
    exact (hid i l of hi hv).2
  · rintro rfl
    have hd : ∀ n m, (([], declEl n m) ∈ sample74.decls ∨ (c!"\n", declEl n m) ∈ sample74.decls) → Declares sample74 n m := by
      rintro n m (h | h)
      · exact ⟨[], [' '], [' '], [], h⟩
      · exact ⟨c!"\n", [' '], [' '], [], h⟩
    refine ⟨fun k hk => ?_, fun k hk hne => ?_, fun i j k l v hi hj hk hl => ?_, fun k hk v hr => ?_⟩
    · rw [hall] at hk
      simp only [List.mem_cons, List.not_mem_nil, or_false] at hk
      rcases hk with rfl | rfl | rfl | rfl
      · refine ⟨_, hd _ (.children false (.more (.name [] c!"title" .one []) (.last (.group [' '] true (two c!"chapter" c!"part") .many []))) .one) (.inl ?_), ?_⟩
        · simp [sample74, doc74, name]
        · refine ⟨[c!"title"], [c!"chapter"], rfl, rfl, [c!"chapter"], [], rfl, ?_, rfl⟩
          exact Dtd.Star.cons (u := [c!"chapter"]) (v := []) (.inl rfl) .nil
      · exact ⟨.text [] [] false, hd _ _ (.inl (by simp [sample74, name])), rfl⟩
      · refine ⟨.mixed [] [] (two c!"title" c!"part"), hd _ _ (.inr (by simp [sample74, name])), ?_⟩
        simp [Allowed, children, content, elements, name, names, two]
      · refine ⟨.empty, hd _ _ (.inl (by simp [sample74, name])), ?_⟩
        simp [Allowed, children, content, elements, HasText, saysText]
    · rw [hall] at hk
      simp only [List.mem_cons, List.not_mem_nil, or_false] at hk
      rcases hk with rfl | rfl | rfl | rfl
      · exact absurd a1 hne
      · exact absurd a2 hne
      · rw [name, a3]
        refine ⟨?_, ?_, ?_⟩
        · rintro n v ⟨b, hb, rfl, rfl⟩
          simp only [attrs, List.mem_cons, List.not_mem_nil, or_false] at hb
          rcases hb with rfl | rfl
          · exact ⟨_, List.mem_cons_self, rfl, fun vs h => by cases h⟩
          · exact ⟨_, List.mem_cons_of_mem _ List.mem_cons_self, rfl, fun vs h => by cases h; simp⟩
        · intro d hd hr
          simp only [List.mem_cons, List.not_mem_nil, or_false] at hd
          rcases hd with rfl | rfl
          · exact ⟨c!"c1", _, List.mem_cons_self, rfl, rfl⟩
          · cases hr
        · intro d hd hr
          simp only [List.mem_cons, List.not_mem_nil, or_false] at hd
          rcases hd with rfl | rfl <;> cases hr
      · rw [name, a4]
        refine ⟨?_, ?_, ?_⟩
        · rintro n v ⟨b, hb, rfl, rfl⟩
          simp only [attrs, List.mem_cons, List.not_mem_nil, or_false] at hb
          subst hb
          exact ⟨_, List.mem_cons_self, rfl, fun vs h => by cases h⟩
        · intro d hd hr
          simp only [List.mem_cons, List.not_mem_nil, or_false] at hd
          subst hd; cases hr
        · intro d hd hr
          simp only [List.mem_cons, List.not_mem_nil, or_false] at hd
          subst hd; cases hr
    · rw [(hid i k v hi hk).1, (hid j l v hj hl).1]
    · refine ⟨_, by rw [hall]; exact List.mem_cons_of_mem _ (List.mem_cons_of_mem _ List.mem_cons_self), ⟨c!"id", .id, .required, none⟩, by rw [name, a3]; simp, rfl,
        ⟨[' '], c!"id", '"', c!"c1"⟩, List.mem_cons_self, rfl, ?_⟩
      obtain ⟨d, hd, ht, b, hb, h1, h2⟩ := hr
      rw [hall] at hk
      simp only [List.mem_cons, List.not_mem_nil, or_false] at hk
      rcases hk with rfl | rfl | rfl | rfl
      · rw [show name (doc74 c!"c1") = c!"book" from rfl, a1] at hd; cases hd
      · rw [name, a2] at hd; cases hd
      · rw [name, a3] at hd
        simp only [List.mem_cons, List.not_mem_nil, or_false] at hd
        rcases hd with rfl | rfl <;> cases ht
      · simp only [attrs, List.mem_cons, List.not_mem_nil, or_false] at hb
        subst hb
        exact h2

/-! ### C74 -/

/-- **C74** (partial).  For each DTD and document of the class, written as XML asks, axl_dtd_parse reads the DTD, axl_doc_parse reads the document,
and axl_dtd_validate answers; it answers true exactly when the document has what is declared: every element is declared and its
children are among the sequences of its content, its attributes are declared and have the values enumerated, those required and fixed are there,
no identifier is repeated and each reference has one.  Missing: the texts within elements and others that XML asks, see `C74_not_text` and those after it;
and the DTDs and documents that are not in the class, for which it is false (C35, C36, C37, C46). -/
theorem C74_answer_partial (x : Subset) (hx : Class x) (prolog : List Char) (encoding : Option (List Char)) (standalone : Bool) (pis : List PI)
    (hp : Spec.Source.Prolog prolog encoding standalone pis) (bom : List Char) (hb : bom = [] ∨ bom = ['ï', '»', '¿'])
    (e : Element) (he : ClassDoc x e) (rest : List Char) :
    ∃ N, ∀ fuel, N ≤ fuel → ∃ dtd doc answer, Dtd.parse fuel x.chars = .ok dtd ∧ Parse.parse (bom ++ prolog ++ e.chars ++ rest) = .ok doc ∧
      Dtd.validate fuel dtd doc.root = .ok answer ∧ (answer = true ↔ Checked x e) := by
  obtain ⟨N, hN⟩ := Dtd.parse_of hx.valid hx.height
  obtain ⟨doc, h1, _, _, h4, _⟩ := C45_accepts_partial prolog encoding standalone pis hp bom hb e he.valid he.plain rest
  refine ⟨max N (all e).length, fun fuel hf => ?_⟩
  obtain ⟨dtd, h5, h6⟩ := hN fuel (by omega)
  obtain ⟨⟨b, h7⟩, h8⟩ := Valid.answer hx he (Dtd.parse_wellFormed h5).parsed h6 h4 (fuel := fuel) (by omega)
  refine ⟨dtd, doc, b, h5, h1, h7, ?_⟩
  rw [← h8, h7]
  simp

/-- **C74, the documents that are valid** (partial).  A document that is valid as XML says, and in which the attributes that the DTD fixes are written, is found
valid.  Missing: the documents in which they are left out, `C74_not_fixed`. -/
theorem C74_valid_partial (x : Subset) (hx : Class x) (prolog : List Char) (encoding : Option (List Char)) (standalone : Bool) (pis : List PI)
    (hp : Spec.Source.Prolog prolog encoding standalone pis) (bom : List Char) (hb : bom = [] ∨ bom = ['ï', '»', '¿'])
    (e : Element) (he : ClassDoc x e) (rest : List Char) (hv : ValidXml x e) (hf : FixedWritten x e) :
    ∃ N, ∀ fuel, N ≤ fuel → ∃ dtd doc, Dtd.parse fuel x.chars = .ok dtd ∧ Parse.parse (bom ++ prolog ++ e.chars ++ rest) = .ok doc ∧
      Dtd.validate fuel dtd doc.root = .ok true := by
  obtain ⟨N, hN⟩ := C74_answer_partial x hx prolog encoding standalone pis hp bom hb e he rest
  refine ⟨N, fun fuel hn => ?_⟩
  obtain ⟨dtd, doc, b, h1, h2, h3, h4⟩ := hN fuel hn
  exact ⟨dtd, doc, h1, h2, by rw [h3, h4.2 (Valid.checked_of_xml hv hf)]⟩

/-- **C74, from files** (partial).  The same when the two texts are read from files, by axl_dtd_parse_from_file and axl_doc_parse_from_file, of up to 8192
bytes.  Missing: larger files, and a text that begins with white space at the end of the document (C55, C72). -/
theorem C74_files_partial (x : Subset) (hx : Class x) (hxs : x.chars.length ≤ 8192) (prolog : List Char) (encoding : Option (List Char)) (standalone : Bool)
    (pis : List PI) (hp : Spec.Source.Prolog prolog encoding standalone pis) (bom : List Char) (hb : bom = [] ∨ bom = ['ï', '»', '¿'])
    (e : Element) (he : ClassDoc x e) (rest : List Char) (hes : (bom ++ prolog ++ e.chars ++ rest).length ≤ 8192)
    (hl : Spec.File.FarLead (bom ++ prolog ++ e.chars ++ rest)) :
    ∃ N, ∀ fuel, N ≤ fuel → ∃ dtd doc answer, DtdFile.parseFile fuel (some x.chars) = .ok dtd ∧
      FileParse.parseFile (some (bom ++ prolog ++ e.chars ++ rest)) = .ok doc ∧
      Dtd.validate fuel dtd doc.root = .ok answer ∧ (answer = true ↔ Checked x e) := by
  obtain ⟨N, hN⟩ := C74_answer_partial x hx prolog encoding standalone pis hp bom hb e he rest
  refine ⟨N, fun fuel hn => ?_⟩
  rw [C72_fits_partial fuel _ hxs, C55_fits_partial _ hes hl]
  exact hN fuel hn

/-- The document of a chapter that is there, and of one that is not. -/
example (of : List Char) (h : '\'' ∉ of ∧ Char.ofNat 0 ∉ of) : ∃ N, ∀ fuel, N ≤ fuel → ∃ dtd doc answer, Dtd.parse fuel sample74.chars = .ok dtd ∧
    Parse.parse (c!"<book> <title>T</title><chapter id=\"c1\" kind='long'>See <part of='" ++ (of ++ c!"'/></chapter></book>")) = .ok doc ∧
    Dtd.validate fuel dtd doc.root = .ok answer ∧ (answer = true ↔ of = c!"c1") := by
  have := C74_answer_partial sample74 sample74_class [] none false [] (.bare (m := []) (ls := []) .nil (by decide)) [] (.inl rfl) (doc74 of) (doc74_class of h) []
  simpa only [doc74_checked, doc74_chars, List.nil_append, List.append_nil] using this

/-- The two texts can be read from files, with a line end after the document. -/
example : sample74.chars.length ≤ 8192 ∧ ([] ++ [] ++ (doc74 c!"c1").chars ++ c!"\n").length ≤ 8192 ∧
    Spec.File.FarLead ([] ++ [] ++ (doc74 c!"c1").chars ++ c!"\n") := by
  rw [doc74_chars, sample74_chars]
  refine ⟨by decide +kernel, by decide +kernel, FileParse.farLead_of_check (by decide +kernel)⟩

theorem doc74_xml : ValidXml sample74 (doc74 c!"c1") ∧ FixedWritten sample74 (doc74 c!"c1") := by
  obtain ⟨a1, a2, a3, a4⟩ := sample74_attrs
  have hc := (doc74_checked c!"c1").2 rfl
  have hall : ∀ k ∈ all (doc74 c!"c1"), k = doc74 c!"c1" ∨ k = .pair c!"title" [] [] (.text c!"T" .nil) [] ∨
      k = .pair c!"chapter" [⟨[' '], c!"id", '"', c!"c1"⟩, ⟨[' '], c!"kind", '\'', c!"long"⟩] [] (.text c!"See " (.element
        (.empty c!"part" [⟨[' '], c!"of", '\'', c!"c1"⟩] []) .nil)) [] ∨
      k = .empty c!"part" [⟨[' '], c!"of", '\'', c!"c1"⟩] [] := fun k hk => by simpa [doc74, all, allOf] using hk
  have fixed : ∀ k ∈ all (doc74 c!"c1"), ∀ d ∈ sample74.attributes (name k), d.defaults ≠ .fixed := by
    intro k hk d hd hf
    rcases hall k hk with rfl | rfl | rfl | rfl
    · rw [show name (doc74 c!"c1") = c!"book" from rfl, a1] at hd; cases hd
    · rw [name, a2] at hd; cases hd
    · rw [name, a3] at hd
      simp only [List.mem_cons, List.not_mem_nil, or_false] at hd
      rcases hd with rfl | rfl <;> cases hf
    · rw [name, a4] at hd
      simp only [List.mem_cons, List.not_mem_nil, or_false] at hd
      subst hd
      cases hf
  refine ⟨⟨fun k hk => ?_, fun k hk => ?_, hc.unique, fun k hk v hr => ?_⟩, fun k hk d hd hf => absurd hf (fixed k hk d hd)⟩
  · obtain ⟨m, hd, ha⟩ := hc.content k hk
    refine ⟨m, hd, ?_⟩
    rcases hall k hk with rfl | rfl | rfl | rfl <;> rcases sample74_declares hd with ⟨h, rfl⟩ | ⟨h, rfl⟩ | ⟨h, rfl⟩ | ⟨h, rfl⟩ <;>
      first | exact absurd h (by decide) | skip
    · exact ⟨ha, by simp [HasText, doc74, content, saysText]; decide +kernel⟩
    · exact ha
    · exact ha
    · rfl
  · by_cases hne : sample74.attributes (name k) = []
    · rcases hall k hk with rfl | rfl | rfl | rfl
      · refine ⟨fun n v ⟨b, hb, _⟩ => by simp [doc74, attrs] at hb, fun d hd => ?_, fun d hd => ?_⟩ <;> rw [hne] at hd <;> cases hd
      · refine ⟨fun n v ⟨b, hb, _⟩ => by simp [attrs] at hb, fun d hd => ?_, fun d hd => ?_⟩ <;> rw [hne] at hd <;> cases hd
      · exact absurd hne (by rw [name, a3]; simp)
      · exact absurd hne (by rw [name, a4]; simp)
    · have := hc.attrs k hk hne
      exact ⟨this.declared, this.required, fun d hd hf => absurd hf (fixed k hk d hd)⟩
  · rcases hr with hr | ⟨d, hd, ht, _⟩
    · exact hc.resolved k hk v hr
    · exfalso
      rcases hall k hk with rfl | rfl | rfl | rfl
      · rw [show name (doc74 c!"c1") = c!"book" from rfl, a1] at hd; cases hd
      · rw [name, a2] at hd; cases hd
      · rw [name, a3] at hd
        simp only [List.mem_cons, List.not_mem_nil, or_false] at hd
        rcases hd with rfl | rfl <;> cases ht
      · rw [name, a4] at hd
        simp only [List.mem_cons, List.not_mem_nil, or_false] at hd
        subst hd
        cases ht

example : Class sample74 ∧ ClassDoc sample74 (doc74 c!"c1") ∧ ValidXml sample74 (doc74 c!"c1") ∧ FixedWritten sample74 (doc74 c!"c1") :=
  ⟨sample74_class, doc74_class _ ⟨by decide, by decide⟩, doc74_xml⟩

/-! ### Where XML says otherwise -/

/-- The two texts are read and the document is found valid, or not. -/
def found74 (dtd doc : List Char) : Option Bool := 
  match Dtd.parse 50 dtd, Parse.parse doc with
  | .ok d, .ok n =>
    match Dtd.validate 50 d n.root with
    | .ok b => some b
    | _ => none
  | _, _ => none

theorem found74_iff {dtd doc : List Char} {b : Bool} (h : found74 dtd doc = some b) :
    ∃ d n, Dtd.parse 50 dtd = .ok d ∧ Parse.parse doc = .ok n ∧ Dtd.validate 50 d n.root = .ok b := by
  unfold found74 at h
  split at h
  · rename_i d n h1 h2
    split at h
    · rename_i b' h3
      cases h
      exact ⟨d, n, h1, h2, h3⟩
    · cases h
  · cases h

/-- `<!ELEMENT a (b)><!ELEMENT b EMPTY>` -/
def nested74 : Subset := ⟨[([], declEl c!"a" (.children false (.last (.name [] c!"b" .one [])) .one)), ([], declEl c!"b" .empty)], []⟩

/-- `<a>x<b/></a>` -/
def mixed74 : Element := .pair c!"a" [] [] (.text c!"x" (.element (.empty c!"b" [] []) .nil)) []

/-- **C74**: not of the code, a text where only elements are declared.  It is not valid, and it is found valid. -/
theorem C74_not_text : nested74.chars = c!"<!ELEMENT a (b)><!ELEMENT b EMPTY>" ∧ mixed74.chars = c!"<a>x<b/></a>" ∧ ¬ ValidXml nested74 mixed74 ∧
    ∃ d n, Dtd.parse 50 nested74.chars = .ok d ∧ Parse.parse mixed74.chars = .ok n ∧ Dtd.validate 50 d n.root = .ok true := by
  refine ⟨by decide +kernel, by decide +kernel, fun h => ?_, found74_iff (by decide +kernel)⟩
  obtain ⟨m, ⟨b, g, gm, ge, hd⟩, ha⟩ := h.content mixed74 (Valid.self_all _)
  simp [nested74, declEl, mixed74, name] at hd
  obtain ⟨-, -, -, rfl, -⟩ := hd
  exact ha.2 (.inl (by decide +kernel))

/-- `<!ELEMENT a EMPTY>` -/
def empty74 : Subset := ⟨[([], declEl c!"a" .empty)], []⟩

/-- `<a x="1"/>` -/
def extra74 : Element := .empty c!"a" [⟨[' '], c!"x", '"', c!"1"⟩] []

/-- **C74**: not of the code, an attribute of an element for which none is declared. -/
theorem C74_not_undeclared : empty74.chars = c!"<!ELEMENT a EMPTY>" ∧ extra74.chars = c!"<a x=\"1\"/>" ∧ ¬ ValidXml empty74 extra74 ∧
    ∃ d n, Dtd.parse 50 empty74.chars = .ok d ∧ Parse.parse extra74.chars = .ok n ∧ Dtd.validate 50 d n.root = .ok true := by
  refine ⟨by decide +kernel, by decide +kernel, fun h => ?_, found74_iff (by decide +kernel)⟩
  obtain ⟨d, hd, -⟩ := (h.attrs extra74 (Valid.self_all _)).declared c!"x" c!"1" ⟨⟨[' '], c!"x", '"', c!"1"⟩, by simp [extra74, attrs], rfl, rfl⟩
  simp [empty74, Subset.attributes, declEl] at hd

/-- `<a><!--c--></a>` -/
def remark74 : Element := .pair c!"a" [] [] (.comment c!"c" .nil) []

/-- **C74**: not of the code, a comment in an element that is to be empty. -/
theorem C74_not_empty : remark74.chars = c!"<a><!--c--></a>" ∧ ¬ ValidXml empty74 remark74 ∧
    ∃ d n, Dtd.parse 50 empty74.chars = .ok d ∧ Parse.parse remark74.chars = .ok n ∧ Dtd.validate 50 d n.root = .ok true := by
  refine ⟨by decide +kernel, fun h => ?_, found74_iff (by decide +kernel)⟩
  obtain ⟨m, ⟨b, g, gm, ge, hd⟩, ha⟩ := h.content remark74 (Valid.self_all _)
  simp [empty74, declEl, remark74, name] at hd
  obtain ⟨-, -, -, rfl, -⟩ := hd
  cases ha

/-- `<!ELEMENT a EMPTY><!ATTLIST a x CDATA #FIXED "1">` -/
def fixed74 : Subset := ⟨[([], declEl c!"a" .empty), ([], .attlist [' '] c!"a" [⟨[' '], c!"x", [' '], .cdata, [' '], .value (some [' ']) '"' c!"1"⟩] [])], []⟩

/-- `<a/>` -/
def bare74 : Element := .empty c!"a" [] []

/-- **C74**: not of the code, a fixed attribute that is left out.  The document is valid, and it is not found valid. -/
theorem C74_not_fixed : fixed74.chars = c!"<!ELEMENT a EMPTY><!ATTLIST a x CDATA #FIXED \"1\">" ∧ bare74.chars = c!"<a/>" ∧ ValidXml fixed74 bare74 ∧
    ∃ d n, Dtd.parse 50 fixed74.chars = .ok d ∧ Parse.parse bare74.chars = .ok n ∧ Dtd.validate 50 d n.root = .ok false := by
  have ha : fixed74.attributes c!"a" = [⟨c!"x", .cdata, .fixed, some c!"1"⟩] := rfl
  have hk : ∀ k ∈ all bare74, k = bare74 := fun k hk => by simpa [bare74, all] using hk
  have hn : ∀ n v, ¬ Has bare74 n v := fun n v ⟨b, hb, _⟩ => by simp [bare74, attrs] at hb
  refine ⟨by decide +kernel, by decide +kernel, ⟨fun k h => ?_, fun k h => ?_, fun i j k l v hi hj h _ => ?_, fun k h v hr => ?_⟩, found74_iff (by decide +kernel)⟩
  · rw [hk k h]
    exact ⟨.empty, ⟨[], [' '], [' '], [], by simp [fixed74, declEl, bare74, name]⟩, rfl⟩
  · rw [hk k h]
    refine ⟨fun n v h => absurd h (hn n v), fun d hd hr => ?_, fun d _ _ v h => absurd h (hn _ v)⟩
    rw [show name bare74 = c!"a" from rfl, ha] at hd
    simp only [List.mem_singleton] at hd
    subst hd
    cases hr
  · rw [hk k (List.mem_of_getElem? hi)] at h
    obtain ⟨d, _, _, h⟩ := h
    exact absurd h (hn _ v)
  · rw [hk k h] at hr
    rcases hr with ⟨d, _, _, h⟩ | ⟨d, _, _, w, h, _⟩
    · exact absurd h (hn _ v)
    · exact absurd h (hn _ w)

/-- `<!ELEMENT a EMPTY><!ATTLIST a i ID #REQUIRED r IDREFS #IMPLIED>` -/
def several74 : Subset := ⟨[([], declEl c!"a" .empty), ([], .attlist [' '] c!"a" [⟨[' '], c!"i", [' '], .id, [' '], .required⟩,
  ⟨[' '], c!"r", [' '], .idrefs, [' '], .implied⟩] [])], []⟩

/-- `<a i="1" r="2"/>` -/
def dangling74 : Element := .empty c!"a" [⟨[' '], c!"i", '"', c!"1"⟩, ⟨[' '], c!"r", '"', c!"2"⟩] []

/-- **C74**: not of the code, an attribute with several references: they are not looked for. -/
theorem C74_not_references : several74.chars = c!"<!ELEMENT a EMPTY><!ATTLIST a i ID #REQUIRED r IDREFS #IMPLIED>" ∧
    dangling74.chars = c!"<a i=\"1\" r=\"2\"/>" ∧ ¬ ValidXml several74 dangling74 ∧
    ∃ d n, Dtd.parse 50 several74.chars = .ok d ∧ Parse.parse dangling74.chars = .ok n ∧ Dtd.validate 50 d n.root = .ok true := by
  have ha : several74.attributes c!"a" = [⟨c!"i", .id, .required, none⟩, ⟨c!"r", .idrefs, .implied, none⟩] := rfl
  refine ⟨by decide +kernel, by decide +kernel, fun h => ?_, found74_iff (by decide +kernel)⟩
  obtain ⟨l, hl, d, hd, ht, b, hb, h1, h2⟩ := h.resolved dangling74 (Valid.self_all _) c!"2"
    (.inr ⟨⟨c!"r", .idrefs, .implied, none⟩, by rw [show name dangling74 = c!"a" from rfl, ha]; simp, rfl, c!"2",
      ⟨⟨[' '], c!"r", '"', c!"2"⟩, by simp [dangling74, attrs], rfl, rfl⟩, [], [], by simp, by simp, by decide +kernel, by simp, by simp⟩)
  simp only [dangling74, all, List.mem_singleton] at hl
  subst hl
  rw [name, ha] at hd
  simp only [attrs, List.mem_cons, List.not_mem_nil, or_false] at hb hd
  rcases hd with rfl | rfl
  · rcases hb with rfl | rfl
    · exact absurd h2 (by decide)
    · exact absurd h1 (by decide)
  · cases ht

end Axl
