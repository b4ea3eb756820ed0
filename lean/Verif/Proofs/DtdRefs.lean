/-
References to parameter entities in the lists of attributes.
-/
import Verif.Spec.DtdRefs
import Verif.Proofs.DtdSource

namespace Axl.Dtd
open Str Stream Spec.Xml Spec.RoundTrip Source

theorem entityValue_of {d : Dtd} {es : List Entity} (hd : d.entities = es) {name v : List Char} (h : Value es name v) :
    d.entityValue name .parameter = some v := by
  obtain ⟨a, b, rfl, hne⟩ := h
  unfold Dtd.entityValue Dtd.entity
  rw [hd, List.find?_append, List.find?_eq_none.2, Option.none_or, List.find?_cons_of_pos]
  · rfl
  · simp only [decide_true, Bool.true_and]
    exact cmp_true.2 rfl
  · intro e he hp
    simp only [Bool.and_eq_true, decide_eq_true_eq] at hp
    exact hne e he ⟨hp.1, cmp_true.1 hp.2⟩

theorem getUntil_entity {n : List Char} (hn : DtdName n) (r : List Char) : getUntil [c!";"] (n ++ ';' :: r) = some ⟨n, 0, ';' :: r, r⟩ := by
  have hfree : ';' ∉ n := fun h => by
    have := hn.2 _ h
    simp at this
  have := getUntil_mark (mark := c!";") (by decide) (upTo_char.2 hfree) (rest := r)
  simpa using this

/-- A reference, and its value with a space. -/
theorem attlistLoop_ref {fuel : Nat} {d : Dtd} {old : List AttDecl} {gap name gapRef entity v s : List Char} (hg : Gap gap) (hn : DtdName name)
    (hr : Gap gapRef) (he : DtdName entity) (hv : d.entityValue entity .parameter = some v) (hp : PlainText v) :
    attlistLoop fuel d old (gap ++ name ++ gapRef ++ '%' :: entity ++ ';' :: s) = attlistLoop fuel d old (gap ++ name ++ gapRef ++ v ++ ' ' :: s) := by
  cases fuel with
  | zero => rfl
  | succ fuel =>
    have hread : ∀ r : List Char, ∃ f, eat (skip (gap ++ (name ++ (gapRef ++ r)))) c!">" = none ∧
        getUntil [c!" "] (skip (gap ++ (name ++ (gapRef ++ r)))) = some f ∧ f.text = name ∧ f.at_ = gapRef ++ r := by
      intro r
      rw [hn.skip hg.1]
      obtain ⟨f, h1, h2, h3⟩ := getUntil_name hn.white hr r
      obtain ⟨c, r', h4, -, -, h5, -⟩ := name_head hn.1 (gapRef ++ r)
      exact ⟨f, by rw [h4]; exact eat_cons_ne h5, h1, h2, h3⟩
    obtain ⟨c, v', rfl, hw, hc⟩ := hp
    simp only [List.append_assoc, List.cons_append]
    obtain ⟨f, h1, h2, h3, h4⟩ := hread ('%' :: (entity ++ ';' :: s))
    obtain ⟨f', h1', h2', h3', h4'⟩ := hread (c :: (v' ++ ' ' :: s))
    rw [attlistLoop, attlistLoop, h1, h1', h2, h2']
    simp only
    rw [h3, h3', h4, h4', skip_gap hr.1 (not_white _), skip_gap hr.1 hw]
    have e1 : expand d ('%' :: (entity ++ ';' :: s)) = .ok (c :: (v' ++ ' ' :: s)) := by
      unfold expand
      rw [eat_cons]
      simp only
      rw [getUntil_entity he]
      simp only
      rw [Parse.toStr_id he.nul, hv]
      rfl
    have e2 : expand d (c :: (v' ++ ' ' :: s)) = .ok (c :: (v' ++ ' ' :: s)) := by
      unfold expand
      rw [eat_cons_ne hc]
    rw [e1, e2]

/-- What follows a definition does not begin with a quote. -/
theorem expands_next {es : List Entity} {s t : List Char} (h : Expands es s t) (rest : List Char) :
    (∀ y z, skip (s ++ rest) = y :: z → y ≠ '"' ∧ y ≠ '\'') ∧ ∀ y z, skip (t ++ rest) = y :: z → y ≠ '"' ∧ y ≠ '\'' := by
  have hname : ∀ (g n r : List Char), Blank g → DtdName n → ∀ y z, skip (g ++ (n ++ r)) = y :: z → y ≠ '"' ∧ y ≠ '\'' := by
    intro g n r hg hn y z hyz
    rw [hn.skip hg] at hyz
    obtain ⟨c, r', h3, -, -, -, h5, h6⟩ := name_head hn.1 r
    rw [h3] at hyz
    cases hyz
    exact ⟨h5, h6⟩
  induction h with
  | done g hg =>
    have : ∀ y z, skip (g ++ c!">" ++ rest) = y :: z → y ≠ '"' ∧ y ≠ '\'' := by
      intro y z hyz
      rw [List.append_assoc, List.cons_append, List.nil_append, skip_gap hg (not_white _)] at hyz
      cases hyz
      decide
    exact ⟨this, this⟩
  | definition a ha s t next ih =>
    simp only [AttDef.chars, List.append_assoc]
    exact ⟨hname _ _ _ ha.gap.1 ha.name, hname _ _ _ ha.gap.1 ha.name⟩
  | reference gap name gapRef entity v s t hg hn hr he hv hp next ih =>
    simp only [List.append_assoc]
    exact ⟨hname _ _ _ hg.1 hn, ih.2⟩

theorem attlistLoop_expands {es : List Entity} {s t : List Char} (h : Expands es s t) (rest : List Char) : ∀ (fuel : Nat) (d : Dtd) (old : List AttDecl),
    d.entities = es → attlistLoop fuel d old (s ++ rest) = attlistLoop fuel d old (t ++ rest) := by
  induction h with
  | done => exact fun _ _ _ _ => rfl
  | definition a ha s t next ih =>
    intro fuel d old hd
    cases fuel with
    | zero => rfl
    | succ fuel =>
      obtain ⟨h1, h2⟩ := expands_next next rest
      rw [List.append_assoc, List.append_assoc, attlistLoop_step ha h1, attlistLoop_step ha h2,
        ih fuel (d.mark a.type.type) (old ++ [a.decl]) ((same_mark d _).entities.trans hd)]
  | reference gap name gapRef entity v s t hg hn hr he hv hp next ih =>
    intro fuel d old hd
    have := attlistLoop_ref (fuel := fuel) (d := d) (old := old) (s := s ++ rest) hg hn hr he (entityValue_of hd hv) hp
    rw [← ih fuel d old hd]
    simpa only [List.append_assoc, List.cons_append] using this

/-- The body of a list begins with white space, whatever it has after it. -/
theorem expands_gap {es : List Entity} {s t : List Char} (h : Expands es s t) :
    (∃ g, Blank g ∧ s = g ++ c!">" ∧ t = g ++ c!">") ∨ ((∃ g r, Gap g ∧ s = g ++ r) ∧ ∃ g r, Gap g ∧ t = g ++ r) := by
  induction h with
  | done g hg => exact .inl ⟨g, hg, rfl, rfl⟩
  | definition a ha s t next ih =>
    exact .inr ⟨⟨a.gap, a.name ++ (a.gapType ++ (a.type.chars ++ (a.gapDefault ++ (a.default.chars ++ s)))), ha.gap, by simp [AttDef.chars]⟩,
      a.gap, a.name ++ (a.gapType ++ (a.type.chars ++ (a.gapDefault ++ (a.default.chars ++ t)))), ha.gap, by simp [AttDef.chars]⟩
  | reference gap name gapRef entity v s t hg hn hr he hv hp next ih =>
    rcases ih with ⟨g, h1, h2, h3⟩ | ⟨h1, h2⟩
    · exfalso
      have h4 := congrArg skip h2
      rw [show gap ++ name ++ gapRef ++ v ++ ' ' :: s = gap ++ (name ++ (gapRef ++ (v ++ ' ' :: s))) by simp, hn.skip hg.1,
        skip_gap h1 (not_white _)] at h4
      obtain ⟨c, r', h5, -, -, h6, -⟩ := name_head hn.1 (gapRef ++ (v ++ ' ' :: s))
      rw [h5] at h4
      exact h6 (List.cons.inj h4).1
    · exact .inr ⟨⟨gap, _, hg, by simp only [List.append_assoc]; rfl⟩, h2⟩

theorem parseAttlist_expands {es : List Entity} {s t : List Char} (h : Expands es s t) {g n : List Char} (hg : Gap g) (hn : DtdName n) (rest : List Char)
    (fuel : Nat) (d : Dtd) (hd : d.entities = es) : parseAttlist fuel d (g ++ (n ++ (s ++ rest))) = parseAttlist fuel d (g ++ (n ++ (t ++ rest))) := by
  rcases expands_gap h with ⟨g0, -, rfl, rfl⟩ | ⟨⟨g1, r1, h1, h2⟩, g2, r2, h3, h4⟩
  · rfl
  · unfold parseAttlist
    rw [hn.skip hg.1, hn.skip hg.1]
    obtain ⟨f1, a1, a2, a3⟩ := getUntil_name hn.white h1 (r1 ++ rest)
    obtain ⟨f2, b1, b2, b3⟩ := getUntil_name hn.white h3 (r2 ++ rest)
    rw [← List.append_assoc g1, ← h2] at a1 a3
    rw [← List.append_assoc g2, ← h4] at b1 b3
    rw [a1, b1]
    simp only
    rw [a2, b2, a3, b3, attlistLoop_expands h rest fuel d _ hd]

theorem attlist_chars (g n s rest : List Char) (fuel : Nat) (d : Dtd) :
    declaration fuel d (c!"<!ATTLIST" ++ g ++ n ++ s ++ rest) = some (parseAttlist fuel d (g ++ (n ++ (s ++ rest)))) := by
  unfold declaration
  simp only [List.append_assoc, List.cons_append, List.nil_append]
  rw [if_neg (by rw [Bool.not_eq_true, peek_false]; simp)]
  rw [show ∀ r : List Char, eat ('<' :: '!' :: 'A' :: 'T' :: 'T' :: 'L' :: 'I' :: 'S' :: 'T' :: r) c!"<!ATTLIST" = some r from
    fun r => eat_append c!"<!ATTLIST" r]

/-- The same answer for a declaration with references and for the one without them. -/
theorem declaration_expands {x : RefDecl} {es : List Entity} (hv : x.expanded.Valid)
    (hx : ∀ gap name body defs gapEnd, x = .attlist gap name body defs gapEnd → Expands es body (defs.flatMap AttDef.chars ++ gapEnd ++ c!">"))
    (rest : List Char) (fuel : Nat) (d : Dtd) (hd : d.entities = es) :
    declaration fuel d (x.chars ++ rest) = declaration fuel d (x.expanded.chars ++ rest) := by
  cases x with
  | plain x => rfl
  | attlist gap name body defs gapEnd =>
    have h := parseAttlist_expands (hx _ _ _ _ _ rfl) hv.1 hv.2.1 rest fuel d hd
    have hch : (RefDecl.attlist gap name body defs gapEnd).expanded.chars = c!"<!ATTLIST" ++ gap ++ name ++ (defs.flatMap AttDef.chars ++ gapEnd ++ c!">") := by
      simp [RefDecl.expanded, Decl.chars]
    rw [hch, RefDecl.chars, attlist_chars, attlist_chars, h]

/-- What a list gives does not depend on what follows it. -/
theorem attlistLoop_local {g : List Char} (hg : Blank g) : ∀ (defs : List AttDef) (fuel : Nat) (d : Dtd) (old : List AttDecl),
    (∀ a ∈ defs, a.Valid) → defs.length < fuel → ∃ r : Option (Dtd × List AttDecl), ∀ rest,
    attlistLoop fuel d old (defs.flatMap AttDef.chars ++ (g ++ '>' :: rest)) = (match r with | some (d', l) => .ok (d', l, rest) | none => .error)
  | _, 0, _, _, _, h => by omega
  | [], fuel + 1, d, old, _, _ => by
    refine ⟨some (d, old), fun rest => ?_⟩
    simp only [List.flatMap_nil, List.nil_append]
    rw [attlistLoop, skip_gap hg (not_white _), eat_cons]
  | a :: defs, fuel + 1, d, old, hv, hl => by
    have ha := hv a (List.mem_cons_self ..)
    have hv' : ∀ x ∈ defs, x.Valid := fun x hx => hv x (List.mem_cons_of_mem _ hx)
    obtain ⟨r, hr⟩ := attlistLoop_local hg defs fuel (d.mark a.type.type) (old ++ [a.decl]) hv' (by simpa using hl)
    by_cases h1 : idFine (old ++ [a.decl]) a.decl = true
    · by_cases h2 : valueFine a.decl.type a.decl.value = true
      · refine ⟨r, fun rest => ?_⟩
        rw [List.flatMap_cons, List.append_assoc, attlistLoop_step ha (defs_next hg rest defs hv'), h1, h2]
        exact hr rest
      · refine ⟨none, fun rest => ?_⟩
        rw [List.flatMap_cons, List.append_assoc, attlistLoop_step ha (defs_next hg rest defs hv'), h1, if_neg (by simp), if_pos (by simpa using h2)]
    · refine ⟨none, fun rest => ?_⟩
      rw [List.flatMap_cons, List.append_assoc, attlistLoop_step ha (defs_next hg rest defs hv'), if_pos (by simpa using h1)]

theorem defs_length {defs : List AttDef} (h : ∀ a ∈ defs, a.Valid) : defs.length ≤ (defs.flatMap AttDef.chars).length := by
  induction defs with
  | nil => simp
  | cons a defs ih =>
    have hg := List.length_pos_iff.2 (h a (List.mem_cons_self ..)).gap.2
    have := ih fun x hx => h x (List.mem_cons_of_mem _ hx)
    simp only [List.flatMap_cons, List.length_append, List.length_cons, AttDef.chars]
    omega

/-- What a declaration gives does not depend on what follows it. -/
theorem declaration_local {fuel : Nat} (d : Dtd) {x : Decl} (hv : x.Valid) (hf : x.chars.length < fuel) : ∃ r : Option Dtd, ∀ rest,
    declaration fuel d (x.chars ++ rest) = some (match r with | some d' => .ok (d', rest) | none => .error) := by
  cases x with
  | element g n g' model ge =>
    obtain ⟨h1, h2, h3, h4, h5⟩ := hv
    refine ⟨if d.elements.any fun e => cmp (some e.name) (some n) then none else some { d with elements := d.elements ++ [⟨n, model.stored⟩] }, fun rest => ?_⟩
    have := element_or (d := d) h1 h2 h3 h4 h5 rest
    unfold declaration
    have hch : (Decl.element g n g' model ge).chars ++ rest = c!"<!ELEMENT" ++ (g ++ (n ++ (g' ++ (model.chars ++ (ge ++ '>' :: rest))))) := by
      simp [Decl.chars]
    rw [hch, if_pos (peek_iff.2 ⟨_, rfl⟩), this]
    split <;> rfl
  | attlist g n defs ge =>
    obtain ⟨h1, h2, h3, h4, h5⟩ := hv
    have hlen := defs_length h4
    obtain ⟨r, hr⟩ := attlistLoop_local h5 defs fuel d (d.declsOf n) h4 (by simp only [Decl.chars, List.length_append] at hf; omega)
    refine ⟨r.map fun p => { p.1 with attributes := setDecls n p.2 p.1.attributes }, fun rest => ?_⟩
    have hch : (Decl.attlist g n defs ge).chars ++ rest = c!"<!ATTLIST" ++ g ++ n ++ defs.flatMap AttDef.chars ++ (ge ++ '>' :: rest) := by
      simp [Decl.chars]
    rw [hch, attlist_chars]
    unfold parseAttlist
    rw [h2.skip h1.1]
    have hgap : ∃ g0 r0, defs.flatMap AttDef.chars ++ (ge ++ '>' :: rest) = g0 ++ r0 ∧ Gap g0 := by
      cases defs with
      | nil => exact absurd rfl h3
      | cons a defs =>
        have := (h4 a (List.mem_cons_self ..)).gap
        simp only [List.flatMap_cons, AttDef.chars, List.append_assoc]
        exact ⟨a.gap, _, rfl, this⟩
    obtain ⟨g0, r0, h0, hg0⟩ := hgap
    obtain ⟨f, e1, e2, e3⟩ := getUntil_name h2.white hg0 r0
    rw [h0, e1]
    simp only
    rw [e3, ← h0, e2, Parse.toStr_id h2.nul, hr rest]
    cases r with
    | none => rfl
    | some p => rfl
  | entity g percent n gv q v ge =>
    obtain ⟨h1, h2, h3, h4, h5, h6⟩ := hv
    refine ⟨some { d with entities := d.entities ++ [⟨n, if percent.isSome then .parameter else .general, some v⟩] }, fun rest => ?_⟩
    have := entity_of (d := d) h1 h2 h3 h4 h5 h6 rest
    have hch : (Decl.entity g percent n gv q v ge).chars ++ rest =
        c!"<!ENTITY" ++ (g ++ (percentChars percent ++ (n ++ (gv ++ q :: (v ++ q :: (ge ++ '>' :: rest)))))) := by
      cases percent <;> simp [Decl.chars, percentChars]
    unfold declaration
    rw [hch, if_neg (by rw [Bool.not_eq_true, peek_false]; simp), eat_none.2 (by simp)]
    simp only
    rw [if_pos (peek_iff.2 ⟨_, rfl⟩), this]

theorem refDecl_chars (x : RefDecl) : ∃ c r, x.chars = '<' :: '!' :: c :: r ∧ c ≠ '-' := by
  cases x with
  | plain x => exact decl_chars x
  | attlist => exact ⟨_, _, rfl, by decide⟩

/-- What is read of the rest of the text depends on the text alone, and the declarations that were read are those of the text
without references. -/
theorem parseLoop_expands {fuel : Nat} {tail : List Char} : ∀ (todo done : List (List Char × RefDecl)) (k : Nat) (d : Dtd),
    Has (done.map fun p => (p.1, p.2.expanded)) d →
    (∀ p ∈ todo, Remarks p.1 ∧ p.2.expanded.Valid ∧ p.2.expanded.chars.length < fuel) →
    (∀ before after m gap name body defs gapEnd, done ++ todo = before ++ (m, .attlist gap name body defs gapEnd) :: after →
      Expands (RefSubset.expanded ⟨before, []⟩).entities body (defs.flatMap AttDef.chars ++ gapEnd ++ c!">")) →
    parseLoop fuel k 0 d (todo.flatMap (fun p => p.1 ++ p.2.chars) ++ tail) =
      parseLoop fuel k 0 d ((todo.map fun p => (p.1, p.2.expanded)).flatMap (fun p => p.1 ++ p.2.chars) ++ tail)
  | [], _, _, _, _, _, _ => rfl
  | (m, x) :: todo, done, 0, d, _, _, _ => rfl
  | (m, x) :: todo, done, k + 1, d, h, hv, hb => by
    obtain ⟨h1, h2, h3⟩ := hv (m, x) (List.mem_cons_self ..)
    obtain ⟨c, r, hc, hc2⟩ := refDecl_chars x
    obtain ⟨c', r', hc', hc2'⟩ := decl_chars x.expanded
    simp only [List.flatMap_cons, List.map_cons, List.append_assoc]
    rw [parseLoop, parseLoop]
    rw [if_neg (by rw [hc]; simp), if_neg (by rw [hc']; simp)]
    rw [dtdComments_of h1 (by rw [hc, List.cons_append, skip_cons_not (not_white _)]) (by rw [hc]; simp [Ne.symm hc2])]
    rw [dtdComments_of h1 (by rw [hc', List.cons_append, skip_cons_not (not_white _)]) (by rw [hc']; simp [Ne.symm hc2'])]
    simp only
    have hbody : ∀ gap name body defs gapEnd, x = .attlist gap name body defs gapEnd →
        Expands (RefSubset.expanded ⟨done, []⟩).entities body (defs.flatMap AttDef.chars ++ gapEnd ++ c!">") :=
      fun gap name body defs gapEnd hx => hb done todo m gap name body defs gapEnd (by rw [hx])
    rw [declaration_expands h2 hbody _ fuel d h.entities]
    obtain ⟨r, hr⟩ := declaration_local (fuel := fuel) d h2 h3
    rw [hr, hr]
    cases r with
    | none => rfl
    | some d' =>
      simp only
      refine parseLoop_expands todo (done ++ [(m, x)]) k d' ?_ (fun p hp => hv p (List.mem_cons_of_mem _ hp)) (by simpa using hb)
      rcases declaration_or (fuel := fuel) h (m := m) h2 h3 [] with ⟨d1, h4, h5⟩ | ⟨h4, -⟩
      · rw [hr] at h4
        cases h4
        simpa using h5
      · rw [hr] at h4
        cases h4

theorem declarations_expands {x : RefSubset} (h : x.Written) {fuel : Nat} (hf : x.expanded.chars.length < fuel) :
    declarations fuel x.chars = declarations fuel x.expanded.chars := by
  unfold declarations
  refine parseLoop_expands x.decls [] (fuel + 5) Dtd.new has_new (fun p hp => ?_) (by simpa using h.bodies)
  have hm : (p.1, p.2.expanded) ∈ x.expanded.decls := List.mem_map.2 ⟨p, hp, rfl⟩
  have := (decls_length x.expanded.decls).2 _ hm
  simp only [Subset.chars, List.length_append] at hf
  exact ⟨h.expanded.remarks _ hm, h.expanded.decls _ hm, by simp only at this; omega⟩

theorem parse_expands {x : RefSubset} (h : x.Written) {fuel : Nat} (hf : x.expanded.chars.length < fuel) : parse fuel x.chars = parse fuel x.expanded.chars := by
  unfold parse
  rw [declarations_expands h hf]

/-! ### References that are refused -/

theorem attType_refused {c : Char} (h : White c ∨ c = '%') (r : List Char) : attType (c :: r) = .error := by
  have hne : c ≠ 'N' ∧ c ≠ '(' ∧ c ≠ 'C' ∧ c ≠ 'I' ∧ c ≠ 'E' := by
    refine ⟨?_, ?_, ?_, ?_, ?_⟩ <;> rintro rfl <;> rcases h with h | h <;> first | exact not_white _ rfl h | exact absurd h (by decide)
  obtain ⟨h1, h2, h3, h4, h5⟩ := hne
  unfold attType
  simp [word, typeWords, eat_eq, List.isPrefixOf, Ne.symm h1, Ne.symm h2, Ne.symm h3, Ne.symm h4, Ne.symm h5]

/-- A reference to an entity that was not declared, or whose value cannot be there. -/
theorem attlistLoop_refused {gap name gapRef entity s : List Char} {es : List Entity} (hg : Gap gap) (hn : DtdName name)
    (hr : Gap gapRef) (he : DtdName entity) (hv : ∀ v, Value es entity v → ¬ PlainText v) : ∀ (defs : List AttDef) (fuel : Nat) (d : Dtd) (old : List AttDecl),
    d.entities = es → (∀ a ∈ defs, a.Valid) → defs.length < fuel →
    attlistLoop fuel d old (defs.flatMap AttDef.chars ++ (gap ++ name ++ gapRef ++ '%' :: entity ++ ';' :: s)) = .error
  | _, 0, _, _, _, _, h => by omega
  | [], fuel + 1, d, old, hd, _, _ => by
    simp only [List.flatMap_nil, List.nil_append, List.append_assoc, List.cons_append]
    rw [attlistLoop, hn.skip hg.1]
    obtain ⟨f, h1, h2, h3⟩ := getUntil_name hn.white hr ('%' :: (entity ++ ';' :: s))
    obtain ⟨c, r', h4, -, -, h5, -⟩ := name_head hn.1 (gapRef ++ '%' :: (entity ++ ';' :: s))
    rw [show eat (name ++ (gapRef ++ '%' :: (entity ++ ';' :: s))) c!">" = none by rw [h4]; exact eat_cons_ne h5]
    simp only
    rw [h1]
    simp only
    rw [h3, skip_gap hr.1 (not_white _)]
    have hex : ∃ c r, expand d ('%' :: (entity ++ ';' :: s)) = .ok (c :: r) ∧ (White c ∨ c = '%') := by
      unfold expand
      rw [eat_cons]
      simp only
      rw [getUntil_entity he]
      simp only
      rw [Parse.toStr_id he.nul]
      cases hval : d.entityValue entity .parameter with
      | none => exact ⟨_, _, rfl, .inr rfl⟩
      | some v =>
        have hV : Value es entity v := by
          unfold Dtd.entityValue Dtd.entity at hval
          rw [hd, Option.bind_eq_some_iff] at hval
          obtain ⟨e, he1, he2⟩ := hval
          obtain ⟨hp, a, b, hab, hno⟩ := List.find?_eq_some_iff_append.1 he1
          simp only [Bool.and_eq_true, decide_eq_true_eq] at hp
          obtain ⟨n, ty, ct⟩ := e
          simp only at hp he2
          obtain ⟨rfl, h8⟩ := hp
          have h9 := cmp_true.1 h8
          subst h9 he2
          refine ⟨a, b, hab, fun x hx hxx => ?_⟩
          have := hno x hx
          rw [hxx.1, hxx.2] at this
          simp only [decide_true, Bool.true_and, Bool.not_eq_true'] at this
          rw [cmp_true.2 rfl] at this
          cases this
        have hnp := hv v hV
        cases v with
        | nil => exact ⟨_, _, rfl, .inl (by unfold White; decide)⟩
        | cons c v' =>
          refine ⟨_, _, rfl, ?_⟩
          by_cases hw : White c
          · exact .inl hw
          · exact .inr (Classical.byContradiction fun hc => hnp ⟨c, v', rfl, hw, hc⟩)
    obtain ⟨c, r, h6, h7⟩ := hex
    rw [h6]
    simp only
    rw [attType_refused h7]
  | a :: defs, fuel + 1, d, old, hd, hva, hl => by
    have ha := hva a (List.mem_cons_self ..)
    have hv' : ∀ x ∈ defs, x.Valid := fun x hx => hva x (List.mem_cons_of_mem _ hx)
    have hnext : ∀ y z, skip (defs.flatMap AttDef.chars ++ (gap ++ name ++ gapRef ++ '%' :: entity ++ ';' :: s)) = y :: z → y ≠ '"' ∧ y ≠ '\'' := by
      intro y z hyz
      have hname : ∀ (g n r : List Char), Blank g → DtdName n → skip (g ++ (n ++ r)) = y :: z → y ≠ '"' ∧ y ≠ '\'' := by
        intro g n r hg hn hyz
        rw [hn.skip hg] at hyz
        obtain ⟨c, r', h3, -, -, -, h5, h6⟩ := name_head hn.1 r
        rw [h3] at hyz
        cases hyz
        exact ⟨h5, h6⟩
      cases defs with
      | nil =>
        simp only [List.flatMap_nil, List.nil_append, List.append_assoc] at hyz
        exact hname _ _ _ hg.1 hn hyz
      | cons b defs =>
        have hb := hv' b (List.mem_cons_self ..)
        simp only [List.flatMap_cons, AttDef.chars, List.append_assoc] at hyz
        exact hname _ _ _ hb.gap.1 hb.name hyz
    rw [List.flatMap_cons, List.append_assoc, attlistLoop_step ha hnext,
      attlistLoop_refused hg hn hr he hv defs fuel (d.mark a.type.type) (old ++ [a.decl]) ((same_mark d _).entities.trans hd) hv' (by simpa using hl)]
    split
    · rfl
    · split <;> rfl

theorem parse_refused {ds : List (List Char × RefDecl)} (hds : RefSubset.Written ⟨ds, []⟩) {before gapName el gap name gapRef entity s : List Char}
    {defs : List AttDef} (hb : Remarks before) (hgn : Gap gapName) (hel : DtdName el) (hdefs : ∀ a ∈ defs, a.Valid) (hg : Gap gap) (hn : DtdName name)
    (hr : Gap gapRef) (he : DtdName entity) (hv : ∀ v, Value (RefSubset.expanded ⟨ds, []⟩).entities entity v → ¬ PlainText v) {fuel : Nat}
    (hf : (RefSubset.expanded ⟨ds, []⟩).chars.length + (defs.flatMap AttDef.chars).length < fuel) :
    parse fuel (ds.flatMap (fun p => p.1 ++ p.2.chars) ++ (before ++ (c!"<!ATTLIST" ++ gapName ++ el ++
      (defs.flatMap AttDef.chars ++ (gap ++ name ++ gapRef ++ '%' :: entity ++ ';' :: s))))) = .error := by
  have hall : ∀ p ∈ ds, Remarks p.1 ∧ p.2.expanded.Valid ∧ p.2.expanded.chars.length < fuel := by
    intro p hp
    have hm : (p.1, p.2.expanded) ∈ (RefSubset.expanded ⟨ds, []⟩).decls := List.mem_map.2 ⟨p, hp, rfl⟩
    have := (decls_length _).2 _ hm
    simp only [Subset.chars, List.length_append] at hf this
    exact ⟨hds.expanded.remarks _ hm, hds.expanded.decls _ hm, by omega⟩
  have hlen := (decls_length (RefSubset.expanded ⟨ds, []⟩).decls).1
  simp only [Subset.chars, List.length_append] at hf
  have hdl := defs_length hdefs
  have hdecl : declarations fuel (ds.flatMap (fun p => p.1 ++ p.2.chars) ++ (before ++ (c!"<!ATTLIST" ++ gapName ++ el ++
      (defs.flatMap AttDef.chars ++ (gap ++ name ++ gapRef ++ '%' :: entity ++ ';' :: s))))) = .error := by
    unfold declarations
    rw [parseLoop_expands ds [] (fuel + 5) Dtd.new has_new hall (by simpa using hds.bodies)]
    have hk : ∃ k, fuel + 5 = (k + 1) + (ds.map fun p => (p.1, p.2.expanded)).length := by
      refine ⟨fuel + 4 - ds.length, ?_⟩
      have hl : (RefSubset.expanded ⟨ds, []⟩).decls.length = ds.length := List.length_map ..
      rw [List.length_map]
      omega
    obtain ⟨k, hk⟩ := hk
    rw [hk]
    rcases parseLoop_or (fuel := fuel) (before ++ (c!"<!ATTLIST" ++ gapName ++ el ++
      (defs.flatMap AttDef.chars ++ (gap ++ name ++ gapRef ++ '%' :: entity ++ ';' :: s)))) (ds.map fun p => (p.1, p.2.expanded)) [] (k + 1) Dtd.new
      has_new (by
        intro p hp
        obtain ⟨q, hq, rfl⟩ := List.mem_map.1 hp
        exact hall q hq) with ⟨d, h1, h2⟩ | ⟨h1, -⟩
    · rw [h1]
      clear h1
      have hgap : ∃ g0 r0, defs.flatMap AttDef.chars ++ (gap ++ name ++ gapRef ++ '%' :: entity ++ ';' :: s) = g0 ++ r0 ∧ Gap g0 := by
        cases defs with
        | nil => exact ⟨gap, name ++ (gapRef ++ '%' :: (entity ++ ';' :: s)), by simp, hg⟩
        | cons a defs =>
          have := (hdefs a (List.mem_cons_self ..)).gap
          simp only [List.flatMap_cons, AttDef.chars, List.append_assoc]
          exact ⟨a.gap, _, rfl, this⟩
      obtain ⟨g0, r0, h0, hg0⟩ := hgap
      have hpa : parseAttlist fuel d (gapName ++ (el ++ (defs.flatMap AttDef.chars ++ (gap ++ name ++ gapRef ++ '%' :: entity ++ ';' :: s)))) = .error := by
        unfold parseAttlist
        rw [hel.skip hgn.1]
        obtain ⟨f, e1, e2, e3⟩ := getUntil_name hel.white hg0 r0
        rw [h0, e1]
        simp only
        rw [e3, ← h0, attlistLoop_refused (es := d.entities) hg hn hr he ?_ defs fuel d _ rfl hdefs (by omega)]
        intro v hV
        refine hv v ?_
        have := h2.entities
        simp only [List.nil_append] at this
        rw [this] at hV
        exact hV
      generalize defs.flatMap AttDef.chars ++ (gap ++ name ++ gapRef ++ '%' :: entity ++ ';' :: s) = T at hpa ⊢
      have hcm : dtdComments (before ++ (c!"<!ATTLIST" ++ gapName ++ el ++ T)) = .ok (c!"<!ATTLIST" ++ gapName ++ el ++ T) :=
        dtdComments_of hb (skip_cons_not (r := c!"!ATTLIST" ++ gapName ++ el ++ T) (not_white '<')) (by simp)
      have hat := attlist_chars gapName el T [] fuel d
      rw [List.append_nil, List.append_nil, hpa] at hat
      rw [parseLoop, if_neg (by simp), hcm]
      simp only
      rw [hat]
    · exact h1
  unfold parse
  rw [hdecl]

end Axl.Dtd
