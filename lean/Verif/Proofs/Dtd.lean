import Verif.Proofs.DtdIds
import Verif.Proofs.DtdTotal
import Verif.Proofs.DtdEnds

/-! # Validation of a document -/

namespace Axl.Dtd
open Str

/-! ### The attributes of a node -/

theorem hasAttr_mem {n : Node} {ps : List (List Char × List Char)} (hl : n.attrs.Lists ps) {k v : List Char} :
    HasAttr n k v ↔ (k, v) ∈ ps := (hl.mem k v).symm

theorem getValue_total {a : Attrs} (hm : a.Made) (k : List Char) : ∃ v, a.getValue k = some v := by
  obtain ⟨ps, hr⟩ := Attrs.Made.rep hm
  exact ⟨_, (Attrs.rep_find hr k).2⟩

theorem hasAttribute_iff {n : Node} (hm : n.attrs.Made) (k : List Char) :
    ∃ b, n.attrs.hasAttribute k = some b ∧ (b = true ↔ ∃ v, HasAttr n k v) := by
  obtain ⟨ps, hr⟩ := Attrs.Made.rep hm
  refine ⟨_, (Attrs.rep_find hr k).1, ?_⟩
  have hl := Attrs.rep_lists hr (.refl _)
  simp only [hasAttr_mem hl, List.any_eq_true, beq_iff_eq]
  constructor
  · rintro ⟨⟨k', v⟩, h, rfl⟩; exact ⟨v, h⟩
  · rintro ⟨v, h⟩; exact ⟨(k, v), h, rfl⟩

theorem cmp_some (a b : List Char) : cmp (some a) (some b) = decide (a = b) := by
  rw [Bool.eq_iff_iff, cmp_iff, decide_eq_true_eq]
  constructor
  · rintro ⟨s, h1, h2⟩
    cases h1; cases h2; rfl
  · rintro rfl
    exact ⟨a, rfl, rfl⟩

theorem foreach_iff {n : Node} (hm : n.attrs.Made) (al : AttList) : ∃ seen, n.attrs.foreach (attrWrong al) = some seen ∧
    ((seen.any fun p => attrWrong al p.1 (p.2.getD [])) = false ↔ ∀ k v, HasAttr n k v → attrWrong al k v = false) := by
  obtain ⟨ps, hr⟩ := Attrs.Made.rep hm
  obtain ⟨qs, hp, hf⟩ := Attrs.rep_foreach hr
  have hl := Attrs.rep_lists hr hp
  refine ⟨_, hf _, ?_⟩
  simp only [hasAttr_mem hl, List.any_map]
  rw [List.any_append, Bool.or_eq_false_iff]
  constructor
  · rintro ⟨h1, h2⟩ k v hkv
    cases hq : qs.find? (fun p => attrWrong al p.1 p.2) with
    | none =>
      rw [List.find?_eq_none] at hq
      simpa using hq _ hkv
    | some p =>
      rw [hq] at h2
      have := List.find?_some hq
      simp only [Option.toList, List.any_cons, List.any_nil, Bool.or_false, Function.comp, Option.getD_some] at h2
      rw [h2] at this
      cases this
  · intro h
    refine ⟨?_, ?_⟩
    · rw [List.any_eq_false]
      intro p hp
      have := List.all_eq_true.1 (List.all_takeWhile (p := fun p : List Char × List Char => !attrWrong al p.1 p.2) (l := qs)) p hp
      simpa using this
    · have : qs.find? (fun p => attrWrong al p.1 p.2) = none := by
        rw [List.find?_eq_none]
        intro p hp
        simpa using h p.1 p.2 hp
      rw [this]
      rfl

theorem attrWrong_iff (al : AttList) (k v : List Char) : attrWrong al k v = false ↔
    ∃ decl, al.decls.find? (fun x => x.name == k) = some decl ∧ ∀ vs, decl.type = .enum vs → v ∈ vs := by
  unfold attrWrong
  split
  · rename_i h
    simp [h]
  · rename_i decl h
    rw [h]
    split
    · rename_i vs hv
      simp [hv]
    · rename_i hv
      simp only [Option.some.injEq, exists_eq_left', true_iff]
      intro vs h
      exact absurd h (hv vs)

theorem declMissing_iff {n : Node} (hm : n.attrs.Made) (decl : AttDecl) : ∃ b, declMissing n.attrs decl = some b ∧
    (b = false ↔ (decl.defaults = .required → ∃ v, HasAttr n decl.name v) ∧
      (decl.defaults = .fixed → ∃ v, decl.value = some v ∧ HasAttr n decl.name v)) := by
  unfold declMissing
  split
  · rename_i h
    obtain ⟨b, e, hb⟩ := hasAttribute_iff hm decl.name
    rw [e]
    refine ⟨_, rfl, ?_⟩
    simp [h, ← hb]
  · rename_i h
    split
    · rename_i hv
      exact ⟨true, rfl, by simp [h, hv]⟩
    · rename_i v hv
      obtain ⟨o, ho⟩ := getValue_total hm decl.name
      unfold Attrs.hasAttributeValue
      rw [ho]
      refine ⟨_, rfl, ?_⟩
      simp only [h, reduceCtorEq, false_implies, true_and, true_implies, hv, Option.some.injEq, exists_eq_left', HasAttr, ho]
      cases o with
      | none => simp [cmp]
      | some u => simp [cmp_some]
  · rename_i h
    exact ⟨false, rfl, by simp [h]⟩

theorem anyMissing_iff {n : Node} (hm : n.attrs.Made) : ∀ ds : List AttDecl, ∃ b, anyMissing n.attrs ds = some b ∧
    (b = false ↔ (∀ decl ∈ ds, decl.defaults = .required → ∃ v, HasAttr n decl.name v) ∧
      ∀ decl ∈ ds, decl.defaults = .fixed → ∃ v, decl.value = some v ∧ HasAttr n decl.name v)
  | [] => ⟨false, rfl, by simp⟩
  | x :: xs => by
    obtain ⟨b, e, hb⟩ := declMissing_iff hm x
    obtain ⟨c, f, hc⟩ := anyMissing_iff hm xs
    rw [anyMissing, e]
    cases b with
    | true =>
      refine ⟨true, rfl, ?_⟩
      simp only [reduceCtorEq, false_iff] at hb ⊢
      exact fun h => hb ⟨h.1 x (by simp), h.2 x (by simp)⟩
    | false =>
      refine ⟨c, f, ?_⟩
      simp only [true_iff] at hb
      rw [hc]
      simp only [List.forall_mem_cons]
      exact ⟨fun h => ⟨⟨hb.1, h.1⟩, hb.2, h.2⟩, fun h => ⟨h.1.2, h.2.2⟩⟩

/-- The attributes of the node are allowed. -/
def Local (d : Dtd) (n : Node) : Prop := ∀ al, d.attr n.name = some al → al.Allows n

/-- The ID value of a node. -/
def idOf (d : Dtd) (n : Node) : List (List Char) :=
  match d.attr n.name with
  | none => []
  | some al =>
    match al.decls.find? fun x => decide (x.type = .id) with
    | none => []
    | some decl => ((n.attrs.getValue decl.name).bind id).toList

/-- The values of the IDREF attributes of a node. -/
def refsOf (d : Dtd) (n : Node) : List (List Char) :=
  match d.attr n.name with
  | none => []
  | some al => (al.decls.filter fun x => decide (x.type = .idref)).filterMap fun x => (n.attrs.getValue x.name).bind id

theorem mem_idOf {d : Dtd} {n : Node} {v : List Char} : v ∈ idOf d n ↔ Identifies d n v := by
  unfold idOf Identifies HasAttr
  split
  · rename_i h; simp [h]
  · rename_i al h
    rw [h]
    split
    · rename_i h2; simp [h2]
    · rename_i decl h2
      constructor
      · intro hv
        refine ⟨al, decl, rfl, h2, ?_⟩
        rw [Option.mem_toList] at hv
        revert hv
        cases n.attrs.getValue decl.name with
        | none => intro h; cases h
        | some o => intro h; exact congrArg some h
      · rintro ⟨al', decl', h3, h4, h5⟩
        cases h3
        rw [h2] at h4
        cases h4
        rw [h5]
        simp

theorem idOf_length (d : Dtd) (n : Node) : (idOf d n).length ≤ 1 := by
  unfold idOf
  split
  · simp
  · split
    · simp
    · rw [Option.length_toList]
      split <;> omega

theorem mem_refsOf {d : Dtd} {n : Node} {v : List Char} : v ∈ refsOf d n ↔ Refers d n v := by
  unfold refsOf Refers HasAttr
  split
  · rename_i h; simp [h]
  · rename_i al h
    rw [h]
    simp only [List.mem_filterMap, List.mem_filter, decide_eq_true_eq, Option.some.injEq]
    constructor
    · rintro ⟨x, ⟨h1, h2⟩, h3⟩
      refine ⟨al, x, rfl, h1, h2, ?_⟩
      revert h3
      cases n.attrs.getValue x.name with
      | none => intro h; cases h
      | some o => intro h; exact congrArg some h
    · rintro ⟨al', x, rfl, h1, h2, h3⟩
      exact ⟨x, ⟨h1, h2⟩, by rw [h3]; rfl⟩

/-! ### The state -/

/-- The state holds these identifiers and references. -/
structure Track (d : Dtd) (st : IdState) (ids refs : List (List Char)) : Prop where
  bare  : d.haveIdRef = false → refs = []
  ids   : d.haveId = true → ∃ g, st.ids = some g ∧ Holds g ids
  kept  : d.haveIdRef = true → st.refs = some refs
  noRefs : d.haveIdRef = false → st.refs = none

theorem find_mem {al : AttList} {d : Dtd} {n : Node} (h : d.attr n.name = some al) : al ∈ d.attributes :=
  List.mem_of_find?_eq_some h

theorem collectRefs_eq {n : Node} (hm : n.attrs.Made) : ∀ (ds : List AttDecl) (refs : List (List Char)),
    collectRefs n.attrs ds refs =
      some (refs ++ (ds.filter fun x => decide (x.type = .idref)).filterMap fun x => (n.attrs.getValue x.name).bind id)
  | [], refs => by simp [collectRefs]
  | x :: xs, refs => by
    rw [collectRefs]
    split
    · rename_i h
      obtain ⟨o, ho⟩ := getValue_total hm x.name
      rw [List.filter_cons_of_pos (by simpa using h), List.filterMap_cons, ho]
      cases o with
      | none => exact collectRefs_eq hm xs refs
      | some v =>
        dsimp only
        rw [collectRefs_eq hm xs]
        simp
    · rename_i h
      rw [List.filter_cons_of_neg (by simpa using h)]
      exact collectRefs_eq hm xs refs

/-- What the parser gives, as far as marks go. -/
structure Marks (d : Dtd) : Prop where
  ids    : ∀ al ∈ d.attributes, ∀ x ∈ al.decls, x.type = .id → d.haveId = true
  refs   : ∀ al ∈ d.attributes, ∀ x ∈ al.decls, x.type = .idref → d.haveIdRef = true
  marked : d.haveIdRef = true → d.haveId = true

theorem refsOf_unmarked {d : Dtd} (M : Marks d) {n : Node} (h : d.haveIdRef = false) : refsOf d n = [] := by
  rw [List.eq_nil_iff_forall_not_mem]
  intro v hv
  obtain ⟨al, decl, h1, h2, h3, -⟩ := mem_refsOf.1 hv
  rw [M.refs al (find_mem h1) decl h2 h3] at h
  cases h

/-- The nodes have their identifiers, and attributes set through the API. -/
structure Plain (d : Dtd) (n : Node) : Prop where
  made : n.attrs.Made
  id   : ∀ al decl, d.attr n.name = some al → al.decls.find? (fun x => decide (x.type = .id)) = some decl → ∃ v, HasAttr n decl.name v

theorem checkId_spec {d : Dtd} {n : Node} {al : AttList} (M : Marks d) (P : Plain d n) (ha : d.attr n.name = some al) {st : IdState}
    {ids refs : List (List Char)} (T : Track d st ids refs) :
    ∃ b st', checkId d al n.attrs st = some (b, st') ∧ (b = true ↔ ∀ v ∈ idOf d n, v ∉ ids) ∧
      (b = true → Track d st' (idOf d n ++ ids) refs) := by
  unfold checkId
  have hid : idOf d n = match al.decls.find? fun x => decide (x.type = .id) with
      | none => []
      | some decl => ((n.attrs.getValue decl.name).bind id).toList := by
    unfold idOf; rw [ha]
  split
  · rename_i hh
    split
    · rename_i hf
      rw [hf] at hid
      rw [hid]
      exact ⟨true, st, rfl, by simp, fun _ => T⟩
    · rename_i decl hf
      obtain ⟨v, hv⟩ := P.id al decl ha hf
      have hv : n.attrs.getValue decl.name = some (some v) := hv
      rw [hf] at hid
      simp only [hv, Option.bind_some, id, Option.toList_some] at hid
      obtain ⟨g, hg, H⟩ := T.ids hh
      rw [hv, hg, hid]
      dsimp only
      rw [H.exists v]
      by_cases hm : v ∈ ids
      · rw [decide_eq_true hm]
        exact ⟨false, st, rfl, by simpa using hm, by simp⟩
      · rw [decide_eq_false hm]
        obtain ⟨g1, e1, H1⟩ := H.insert hm (some (some v))
        dsimp only
        rw [e1]
        exact ⟨true, _, rfl, by simpa using hm, fun _ => ⟨T.bare, fun _ => ⟨g1, rfl, H1⟩, T.kept, T.noRefs⟩⟩
  · rename_i hh
    have : idOf d n = [] := by
      rw [hid]
      split
      · rfl
      · rename_i decl hf
        have h1 := List.mem_of_find?_eq_some hf
        have h2 := List.find?_some hf
        exact absurd (M.ids al (find_mem ha) decl h1 (by simpa using h2)) hh
    rw [this]
    exact ⟨true, st, rfl, by simp, fun _ => T⟩

/-- What `axl_dtd_attr_validate` answers. -/
theorem attrValidate_spec {d : Dtd} {n : Node} (M : Marks d) (P : Plain d n) {st : IdState} {ids refs : List (List Char)}
    (T : Track d st ids refs) : ∃ b st', attrValidate d n st = some (b, st') ∧
      (b = true ↔ Local d n ∧ ∀ v ∈ idOf d n, v ∉ ids) ∧ (b = true → Track d st' (idOf d n ++ ids) (refs ++ refsOf d n)) := by
  unfold attrValidate
  cases ha : d.attr n.name with
  | none =>
    have h1 : idOf d n = [] := by unfold idOf; rw [ha]
    have h2 : refsOf d n = [] := by unfold refsOf; rw [ha]
    rw [h1, h2]
    refine ⟨true, st, rfl, ?_, fun _ => by simpa using T⟩
    simp only [List.not_mem_nil, false_implies, implies_true, and_true, true_iff]
    intro al h
    rw [ha] at h
    cases h
  | some al =>
    dsimp only
    obtain ⟨seen, e1, h1⟩ := foreach_iff P.made al
    obtain ⟨b2, e2, h2⟩ := anyMissing_iff P.made al.decls
    obtain ⟨b3, st3, e3, h3, T3⟩ := checkId_spec M P ha T
    have hloc : Local d n ↔ (seen.any fun p => attrWrong al p.1 (p.2.getD [])) = false ∧ b2 = false := by
      rw [h1, h2]
      constructor
      · intro h
        obtain ⟨q1, q2, q3⟩ := h al ha
        exact ⟨fun k v hkv => (attrWrong_iff al k v).2 (q1 k v hkv), q2, q3⟩
      · rintro ⟨q1, q2, q3⟩ al' h
        rw [ha] at h
        cases h
        exact ⟨fun k v hkv => (attrWrong_iff al k v).1 (q1 k v hkv), q2, q3⟩
    rw [e1]
    dsimp only
    cases hs : seen.any fun p => attrWrong al p.1 (p.2.getD []) with
    | true =>
      rw [hs] at hloc
      exact ⟨false, st, rfl, by simp [hloc], by simp⟩
    | false =>
      rw [hs] at hloc
      rw [if_neg Bool.false_ne_true, e2]
      cases b2 with
      | true => exact ⟨false, st, rfl, by simp [hloc], by simp⟩
      | false =>
        simp only [true_and, iff_true] at hloc
        dsimp only
        rw [e3]
        cases b3 with
        | false =>
          refine ⟨false, st3, rfl, ?_, by simp⟩
          simp only [reduceCtorEq, false_iff] at h3 ⊢
          exact fun h => h3 h.2
        | true =>
          have T3 := T3 rfl
          have h3 := h3.1 rfl
          dsimp only
          cases hr : d.haveIdRef with
          | false =>
            rw [refsOf_unmarked M hr, List.append_nil]
            exact ⟨true, st3, rfl, by simpa using ⟨hloc, h3⟩, fun _ => T3⟩
          | true =>
            rw [T3.kept hr]
            dsimp only
            rw [collectRefs_eq P.made]
            refine ⟨true, _, rfl, by simpa using ⟨hloc, h3⟩, fun _ => ⟨fun h => absurd h (by rw [hr]; decide), T3.ids, fun _ => ?_, fun h => absurd h (by rw [hr]; decide)⟩⟩
            unfold refsOf
            rw [ha]

theorem danglingRef_spec {g : Ids} {ids : List (List Char)} (H : Holds g ids) : ∀ refs : List (List Char),
    ∃ b, danglingRef (some g) refs = some b ∧ (b = false ↔ ∀ r ∈ refs, r ∈ ids)
  | [] => ⟨false, rfl, by simp⟩
  | r :: refs => by
    obtain ⟨b, e, h⟩ := danglingRef_spec H refs
    rw [danglingRef, H.exists r]
    by_cases hm : r ∈ ids
    · rw [decide_eq_true hm]
      exact ⟨b, e, by rw [h]; simp [hm]⟩
    · rw [decide_eq_false hm]
      exact ⟨true, rfl, by simp [hm]⟩

theorem finish_spec {d : Dtd} (M : Marks d) {st : IdState} {ids refs : List (List Char)} (T : Track d st ids refs) :
    ∃ b, finish st = .ok b ∧ (b = true ↔ ∀ r ∈ refs, r ∈ ids) := by
  unfold finish validateRefs
  cases hr : d.haveIdRef with
  | false =>
    rw [T.noRefs hr, T.bare hr]
    exact ⟨true, rfl, by simp⟩
  | true =>
    rw [T.kept hr]
    obtain ⟨g, hg, H⟩ := T.ids (M.marked hr)
    rw [hg]
    obtain ⟨b, e, h⟩ := danglingRef_spec H refs
    dsimp only
    rw [e]
    refine ⟨!b, rfl, ?_⟩
    rw [← h]
    simp

/-! ### The nodes -/

theorem nodesOf_kids : ∀ i : Items, nodesOf i = (Items.kids i).flatMap nodes
  | .nil => rfl
  | .node n next => by rw [nodesOf, Items.kids, List.flatMap_cons, nodesOf_kids next]
  | .leaf _ next => by rw [nodesOf, Items.kids, nodesOf_kids next]

theorem nodes_eq (n : Node) : nodes n = n :: (Items.kids n.items).flatMap nodes := by
  obtain ⟨name, attrs, items⟩ := n
  rw [nodes, nodesOf_kids]
  rfl

theorem haveChilds_iff : ∀ i : Items, i.haveChilds = false ↔ Items.kids i = []
  | .nil => by simp [Items.haveChilds, Items.kids]
  | .node n next => by simp [Items.haveChilds, Items.kids]
  | .leaf _ next => by rw [Items.haveChilds, Items.kids, haveChilds_iff next]

/-- The node is declared and its content accepted. -/
def Declared (d : Dtd) (fuel : Nat) (n : Node) : Prop :=
  ∃ e, d.element n.name = some e ∧ contentValidate fuel e n false = some true

/-- What the loop checks, for the node at hand and the nodes still to come. -/
structure Good (d : Dtd) (fuel : Nat) (e : Element) (top : Bool) (n : Node) (T : List Node) (ids refs : List (List Char)) : Prop where
  content : contentValidate fuel e n top = some true
  declared : ∀ m ∈ T, Declared d fuel m
  loc : ∀ m ∈ n :: T, Local d m
  once : ((n :: T).flatMap (idOf d) ++ ids).Nodup
  refs : ∀ r ∈ refs ++ (n :: T).flatMap (refsOf d), r ∈ (n :: T).flatMap (idOf d) ++ ids

theorem Good.perm {d : Dtd} {fuel : Nat} {e : Element} {top : Bool} {n : Node} {T T' : List Node} {ids refs : List (List Char)}
    (h : Good d fuel e top n T ids refs) (p : T.Perm T') : Good d fuel e top n T' ids refs := by
  have p' := p.cons n
  have p1 := (p'.flatMap_right (idOf d)).append_right ids
  have p2 := (p'.flatMap_right (refsOf d)).append_left refs
  exact ⟨h.content, fun m hm => h.declared m (p.mem_iff.2 hm), fun m hm => h.loc m (p'.mem_iff.2 hm), p1.nodup_iff.1 h.once,
    fun r hr => p1.mem_iff.1 (h.refs r (p2.mem_iff.2 hr))⟩

theorem idOf_nodup {d : Dtd} {n : Node} {ids : List (List Char)} (hd : ids.Nodup) (q4 : ∀ v ∈ idOf d n, v ∉ ids) :
    (idOf d n ++ ids).Nodup := by
  refine List.nodup_append.2 ⟨?_, hd, fun v hv w hw e => q4 v hv (e ▸ hw)⟩
  have := idOf_length d n
  match hl : idOf d n, this with
  | [], _ => exact List.nodup_nil
  | [x], _ => simp

theorem good_last {d : Dtd} {fuel : Nat} {e : Element} {top : Bool} {n : Node} {ids refs : List (List Char)} (hd : ids.Nodup) :
    Good d fuel e top n [] ids refs ↔ contentValidate fuel e n top = some true ∧ (Local d n ∧ ∀ v ∈ idOf d n, v ∉ ids) ∧
      ∀ r ∈ refs ++ refsOf d n, r ∈ idOf d n ++ ids := by
  have h1 : ([n] : List Node).flatMap (idOf d) = idOf d n := by simp
  have h2 : ([n] : List Node).flatMap (refsOf d) = refsOf d n := by simp
  constructor
  · rintro ⟨q1, q2, q3, q4, q5⟩
    rw [h1] at q4 q5
    rw [h2] at q5
    exact ⟨q1, ⟨q3 n (by simp), fun v hv hm => (List.nodup_append.1 q4).2.2 v hv v hm rfl⟩, q5⟩
  · rintro ⟨q1, ⟨q3, q4⟩, q5⟩
    refine ⟨q1, by simp, by simpa using q3, ?_, by rw [h1, h2]; exact q5⟩
    rw [h1]
    exact idOf_nodup hd q4

theorem good_step {d : Dtd} {fuel : Nat} {e : Element} {top : Bool} {n m : Node} {T : List Node} {ids refs : List (List Char)} :
    Good d fuel e top n (m :: T) ids refs ↔ contentValidate fuel e n top = some true ∧ (Local d n ∧ ∀ v ∈ idOf d n, v ∉ ids) ∧
      ∃ e', d.element m.name = some e' ∧ Good d fuel e' false m T (idOf d n ++ ids) (refs ++ refsOf d n) := by
  have p : ∀ l : List (List Char), (l ++ (idOf d n ++ ids)).Perm (idOf d n ++ l ++ ids) := fun l => by
    rw [← List.append_assoc]
    exact List.perm_append_comm.append_right _
  constructor
  · rintro ⟨q1, q2, q3, q4, q5⟩
    rw [List.flatMap_cons] at q4 q5
    rw [List.flatMap_cons (f := refsOf d)] at q5
    refine ⟨q1, ⟨q3 n (by simp), fun v hv hm => ?_⟩, ?_⟩
    · exact (List.nodup_append.1 q4).2.2 v (List.mem_append_left _ hv) v hm rfl
    · obtain ⟨e', h1, h2⟩ := q2 m (by simp)
      refine ⟨e', h1, h2, fun x hx => q2 x (by simp [hx]), fun x hx => q3 x (List.mem_cons_of_mem _ hx), ?_, ?_⟩
      · exact (p _).nodup_iff.2 q4
      · intro r hr
        refine (p _).mem_iff.2 (q5 r ?_)
        rw [← List.append_assoc]
        exact hr
  · rintro ⟨q1, ⟨q3, q4⟩, e', h1, h2, h3, h4, h5, h6⟩
    refine ⟨q1, ?_, ?_, ?_, ?_⟩
    · intro x hx
      rcases List.mem_cons.1 hx with rfl | hx
      · exact ⟨e', h1, h2⟩
      · exact h3 x hx
    · intro x hx
      rcases List.mem_cons.1 hx with rfl | hx
      · exact q3
      · exact h4 x hx
    · rw [List.flatMap_cons]
      exact (p _).nodup_iff.1 h5
    · intro r hr
      rw [List.flatMap_cons]
      refine (p _).mem_iff.1 (h6 r ?_)
      rw [List.flatMap_cons, ← List.append_assoc] at hr
      exact hr

/-- The nodes that come after the node at hand. -/
def todo (n : Node) (stack : List Node) : List Node := (Items.kids n.items).flatMap nodes ++ stack.flatMap nodes

theorem todo_perm {n m : Node} {stack rest : List Node} (h : (Items.kids n.items).reverse ++ stack = m :: rest) :
    (todo n stack).Perm (m :: todo m rest) := by
  have p : ((Items.kids n.items).flatMap nodes ++ stack.flatMap nodes).Perm (((Items.kids n.items).reverse ++ stack).flatMap nodes) := by
    rw [List.flatMap_append]
    exact ((List.reverse_perm _).symm.flatMap_right nodes).append_right _
  rw [h, List.flatMap_cons, nodes_eq m] at p
  unfold todo
  simpa using p

/-- The loop over the nodes, without ANY. -/
theorem validateLoop_spec {d : Dtd} (M : Marks d) (hany : d.NoAny) (fuel : Nat) :
    ∀ (k : Nat) (n : Node) (e : Element) (top : Bool) (stack : List Node) (st : IdState) (ids refs : List (List Char)),
      e ∈ d.elements → (∀ m ∈ n :: todo n stack, Plain d m) → Track d st ids refs → ids.Nodup →
      (validateLoop d fuel k n e top stack st = .ok true → Good d fuel e top n (todo n stack) ids refs) ∧
      ((todo n stack).length < k → Good d fuel e top n (todo n stack) ids refs → validateLoop d fuel k n e top stack st = .ok true) ∧
      ((todo n stack).length < k → (∀ m ∈ n :: todo n stack, ∀ e ∈ d.elements, ∀ top, contentValidate fuel e m top ≠ none) →
        ∃ b, validateLoop d fuel k n e top stack st = .ok b)
  | 0, n, e, top, stack, st, ids, refs, _, _, _, _ => by
    refine ⟨fun h => ?_, fun h => absurd h (Nat.not_lt_zero _), fun h => absurd h (Nat.not_lt_zero _)⟩
    rw [validateLoop] at h
    cases h
  | k + 1, n, e, top, stack, st, ids, refs, he, hP, hT, hd => by
    obtain ⟨b, st1, e1, h1, T1⟩ := attrValidate_spec M (hP n (by simp)) hT
    have hfirst : Good d fuel e top n (todo n stack) ids refs →
        contentValidate fuel e n top = some true ∧ (Local d n ∧ ∀ v ∈ idOf d n, v ∉ ids) := by
      intro h
      refine ⟨h.content, h.loc n (by simp), fun v hv hm => ?_⟩
      have := h.once
      rw [List.flatMap_cons] at this
      exact (List.nodup_append.1 this).2.2 v (List.mem_append_left _ hv) v hm rfl
    rw [validateLoop, e1]
    cases b with
    | false =>
      simp only [Bool.false_eq_true, false_iff] at h1
      dsimp only
      exact ⟨fun h => by (cases h), fun _ h => absurd (hfirst h).2 h1, fun _ _ => ⟨false, rfl⟩⟩
    | true =>
      have h1 := h1.1 rfl
      have T1 := T1 rfl
      dsimp only
      cases hc : contentValidate fuel e n top with
      | none =>
        dsimp only
        exact ⟨fun h => by (cases h), fun _ h => absurd h.content (by rw [hc]; simp), fun _ h => absurd hc (h n (by simp) e he top)⟩
      | some b =>
        cases b with
        | false =>
          dsimp only
          exact ⟨fun h => by (cases h), fun _ h => absurd h.content (by rw [hc]; simp), fun _ _ => ⟨false, rfl⟩⟩
        | true =>
          dsimp only
          rw [hany e he]
          simp only [if_neg Bool.false_ne_true]
          cases hs : (Items.kids n.items).reverse ++ stack with
          | nil =>
            have ht : todo n stack = [] := by
              obtain ⟨h2, h3⟩ := List.append_eq_nil_iff.1 hs
              rw [List.reverse_eq_nil_iff] at h2
              simp [todo, h2, h3]
            obtain ⟨b, e2, h2⟩ := finish_spec M T1
            dsimp only
            rw [e2, ht, good_last hd]
            refine ⟨fun h => ?_, fun _ h => ?_, fun _ _ => ⟨b, rfl⟩⟩
            · injection h with h
              exact ⟨hc, h1, h2.1 h⟩
            · rw [h2.2 h.2.2]
          | cons m rest =>
            have pm := todo_perm hs
            have hlen : (todo n stack).length = (todo m rest).length + 1 := by rw [pm.length_eq]; rfl
            have hg : Good d fuel e top n (todo n stack) ids refs ↔
                ∃ e', d.element m.name = some e' ∧ Good d fuel e' false m (todo m rest) (idOf d n ++ ids) (refs ++ refsOf d n) := by
              constructor
              · intro h
                exact (good_step.1 (h.perm pm)).2.2
              · intro h
                exact (good_step.2 ⟨hc, h1, h⟩).perm pm.symm
            have hd' : (idOf d n ++ ids).Nodup := idOf_nodup hd h1.2
            dsimp only
            rw [hg]
            cases hm : d.element m.name with
            | none =>
              dsimp only
              exact ⟨fun h => by (cases h), fun _ h => by (obtain ⟨e', h, -⟩ := h; cases h), fun _ _ => ⟨false, rfl⟩⟩
            | some e' =>
              dsimp only
              have he' : e' ∈ d.elements := List.mem_of_find?_eq_some hm
              have hP' : ∀ x ∈ m :: todo m rest, Plain d x := fun x hx => hP x (List.mem_cons_of_mem _ (pm.mem_iff.2 hx))
              obtain ⟨q1, q2, q3⟩ := validateLoop_spec M hany fuel k m e' false rest st1 _ _ he' hP' T1 hd'
              refine ⟨fun h => ⟨e', rfl, q1 h⟩, fun hk h => ?_, fun hk h => ?_⟩
              · obtain ⟨e2, h2, h3⟩ := h
                cases h2
                exact q2 (by omega) h3
              · exact q3 (by omega) fun x hx => h x (List.mem_cons_of_mem _ (pm.mem_iff.2 hx))

end Axl.Dtd
