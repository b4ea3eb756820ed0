/-
What `areEqual` and the lookups of a DTD answer.
-/
import Verif.Spec.DtdEqual
import Verif.Proofs.DtdSource

namespace Axl.Dtd
open Str

theorem allAlike_iff {f : α → α → Bool} {R : α → α → Prop} (h : ∀ x y, f x y = true ↔ R x y) : ∀ {xs ys : List α}, xs.length = ys.length →
    (allAlike f xs ys = true ↔ ∀ (i : Nat) x y, xs[i]? = some x → ys[i]? = some y → R x y)
  | [], [], _ => by simp [allAlike]
  | [], _ :: _, hl => by simp at hl
  | _ :: _, [], hl => by simp at hl
  | x :: xs, y :: ys, hl => by
    rw [allAlike, Bool.and_eq_true, h, allAlike_iff h (by simpa using hl)]
    constructor
    · rintro ⟨h1, h2⟩ i a b ha hb
      cases i with
      | zero => cases ha; cases hb; exact h1
      | succ i => exact h2 i a b ha hb
    · intro hr
      exact ⟨hr 0 x y rfl rfl, fun i a b ha hb => hr (i + 1) a b ha hb⟩

theorem forall_getElem_eq {xs ys : List α} {g : α → β} (hl : xs.length = ys.length)
    (h : ∀ (i : Nat) x y, xs[i]? = some x → ys[i]? = some y → g x = g y) : xs.map g = ys.map g := by
  apply List.ext_getElem?
  intro i
  rw [List.getElem?_map, List.getElem?_map]
  by_cases hi : i < xs.length
  · rw [List.getElem?_eq_getElem hi, List.getElem?_eq_getElem (hl ▸ hi)]
    simp only [Option.map_some]
    rw [h i _ _ (List.getElem?_eq_getElem hi) (List.getElem?_eq_getElem (hl ▸ hi))]
  · rw [List.getElem?_eq_none (by omega), List.getElem?_eq_none (by omega)]

theorem getElem_of_map {xs ys : List α} {g : α → β} (h : xs.map g = ys.map g) (i : Nat) {x y : α} (hx : xs[i]? = some x) (hy : ys[i]? = some y) :
    g x = g y := by
  have := congrArg (fun l => l[i]?) h
  simp only [List.getElem?_map, hx, hy, Option.map_some, Option.some.injEq] at this
  exact this

theorem cmp_some_iff {a b : List Char} : cmp (some a) (some b) = true ↔ a = b := cmp_true

theorem typeAlike_iff (t t' : AttType) : typeAlike t t' = true ↔ t = t' := by
  have key : ∀ vs ws : List (List Char), (decide (vs.length = ws.length) && allAlike valueAlike vs ws) = true ↔ vs = ws := by
    intro vs ws
    rw [Bool.and_eq_true, decide_eq_true_iff]
    constructor
    · rintro ⟨hl, h⟩
      have := forall_getElem_eq (g := id) hl ((allAlike_iff (R := fun x y => id x = id y) (fun x y => cmp_some_iff) hl).1 h)
      simpa using this
    · rintro rfl
      refine ⟨rfl, (allAlike_iff (R := fun x y => x = y) (fun x y => cmp_some_iff) rfl).2 ?_⟩
      intro i x y hx hy
      rw [hx] at hy
      exact Option.some.inj hy
  cases t <;> cases t' <;> simp [typeAlike, key]

theorem declAlike_iff (a b : AttDecl) : declAlike a b = true ↔ { a with value := none } = { b with value := none } := by
  unfold declAlike
  rw [Bool.and_eq_true, Bool.and_eq_true, typeAlike_iff, decide_eq_true_iff, cmp_some_iff, AttDecl.mk.injEq]
  constructor
  · rintro ⟨⟨h1, h2⟩, h3⟩; exact ⟨h3, h1, h2, rfl⟩
  · rintro ⟨h1, h2, h3, -⟩; exact ⟨⟨h2, h3⟩, h1⟩

theorem attListAlike_iff (a b : AttList) : attListAlike a b = true ↔ a.noValues = b.noValues := by
  unfold attListAlike AttList.noValues
  rw [Bool.and_eq_true, Bool.and_eq_true, decide_eq_true_iff, cmp_some_iff, AttList.mk.injEq]
  constructor
  · rintro ⟨⟨h1, h2⟩, h3⟩
    exact ⟨h1, forall_getElem_eq h2 ((allAlike_iff declAlike_iff h2).1 h3)⟩
  · rintro ⟨h1, h2⟩
    have hl : a.decls.length = b.decls.length := by simpa using congrArg List.length h2
    exact ⟨⟨h1, hl⟩, (allAlike_iff declAlike_iff hl).2 fun i x y hx hy => getElem_of_map h2 i hx hy⟩

theorem entityAlike_iff (e e' : Entity) : entityAlike e e' = true ↔ e = e' ∧ e.content ≠ none := by
  unfold entityAlike
  rw [Bool.and_eq_true, Bool.and_eq_true, decide_eq_true_iff, cmp_some_iff]
  obtain ⟨n, t, c⟩ := e
  obtain ⟨n', t', c'⟩ := e'
  cases c with
  | none => simp [cmp]
  | some v =>
    cases c' with
    | none => simp [cmp]
    | some v' =>
      rw [cmp_some_iff]
      simp only [Entity.mk.injEq, Option.some.injEq, ne_eq, reduceCtorEq, not_false_eq_true, and_true]
      constructor
      · rintro ⟨⟨h1, h2⟩, h3⟩; exact ⟨h2, h1, h3⟩
      · rintro ⟨h1, h2, h3⟩; exact ⟨⟨h2, h1⟩, h3⟩

theorem itemAlike_iff (p q : Part) : itemAlike p q = true ↔ Item p q := by
  cases p <;> cases q <;> simp only [itemAlike, decide_eq_true_iff, Bool.false_eq_true, false_iff, true_iff]
  · constructor
    · rintro rfl; exact .node _ _ _
    · intro h; cases h; rfl
  · intro h; cases h
  · intro h; cases h
  · exact .list _ _ _ _ _ _

theorem itemsAlike_iff : ∀ {ps qs : List Part}, itemsAlike ps qs = some true ↔
    ps.length ≤ qs.length ∧ ∀ (i : Nat) p q, ps[i]? = some p → qs[i]? = some q → Item p q
  | [], qs => by simp [itemsAlike]
  | p :: ps, [] => by simp [itemsAlike]
  | p :: ps, q :: qs => by
    rw [itemsAlike]
    split
    · rename_i h
      rw [itemsAlike_iff]
      constructor
      · rintro ⟨h1, h2⟩
        refine ⟨by simpa using h1, fun i a b ha hb => ?_⟩
        cases i with
        | zero => cases ha; cases hb; exact (itemAlike_iff _ _).1 h
        | succ i => exact h2 i a b ha hb
      · rintro ⟨h1, h2⟩
        exact ⟨by simpa using h1, fun i a b ha hb => h2 (i + 1) a b ha hb⟩
    · rename_i h
      simp only [Option.some.injEq, Bool.false_eq_true, false_iff]
      rintro ⟨-, h2⟩
      exact h ((itemAlike_iff _ _).2 (h2 0 p q rfl rfl))

theorem itemsAlike_none : ∀ {ps qs : List Part}, ps.length ≤ qs.length → itemsAlike ps qs ≠ none
  | [], _, _ => by simp [itemsAlike]
  | _ :: _, [], h => by simp at h
  | p :: ps, q :: qs, h => by
    rw [itemsAlike]
    split
    · exact itemsAlike_none (by simpa using h)
    · simp

theorem tag_iff (t t' : ElementType) : t.tag = t'.tag ↔ SameSort t t' := by
  constructor
  · intro h
    cases t <;> cases t' <;> first | (simp [ElementType.tag] at h; done) | constructor
  · intro h
    cases h <;> rfl

theorem compulsoryLoop_choice : ∀ l : List Part, compulsoryLoop .choice l = if l.any Part.required then 1 else 0
  | [] => rfl
  | .node t n :: l => by
    rw [compulsoryLoop, compulsoryLoop_choice l]
    cases t <;> simp [Part.required]
  | .list k t i :: l => by
    rw [compulsoryLoop, compulsoryLoop_choice l]
    simp [Part.required]

theorem compulsoryLoop_seq {k : Kind} (h : k ≠ .choice) : ∀ l : List Part, compulsoryLoop k l = (l.filter Part.required).length
  | [] => rfl
  | .node t n :: l => by
    rw [compulsoryLoop, compulsoryLoop_seq h l]
    cases t <;> simp [Part.required, h, List.filter_cons]
  | .list k' t i :: l => by
    rw [compulsoryLoop, compulsoryLoop_seq h l]
    simp [Part.required]

theorem compulsoryNum_eq (l : Content) : compulsoryNum l = l.required := by
  obtain ⟨k, t, i⟩ := l
  unfold compulsoryNum Content.required
  cases k
  all_goals cases t
  all_goals first
    | rfl
    | exact compulsoryLoop_choice _
    | exact compulsoryLoop_seq (by simp) _

theorem least_eq (t : ElementType) : t.least = t.required := by
  cases t <;> first | rfl | exact compulsoryNum_eq _

theorem times_eq (t : ElementType) : t.times = t.repetition := by
  cases t <;> rfl

theorem elementAlike_iff (e e' : Element) : elementAlike e e' = some true ↔ ElementsMatch e e' := by
  unfold elementAlike
  by_cases h1 : e.type.tag = e'.type.tag
  · by_cases h2 : e.type.least = e'.type.least
    · by_cases h3 : e.name = e'.name
      · rw [if_neg (by simpa using h1), if_neg (by simpa using h2), if_neg (by simpa [cmp_some_iff] using h3)]
        unfold listAlike
        cases hl : e.list with
        | none =>
          cases hl' : e'.list with
          | none =>
            simp only [true_iff]
            have ht : ∀ x : Element, x.list = none → x.type.times = none := by
              intro x hx
              unfold Element.list at hx
              split at hx <;> rename_i hh <;> first | (rw [hh]; rfl) | cases hx
            exact ⟨h3, (tag_iff _ _).1 h1, by rw [← least_eq, ← least_eq, h2], by rw [← times_eq, ← times_eq, ht e hl, ht e' hl'], by rw [hl, hl'], by simp [Element.width, hl], by intro l l' h; rw [hl] at h; cases h⟩
          | some l' =>
            simp only [Option.some.injEq, Bool.false_eq_true, false_iff]
            intro h
            have := h.kind
            rw [hl, hl'] at this
            cases this
        | some l =>
          cases hl' : e'.list with
          | none =>
            simp only [Option.some.injEq, Bool.false_eq_true, false_iff]
            intro h
            have := h.kind
            rw [hl, hl'] at this
            cases this
          | some l' =>
            simp only
            by_cases h4 : l.kind = l'.kind
            · by_cases h5 : e.type.times = e'.type.times
              · rw [if_neg (by simpa using h4), if_neg (by simpa using h5), itemsAlike_iff]
                constructor
                · rintro ⟨h6, h7⟩
                  refine ⟨h3, (tag_iff _ _).1 h1, by rw [← least_eq, ← least_eq, h2], by rw [← times_eq, ← times_eq, h5], by rw [hl, hl']; simp [h4], by simpa [Element.width, hl, hl'] using h6, ?_⟩
                  intro m m' hm hm'
                  rw [hl] at hm
                  rw [hl'] at hm'
                  cases hm
                  cases hm'
                  exact h7
                · intro h
                  exact ⟨by simpa [Element.width, hl, hl'] using h.width, h.items l l' hl hl'⟩
              · rw [if_neg (by simpa using h4), if_pos (by simpa using h5)]
                simp only [Option.some.injEq, Bool.false_eq_true, false_iff]
                exact fun h => h5 (by rw [times_eq, times_eq, h.times])
            · rw [if_pos (by simpa using h4)]
              simp only [Option.some.injEq, Bool.false_eq_true, false_iff]
              intro h
              have := h.kind
              rw [hl, hl'] at this
              simp only [Option.map_some, Option.some.injEq] at this
              exact h4 this
      · rw [if_neg (by simpa using h1), if_neg (by simpa using h2), if_pos (by
          rw [Bool.not_eq_true', ← Bool.not_eq_true, cmp_some_iff]
          exact h3)]
        simp only [Option.some.injEq, Bool.false_eq_true, false_iff]
        exact fun h => h3 h.name
    · rw [if_neg (by simpa using h1), if_pos (by simpa using h2)]
      simp only [Option.some.injEq, Bool.false_eq_true, false_iff]
      exact fun h => h2 (by rw [least_eq, least_eq, h.least])
  · rw [if_pos (by simpa using h1)]
    simp only [Option.some.injEq, Bool.false_eq_true, false_iff]
    exact fun h => h1 ((tag_iff _ _).2 h.tag)

theorem elementAlike_none {e e' : Element} (h : e.width ≤ e'.width) : elementAlike e e' ≠ none := by
  unfold elementAlike listAlike
  split
  · simp
  · split
    · simp
    · split
      · simp
      · split
        · simp
        · rename_i l l' hl hl'
          split
          · simp
          · split
            · simp
            · exact itemsAlike_none (by simpa [Element.width, hl, hl'] using h)
        · simp

theorem elementsAlike_iff : ∀ {es es' : List Element}, es.length = es'.length → (elementsAlike es es' = some true ↔
    ∀ (i : Nat) e e', es[i]? = some e → es'[i]? = some e' → ElementsMatch e e')
  | [], [], _ => by simp [elementsAlike]
  | [], _ :: _, hl => by simp at hl
  | _ :: _, [], hl => by simp at hl
  | e :: es, e' :: es', hl => by
    rw [elementsAlike]
    have key : (∀ (i : Nat) a b, (e :: es)[i]? = some a → (e' :: es')[i]? = some b → ElementsMatch a b) ↔
        ElementsMatch e e' ∧ elementsAlike es es' = some true := by
      rw [elementsAlike_iff (by simpa using hl)]
      constructor
      · intro h
        exact ⟨h 0 e e' rfl rfl, fun i a b ha hb => h (i + 1) a b ha hb⟩
      · rintro ⟨h1, h2⟩ i a b ha hb
        cases i with
        | zero => cases ha; cases hb; exact h1
        | succ i => exact h2 i a b ha hb
    rw [key, ← elementAlike_iff]
    cases h : elementAlike e e' with
    | none => simp
    | some b => cases b <;> simp

theorem elementsAlike_none : ∀ {es es' : List Element},
    (∀ (i : Nat) e e', es[i]? = some e → es'[i]? = some e' → e.width ≤ e'.width) → elementsAlike es es' ≠ none
  | [], _, _ => by simp [elementsAlike]
  | _ :: _, [], _ => by simp [elementsAlike]
  | e :: es, e' :: es', h => by
    rw [elementsAlike]
    have h1 := elementAlike_none (h 0 e e' rfl rfl)
    have h2 := elementsAlike_none (es := es) (es' := es') fun i a b ha hb => h (i + 1) a b ha hb
    cases hc : elementAlike e e' with
    | none => exact absurd hc h1
    | some b => cases b <;> simp [h2]

theorem areEqual_iff (d d' : Dtd) : areEqual d d' = some true ↔ DtdsMatch d d' := by
  unfold areEqual
  by_cases h1 : d.entities.length = d'.entities.length
  case neg =>
    rw [if_pos h1]
    simp only [Option.some.injEq, Bool.false_eq_true, false_iff]
    exact fun h => h1 (by rw [h.entities])
  by_cases h2 : d.elements.length = d'.elements.length
  case neg =>
    rw [if_neg (by simpa using h1), if_pos h2]
    simp only [Option.some.injEq, Bool.false_eq_true, false_iff]
    exact fun h => h2 h.elements
  by_cases h3 : d.attributes.length = d'.attributes.length
  case neg =>
    rw [if_neg (by simpa using h1), if_neg (by simpa using h2), if_pos h3]
    simp only [Option.some.injEq, Bool.false_eq_true, false_iff]
    intro h
    have := congrArg List.length h.attributes
    simp only [List.length_map] at this
    exact h3 this
  by_cases h4 : d.haveIdRef = d'.haveIdRef
  case neg =>
    rw [if_neg (by simpa using h1), if_neg (by simpa using h2), if_neg (by simpa using h3), if_pos h4]
    simp only [Option.some.injEq, Bool.false_eq_true, false_iff]
    exact fun h => h4 h.refs
  by_cases h5 : d.haveId = d'.haveId
  case neg =>
    rw [if_neg (by simpa using h1), if_neg (by simpa using h2), if_neg (by simpa using h3), if_neg (by simpa using h4), if_pos h5]
    simp only [Option.some.injEq, Bool.false_eq_true, false_iff]
    exact fun h => h5 h.ids
  rw [if_neg (by simpa using h1), if_neg (by simpa using h2), if_neg (by simpa using h3), if_neg (by simpa using h4), if_neg (by simpa using h5)]
  have he := allAlike_iff entityAlike_iff h1
  by_cases h6 : allAlike entityAlike d.entities d'.entities = true
  case neg =>
    rw [if_pos (by simpa using h6)]
    simp only [Option.some.injEq, Bool.false_eq_true, false_iff]
    intro h
    refine h6 (he.2 fun i x y hx hy => ?_)
    rw [← h.entities, hx] at hy
    cases hy
    exact ⟨rfl, h.content x (List.mem_of_getElem? hx)⟩
  rw [if_neg (by simpa using h6)]
  have h7 := he.1 h6
  have h8 : d.entities = d'.entities := by
    have := forall_getElem_eq (g := id) h1 fun i x y hx hy => (h7 i x y hx hy).1
    simpa using this
  have h9 : ∀ e ∈ d.entities, e.content ≠ none := by
    intro e he
    obtain ⟨i, hi, rfl⟩ := List.getElem_of_mem he
    exact (h7 i _ _ (List.getElem?_eq_getElem hi) (List.getElem?_eq_getElem (h1 ▸ hi))).2
  have hes := elementsAlike_iff h2
  have hat := allAlike_iff attListAlike_iff h3
  have key : DtdsMatch d d' ↔ elementsAlike d.elements d'.elements = some true ∧ allAlike attListAlike d.attributes d'.attributes = true := by
    rw [hes, hat]
    constructor
    · intro h
      exact ⟨h.each, fun i x y hx hy => getElem_of_map h.attributes i hx hy⟩
    · rintro ⟨ha, hb⟩
      exact ⟨h8, h9, h2, ha, forall_getElem_eq h3 hb, h5, h4⟩
  rw [key]
  cases elementsAlike d.elements d'.elements with
  | none => simp
  | some b => cases b <;> simp

theorem areEqual_none {d d' : Dtd} (h : ∀ (i : Nat) e e', d.elements[i]? = some e → d'.elements[i]? = some e' → e.width ≤ e'.width) :
    areEqual d d' ≠ none := by
  unfold areEqual
  have h1 := elementsAlike_none h
  repeat' split
  all_goals first | simp | skip
  rename_i hn
  exact absurd hn h1

theorem item_refl (p : Part) : Item p p := by cases p <;> constructor

theorem elementsMatch_refl (e : Element) : ElementsMatch e e := by
  refine ⟨rfl, (tag_iff _ _).1 rfl, rfl, rfl, rfl, Nat.le_refl _, fun l l' hl hl' i p q hp hq => ?_⟩
  rw [hl] at hl'
  cases hl'
  rw [hp] at hq
  cases hq
  exact item_refl p

theorem dtdsMatch_refl {d : Dtd} (h : ∀ e ∈ d.entities, e.content ≠ none) : DtdsMatch d d := by
  refine ⟨rfl, h, rfl, fun i e e' he he' => ?_, rfl, rfl, rfl⟩
  rw [he] at he'
  cases he'
  exact elementsMatch_refl e

theorem topLoop_ok {c : Element} : ∀ {es : List Element}, ∃ b, topLoop c es = .ok b ∧ (b = true ↔ ∀ e ∈ es, ¬ e.Mentions c.name)
  | [] => ⟨true, rfl, by simp⟩
  | e :: es => by
    have hs := isParent_sat e c
    rw [topLoop]
    cases hp : isParent e c with
    | ok b =>
      cases b with
      | true => exact ⟨false, rfl, by simp [(isParent_ok hp).1 rfl]⟩
      | false =>
        obtain ⟨b, h1, h2⟩ := topLoop_ok (c := c) (es := es)
        refine ⟨b, h1, ?_⟩
        have : ¬ e.Mentions c.name := fun hm => by simpa using (isParent_ok hp).2 hm
        simp [h2, this]
    | error =>
      exfalso
      unfold isParent at hp
      split at hp
      · cases hp
      · split at hp
        · cases hp
        · exact isParentLoop_ne_error _ _ hp
    | ub => rw [hp] at hs; exact hs.elim
    | loop => rw [hp] at hs; exact hs.elim

end Axl.Dtd
