/-
A DTD that was accepted is well formed.
-/
import Verif.Model.DtdParse
import Verif.Spec.DtdText
import Verif.Spec.Dtd
import Verif.Proofs.Str

namespace Axl.Dtd
open Str Stream

theorem cmp_true {a b : List Char} : cmp (some a) (some b) = true ↔ a = b := by
  rw [cmp_iff]
  constructor
  · rintro ⟨s, h1, h2⟩; cases h1; cases h2; rfl
  · rintro rfl; exact ⟨a, rfl, rfl⟩

/-! ### The root -/

theorem mentionsAny_iff {name : List Char} : ∀ {ps : List Part}, MentionsAny name ps ↔ ∃ p ∈ ps, p.Mentions name
  | [] => by simp [MentionsAny]
  | p :: ps => by simp [MentionsAny, mentionsAny_iff (ps := ps)]

theorem isParentLoop_ok {name : List Char} : ∀ {fuel : Nat} {stack : List Part} {b : Bool},
    isParentLoop name fuel stack = .ok b → (b = true ↔ MentionsAny name stack)
  | 0, _, _, h => by simp [isParentLoop] at h
  | fuel + 1, [], _, h => by simp [isParentLoop] at h
  | fuel + 1, .node t n :: stack, b, h => by
    rw [isParentLoop] at h
    split at h
    · rename_i hc
      cases h
      simp [MentionsAny, Part.Mentions, cmp_true.1 hc]
    · rename_i hc
      have hn : n ≠ name := fun e => hc (cmp_true.2 e)
      split at h
      · rename_i he
        cases h
        rw [List.isEmpty_iff] at he
        subst he
        simp [MentionsAny, Part.Mentions, hn]
      · rw [isParentLoop_ok h]
        simp [MentionsAny, Part.Mentions, hn]
  | fuel + 1, .list k t items :: stack, b, h => by
    rw [isParentLoop] at h
    have hm : MentionsAny name (.list k t items :: stack) ↔ MentionsAny name (items.reverse ++ stack) := by
      simp only [mentionsAny_iff, List.mem_cons, List.mem_append, List.mem_reverse]
      constructor
      · rintro ⟨p, rfl | hp, h⟩
        · rw [Part.Mentions, mentionsAny_iff] at h
          obtain ⟨q, hq, h⟩ := h
          exact ⟨q, .inl hq, h⟩
        · exact ⟨p, .inr hp, h⟩
      · rintro ⟨p, hp | hp, h⟩
        · exact ⟨_, .inl rfl, by rw [Part.Mentions, mentionsAny_iff]; exact ⟨p, hp, h⟩⟩
        · exact ⟨p, .inr hp, h⟩
    rw [hm]
    split at h
    · rename_i he
      cases h
      rw [List.isEmpty_iff] at he
      rw [he]
      simp [MentionsAny]
    · exact isParentLoop_ok h

theorem Element.mentions_iff {e : Element} {name : List Char} :
    e.Mentions name ↔ ∃ l, e.list = some l ∧ MentionsAny name l.items := by
  unfold Element.Mentions Element.list
  cases e.type <;> simp

theorem isParent_ok {p c : Element} {b : Bool} (h : isParent p c = .ok b) : b = true ↔ p.Mentions c.name := by
  rw [Element.mentions_iff]
  unfold isParent at h
  split at h
  · rename_i hl
    cases h
    simp [hl]
  · rename_i l hl
    split at h
    · rename_i he
      cases h
      rw [List.isEmpty_iff] at he
      simp [hl, he, MentionsAny]
    · rw [isParentLoop_ok h]
      simp [hl, mentionsAny_iff]

theorem rootRound_ok : ∀ {es : List Element} {root : Element} {ch : Bool} {r : Element} {b : Bool}, rootRound es root ch = .ok (r, b) →
    (r = root ∨ r ∈ es) ∧ (b = false → r = root ∧ ∀ e ∈ es, ¬ e.Mentions root.name)
  | [], root, ch, r, b, h => by
    cases h
    simp
  | e :: es, root, ch, r, b, h => by
    rw [rootRound] at h
    split at h
    · rename_i hp
      have ih := rootRound_ok h
      refine ⟨by rcases ih.1 with h | h <;> simp [h], fun hb => ?_⟩
      have : ∀ {es : List Element} {root : Element} {r : Element}, rootRound es root true = .ok (r, false) → False := by
        intro es
        induction es with
        | nil => intro root r h; cases h
        | cons e es ih =>
          intro root r h
          rw [rootRound] at h
          split at h
          · exact ih h
          · exact ih h
          all_goals cases h
      rw [hb] at h
      exact (this h).elim
    · rename_i hp
      have ih := rootRound_ok h
      refine ⟨by rcases ih.1 with h | h <;> simp [h], fun hb => ?_⟩
      obtain ⟨h1, h2⟩ := ih.2 hb
      refine ⟨h1, fun x hx => ?_⟩
      rcases List.mem_cons.1 hx with rfl | hx
      · intro hm
        have := (isParent_ok hp).2 hm
        cases this
      · exact h2 x hx
    all_goals cases h

theorem newRoot_ok {es : List Element} : ∀ {fuel : Nat} {root r : Element}, root ∈ es → newRoot es fuel root = .ok r →
    r ∈ es ∧ ∀ e ∈ es, ¬ e.Mentions r.name
  | 0, _, _, _, h => by cases h
  | fuel + 1, root, r, hr, h => by
    rw [newRoot] at h
    split at h
    · rename_i r1 hh
      refine newRoot_ok ?_ h
      rcases (rootRound_ok hh).1 with h | h
      · rw [h]; exact hr
      · exact h
    · rename_i r1 hh
      cases h
      obtain ⟨h1, h2⟩ := (rootRound_ok hh).2 rfl
      subst h1
      exact ⟨hr, h2⟩
    all_goals cases h

/-! ### The declarations -/

/-- What holds of the declarations of one element. -/
structure DeclsFine (decls : List AttDecl) : Prop where
  oneId    : ∀ x ∈ decls, ∀ y ∈ decls, x.type = .id → y.type = .id → x.name = y.name
  notFixed : ∀ x ∈ decls, x.type = .id → x.defaults = .required ∨ x.defaults = .implied
  enums    : ∀ x ∈ decls, ∀ vs v, x.type = .enum vs → x.value = some v → v ∈ vs

theorem idFine_new {decls : List AttDecl} {decl : AttDecl} (hd : DeclsFine decls) (h : idFine (decls ++ [decl]) decl = true)
    (hv : valueFine decl.type decl.value = true) : DeclsFine (decls ++ [decl]) := by
  have h1 : decl.type = .id → (∀ x ∈ decls, x.type = .id → x.name = decl.name) ∧
      (decl.defaults = .required ∨ decl.defaults = .implied) := by
    intro ht
    unfold idFine at h
    rw [if_pos ht] at h
    simp only [Bool.and_eq_true, Bool.or_eq_true, decide_eq_true_eq] at h
    refine ⟨fun x hx hxt => ?_, h.2⟩
    have h := h.1
    rw [List.find?_append] at h
    cases hf : decls.find? (fun x => decide (x.type = .id)) with
    | none =>
      have := List.find?_eq_none.1 hf x hx
      simp [hxt] at this
    | some first =>
      rw [hf] at h
      simp only [Option.some_or] at h
      have hn := cmp_true.1 h
      rw [← hn]
      exact hd.oneId x hx first (List.mem_of_find?_eq_some hf) hxt (by simpa using List.find?_some hf)
  refine ⟨?_, ?_, ?_⟩
  · intro x hx y hy hxt hyt
    rw [List.mem_append, List.mem_singleton] at hx hy
    rcases hx with hx | rfl <;> rcases hy with hy | rfl
    · exact hd.oneId x hx y hy hxt hyt
    · exact (h1 hyt).1 x hx hxt
    · exact ((h1 hxt).1 y hy hyt).symm
    · rfl
  · intro x hx hxt
    rw [List.mem_append, List.mem_singleton] at hx
    rcases hx with hx | rfl
    · exact hd.notFixed x hx hxt
    · exact (h1 hxt).2
  · intro x hx vs v hxt hxv
    rw [List.mem_append, List.mem_singleton] at hx
    rcases hx with hx | rfl
    · exact hd.enums x hx vs v hxt hxv
    · unfold valueFine at hv
      rw [hxt, hxv] at hv
      simp only [List.any_eq_true] at hv
      obtain ⟨y, hy, hc⟩ := hv
      rw [← cmp_true.1 hc]; exact hy

/-- What changes in the DTD while an ATTLIST is read, and what the marks mean then. -/
structure Marked (d d' : Dtd) (old new : List AttDecl) : Prop where
  elements   : d'.elements = d.elements
  attributes : d'.attributes = d.attributes
  root       : d'.root = d.root
  entities   : d'.entities = d.entities
  more       : ∃ added, new = old ++ added ∧
    (d'.haveId = true ↔ d.haveId = true ∨ ∃ x ∈ added, x.type = .id) ∧
    (d'.haveIdRef = true ↔ d.haveIdRef = true ∨ ∃ x ∈ added, x.type = .idref ∨ x.type = .idrefs)

theorem attlistLoop_ok : ∀ {fuel : Nat} {d d' : Dtd} {decls new : List AttDecl} {s r : List Char},
    attlistLoop fuel d decls s = .ok (d', new, r) → DeclsFine decls → DeclsFine new ∧ Marked d d' decls new
  | 0, _, _, _, _, _, _, h, _ => by cases h
  | fuel + 1, d, d', decls, new, s, r, h, hd => by
    rw [attlistLoop] at h
    split at h
    · cases h
      exact ⟨hd, rfl, rfl, rfl, rfl, [], by simp, by simp, by simp⟩
    · split at h
      · cases h
      · split at h
        · split at h
          · split at h
            · cases h
            · simp only at h
              split at h
              · cases h
              · split at h
                · cases h
                · rename_i f _ _ _ type s2 _ _ defaults s3 _ hid hval
                  simp only [Bool.not_eq_true, Bool.not_eq_false', Bool.not_eq_true', Bool.not_eq_false] at hid hval
                  obtain ⟨h1, h2⟩ := attlistLoop_ok h (idFine_new hd (by simpa using hid) (by simpa using hval))
                  refine ⟨h1, ?_⟩
                  obtain ⟨added, ha, hi, hr⟩ := h2.more
                  refine ⟨?_, ?_, ?_, ?_, ⟨_ :: added, by rw [ha, List.append_assoc]; rfl, ?_, ?_⟩⟩
                  · rw [h2.elements]; cases type <;> rfl
                  · rw [h2.attributes]; cases type <;> rfl
                  · rw [h2.root]; cases type <;> rfl
                  · rw [h2.entities]; cases type <;> rfl
                  · rw [hi]; cases type <;> simp [Dtd.mark]
                  · rw [hr]; cases type <;> simp [Dtd.mark]
          all_goals cases h
        all_goals cases h

theorem setDecls_mem {name : List Char} {decls : List AttDecl} : ∀ {als : List AttList} {al : AttList},
    al ∈ setDecls name decls als → al.decls = decls ∨ al ∈ als
  | [], al, h => by simp only [setDecls, List.mem_singleton] at h; subst h; exact .inl rfl
  | a :: als, al, h => by
    rw [setDecls] at h
    split at h
    · rcases List.mem_cons.1 h with rfl | h
      · exact .inl rfl
      · exact .inr (List.mem_cons_of_mem _ h)
    · rcases List.mem_cons.1 h with rfl | h
      · exact .inr (List.mem_cons_self ..)
      · rcases setDecls_mem h with h | h
        · exact .inl h
        · exact .inr (List.mem_cons_of_mem _ h)

theorem setDecls_names {name : List Char} {decls : List AttDecl} : ∀ {als : List AttList} {x : List Char},
    x ∈ (setDecls name decls als).map (·.name) ↔ x = name ∨ x ∈ als.map (·.name)
  | [], x => by simp [setDecls]
  | a :: als, x => by
    rw [setDecls]
    split
    · rename_i h
      have : a.name = name := by simpa using h
      simp [this]
    · rw [List.map_cons, List.mem_cons, setDecls_names, List.map_cons, List.mem_cons]
      exact or_left_comm

theorem setDecls_nodup {name : List Char} {decls : List AttDecl} : ∀ {als : List AttList}, (als.map (·.name)).Nodup →
    ((setDecls name decls als).map (·.name)).Nodup
  | [], _ => by simp [setDecls]
  | a :: als, h => by
    rw [List.map_cons, List.nodup_cons] at h
    rw [setDecls]
    split
    · rename_i hn
      exact List.nodup_cons.2 h
    · rename_i hn
      rw [List.map_cons, List.nodup_cons]
      refine ⟨fun hm => ?_, setDecls_nodup h.2⟩
      rcases setDecls_names.1 hm with hm | hm
      · exact hn (by simpa using hm)
      · exact h.1 hm

/-- A declaration is there after the change: it is a new one, or was in another list, or is kept. -/
theorem setDecls_declares {name : List Char} {decls : List AttDecl} {P : AttDecl → Prop} : ∀ {als : List AttList},
    (als.map (·.name)).Nodup → (∀ al, als.find? (fun a => a.name == name) = some al → ∀ x ∈ al.decls, x ∈ decls) →
    ((∃ al ∈ setDecls name decls als, ∃ x ∈ al.decls, P x) ↔ (∃ x ∈ decls, P x) ∨ ∃ al ∈ als, ∃ x ∈ al.decls, P x)
  | [], _, _ => by simp [setDecls]
  | a :: als, hn, hk => by
    rw [List.map_cons, List.nodup_cons] at hn
    rw [setDecls]
    split
    · rename_i h
      have hk := hk a (by rw [List.find?_cons, h])
      constructor
      · rintro ⟨al, hal, x, hx, hp⟩
        rcases List.mem_cons.1 hal with rfl | hal
        · exact .inl ⟨x, hx, hp⟩
        · exact .inr ⟨al, List.mem_cons_of_mem _ hal, x, hx, hp⟩
      · rintro (⟨x, hx, hp⟩ | ⟨al, hal, x, hx, hp⟩)
        · exact ⟨_, List.mem_cons_self .., x, hx, hp⟩
        · rcases List.mem_cons.1 hal with rfl | hal
          · exact ⟨_, List.mem_cons_self .., x, hk x hx, hp⟩
          · exact ⟨al, List.mem_cons_of_mem _ hal, x, hx, hp⟩
    · rename_i h
      have ih := setDecls_declares (name := name) (decls := decls) (P := P) hn.2 (fun al hal => hk al (by rw [List.find?_cons]; simp [h, hal]))
      simp only [List.mem_cons, exists_eq_or_imp]
      rw [ih]
      exact or_left_comm

theorem setDecls_find {name : List Char} {decls : List AttDecl} : ∀ {als : List AttList} {x : List Char},
    (setDecls name decls als).find? (fun a => a.name == x) =
      if x = name then some ⟨name, decls⟩ else als.find? (fun a => a.name == x)
  | [], x => by
    rw [setDecls, List.find?_cons]
    by_cases hx : x = name
    · simp [hx]
    · have : (name == x) = false := by simpa using fun h : name = x => hx h.symm
      simp [hx, this]
  | a :: als, x => by
    rw [setDecls]
    split
    · rename_i h
      have hn : a.name = name := by simpa using h
      rw [List.find?_cons]
      by_cases hx : x = name
      · rw [if_pos hx, hx]
        simp only [hn, beq_self_eq_true]
      · have : (a.name == x) = false := by rw [hn]; simpa using fun h : name = x => hx h.symm
        simp only [this]
        rw [if_neg hx, List.find?_cons, this]
    · rename_i h
      have hn : a.name ≠ name := by simpa using h
      rw [List.find?_cons, setDecls_find]
      by_cases hx : x = name
      · have : (a.name == name) = false := by simpa using hn
        simp [this, hx]
      · simp only [if_neg hx, List.find?_cons]

/-- What holds of the DTD while it is read. -/
structure Inv (d : Dtd) : Prop where
  names : (d.elements.map (·.name)).Nodup
  root  : d.root = none
  lists : (d.attributes.map (·.name)).Nodup
  decls : ∀ al ∈ d.attributes, DeclsFine al.decls
  ids   : d.haveId = true ↔ d.Declares fun t => t = .id
  refs  : d.haveIdRef = true ↔ d.Declares fun t => t = .idref ∨ t = .idrefs

theorem declsFine_nil : DeclsFine [] := ⟨by simp, by simp, by simp⟩

theorem inv_new : Inv Dtd.new := by
  refine ⟨by simp [Dtd.new], rfl, by simp [Dtd.new], by simp [Dtd.new], ?_, ?_⟩ <;> simp [Dtd.new, Dtd.Declares]

theorem parseElement_inv {d d' : Dtd} {s r : List Char} (hd : Inv d) (h : parseElement d s = .ok (d', r)) : Inv d' := by
  unfold parseElement at h
  split at h
  · cases h
  split at h
  · cases h
  split at h
  · cases h
  split at h
  · split at h
    · cases h
    · split at h
      · cases h
      · rename_i hu _ _ _
        cases h
        refine ⟨?_, hd.root, hd.lists, hd.decls, hd.ids, hd.refs⟩
        simp only [List.map_append, List.map_cons, List.map_nil]
        rw [List.nodup_append]
        refine ⟨hd.names, by simp, ?_⟩
        intro a ha b hb hab
        simp only [List.mem_singleton] at hb
        subst hb
        subst hab
        obtain ⟨e, he, hn⟩ := List.mem_map.1 ha
        refine hu (List.any_eq_true.2 ⟨e, he, cmp_true.2 ?_⟩)
        exact hn
  all_goals cases h

theorem parseEntity_inv {d d' : Dtd} {s r : List Char} (hd : Inv d) (h : parseEntity d s = .ok (d', r)) : Inv d' := by
  unfold parseEntity at h
  split at h
  · cases h
  simp only at h
  split at h
  · cases h
  split at h
  · cases h
  split at h
  · cases h
  cases h
  exact ⟨hd.names, hd.root, hd.lists, hd.decls, hd.ids, hd.refs⟩

theorem parseAttlist_inv {fuel : Nat} {d d' : Dtd} {s r : List Char} (hd : Inv d) (h : parseAttlist fuel d s = .ok (d', r)) :
    Inv d' := by
  unfold parseAttlist at h
  split at h
  · cases h
  rename_i f _
  split at h
  · rename_i d1 decls s1 hl
    cases h
    have hold : ∀ old, d.declsOf (toStr f.text) = old → DeclsFine old ∧ ∀ al, d.attributes.find? (fun a => a.name == toStr f.text) = some al →
          al.decls = old := by
      intro old ho
      subst ho
      unfold Dtd.declsOf
      cases ha : d.attr (toStr f.text) with
      | none => exact ⟨declsFine_nil, fun al hal => by rw [Dtd.attr] at ha; rw [ha] at hal; cases hal⟩
      | some al =>
        refine ⟨hd.decls al (List.mem_of_find?_eq_some ha), fun al' hal => ?_⟩
        rw [Dtd.attr] at ha; rw [ha] at hal; cases hal; rfl
    obtain ⟨ho1, ho2⟩ := hold _ rfl
    obtain ⟨h1, h2⟩ := attlistLoop_ok hl ho1
    obtain ⟨added, ha, hi, hr⟩ := h2.more
    have hdecl : ∀ P : AttType → Prop, Dtd.Declares { d1 with attributes := setDecls (toStr f.text) decls d1.attributes } P ↔
        d.Declares P ∨ ∃ x ∈ added, P x.type := by
      intro P
      unfold Dtd.Declares
      simp only [h2.attributes]
      rw [setDecls_declares (P := fun x => P x.type) hd.lists (fun al hal x hx => by
        rw [ho2 al hal] at hx; rw [ha]; exact List.mem_append_left _ hx)]
      constructor
      · rintro (⟨x, hx, hp⟩ | h)
        · rw [ha, List.mem_append] at hx
          rcases hx with hx | hx
          · unfold Dtd.declsOf at hx
            cases hat : d.attr (toStr f.text) with
            | none => rw [hat] at hx; cases hx
            | some al =>
              rw [hat] at hx
              exact .inl ⟨al, List.mem_of_find?_eq_some hat, x, hx, hp⟩
          · exact .inr ⟨x, hx, hp⟩
        · exact .inl h
      · rintro (h | ⟨x, hx, hp⟩)
        · exact .inr h
        · exact .inl ⟨x, by rw [ha]; exact List.mem_append_right _ hx, hp⟩
    refine ⟨by simpa [h2.elements] using hd.names, by simpa [h2.root] using hd.root, ?_, ?_, ?_, ?_⟩
    · simp only [h2.attributes]; exact setDecls_nodup hd.lists
    · intro al hal
      simp only [h2.attributes] at hal
      rcases setDecls_mem hal with h | h
      · rw [h]; exact h1
      · exact hd.decls al h
    · rw [hdecl, ← hd.ids]; exact hi
    · rw [hdecl, ← hd.refs]; exact hr
  all_goals cases h

theorem parseLoop_inv {fuel : Nat} : ∀ {k it : Nat} {d d' : Dtd} {s : List Char}, Inv d → parseLoop fuel k it d s = .ok d' → Inv d'
  | 0, _, _, _, _, _, h => by cases h
  | k + 1, it, d, d', s, hd, h => by
    rw [parseLoop] at h
    split at h
    · cases h; exact hd
    split at h
    · rename_i s1 _
      split at h
      · split at h
        · cases h
        · exact parseLoop_inv hd h
      · rename_i d1 s2 hdec
        refine parseLoop_inv ?_ h
        unfold declaration at hdec
        split at hdec
        · exact parseElement_inv hd (Option.some.inj hdec)
        · split at hdec
          · exact parseAttlist_inv hd (Option.some.inj hdec)
          · split at hdec
            · exact parseEntity_inv hd (Option.some.inj hdec)
            · cases hdec
      all_goals cases h
    all_goals cases h

/-- **A DTD that was accepted is well formed.** -/
theorem parse_wellFormed {fuel : Nat} {text : List Char} {d : Dtd} (h : parse fuel text = .ok d) : d.WellFormed := by
  unfold parse declarations at h
  split at h
  · rename_i d0 hl
    have hi := parseLoop_inv inv_new hl
    unfold conclude at h
    simp only at h
    have key : ∀ root : Option Element, (if !d0.haveId && d0.haveIdRef then Res.error else Res.ok { d0 with root := root }) = .ok d →
        (d0.elements = [] → root = none) →
        (d0.elements ≠ [] → ∃ e ∈ d0.elements, root = some e ∧ ∀ p ∈ d0.elements, ¬ p.Mentions e.name) → d.WellFormed := by
      intro root h h1 h2
      split at h
      · cases h
      · rename_i hm
        cases h
        refine ⟨hi.names, h1, h2, hi.lists, fun al hal => (hi.decls al hal).oneId, fun al hal => (hi.decls al hal).notFixed,
          fun al hal => (hi.decls al hal).enums, hi.ids, hi.refs, fun hr => ?_⟩
        have hr' := hi.refs.2 hr
        refine hi.ids.1 ?_
        cases hd : d0.haveId
        · simp [hd, hr'] at hm
        · rfl
    split at h
    · rename_i root hroot
      refine key root h ?_ ?_
      · intro he
        rw [he] at hroot
        cases hroot; rfl
      · intro he
        split at hroot
        · rename_i he'; exact absurd he' he
        · rename_i e es hes
          split at hroot
          · rename_i e' hn
            cases hroot
            obtain ⟨h1, h2⟩ := newRoot_ok (by rw [hes]; exact List.mem_cons_self ..) hn
            exact ⟨e', h1, rfl, h2⟩
          all_goals cases hroot
    all_goals cases h
  all_goals cases h

theorem Dtd.WellFormed.parsed {d : Dtd} (h : d.WellFormed) : d.Parsed := by
  refine ⟨?_, ?_, ?_, ?_⟩
  · by_cases he : d.elements = []
    · exact .inl ⟨h.noRoot he, he⟩
    · obtain ⟨e, h1, h2, -⟩ := h.root he
      refine .inr ⟨e, h2, ?_⟩
      unfold Dtd.element
      have hn := h.names
      generalize d.elements = es at h1 hn
      induction es with
      | nil => cases h1
      | cons x xs ih =>
        rw [List.map_cons, List.nodup_cons] at hn
        rw [List.find?_cons]
        rcases List.mem_cons.1 h1 with rfl | h1
        · simp
        · have : (x.name == e.name) = false := by
            simp only [beq_eq_false_iff_ne, ne_eq]
            intro hx
            exact hn.1 (hx ▸ List.mem_map.2 ⟨e, h1, rfl⟩)
          rw [this]
          exact ih h1 hn.2
  · intro al hal x hx ht
    exact h.ids.2 ⟨al, hal, x, hx, ht⟩
  · intro al hal x hx ht
    exact h.refs.2 ⟨al, hal, x, hx, .inl ht⟩
  · intro hr
    exact h.ids.2 (h.resolved (h.refs.1 hr))

end Axl.Dtd
