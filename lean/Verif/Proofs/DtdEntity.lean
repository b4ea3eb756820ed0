/-
Reading a DTD ends when its parameter entities are not recursive: what is left to read is some of the text behind what is
left of the values put before it, and a character weighs the more the higher the entity is that it comes from.
-/
import Verif.Proofs.DtdFuel
import Verif.Spec.DtdEntity

namespace Axl.Dtd
open Str Stream Spec.Xml

/-! ### The weight of what is left -/

/-- What is left to read, with its weight: the text, or what is left of the value of an entity, and the space after it,
before the rest. -/
inductive Pile (text : List Char) (height : List Char → Nat) (top : Nat) : List Char → Nat → Prop
  | text {t : List Char} : t <:+ text → Pile text height top t (t.length * (text.length + 2) ^ top)
  | value {name value p s : List Char} {w : Nat} : DeclaresEntity text name value → p <:+ value ++ [' '] → Pile text height top s w →
      Pile text height top (p ++ s) (p.length * (text.length + 2) ^ height name + w)

variable {text : List Char} {height : List Char → Nat} {top : Nat}

theorem declares_length {name value : List Char} (h : DeclaresEntity text name value) : value.length < text.length := by
  obtain ⟨a, g1, g2, g3, q, b, rfl, -⟩ := h
  simp only [List.length_append, List.length_cons]
  omega

theorem declares_nul {name value : List Char} (h : DeclaresEntity text name value) (ht : NUL ∉ text) : NUL ∉ value := by
  obtain ⟨a, g1, g2, g3, q, b, rfl, -⟩ := h
  simp only [List.mem_append, List.mem_cons, not_or] at ht ⊢
  grind

theorem pow_pos' (n k : Nat) : 0 < (n + 2) ^ k := Nat.pow_pos (by omega)

theorem mul_ge {a b : Nat} (hb : 0 < b) : a ≤ a * b := Nat.le_mul_of_pos_right _ hb

/-- What is left of what is left weighs less. -/
theorem Pile.suffix {s : List Char} {w : Nat} (h : Pile text height top s w) : ∀ {r : List Char}, r <:+ s →
    ∃ v, Pile text height top r v ∧ v + (s.length - r.length) ≤ w := by
  induction h with
  | text ht =>
    rename_i t
    intro r hr
    refine ⟨_, .text (hr.trans ht), ?_⟩
    have hl := hr.length_le
    have hp := pow_pos' text.length top
    have : t.length * (text.length + 2) ^ top = r.length * (text.length + 2) ^ top + (t.length - r.length) * (text.length + 2) ^ top := by
      rw [← Nat.add_mul]; congr 1; omega
    rw [this]
    have := mul_ge (a := t.length - r.length) hp
    omega
  | value hd hp hs ih =>
    rename_i name value p s w
    intro r hr
    have hl := hr.length_le
    rcases Nat.le_total r.length s.length with hle | hle
    · have hrs : r <:+ s := List.suffix_of_suffix_length_le hr (List.suffix_append _ _) hle
      obtain ⟨v, h1, h2⟩ := ih hrs
      refine ⟨v, h1, ?_⟩
      have := mul_ge (a := p.length) (pow_pos' text.length (height name))
      simp only [List.length_append] at hl ⊢
      omega
    · have hsr : s <:+ r := List.suffix_of_suffix_length_le (List.suffix_append _ _) hr hle
      obtain ⟨p', rfl⟩ := hsr
      have hpp : p' <:+ p := by
        obtain ⟨x, hx⟩ := hr
        rw [← List.append_assoc] at hx
        exact ⟨x, List.append_cancel_right hx⟩
      refine ⟨_, .value hd (hpp.trans hp) hs, ?_⟩
      have hl2 := hpp.length_le
      have : p.length * (text.length + 2) ^ height name = p'.length * (text.length + 2) ^ height name + (p.length - p'.length) * (text.length + 2) ^ height name := by
        rw [← Nat.add_mul]; congr 1; omega
      rw [this]
      have := mul_ge (a := p.length - p'.length) (pow_pos' text.length (height name))
      simp only [List.length_append]
      omega

theorem Pile.length {s : List Char} {w : Nat} (h : Pile text height top s w) : s.length ≤ w := by
  obtain ⟨v, -, h2⟩ := h.suffix (List.nil_suffix)
  simp at h2
  omega

theorem Pile.nul {s : List Char} {w : Nat} (h : Pile text height top s w) (ht : NUL ∉ text) : NUL ∉ s := by
  induction h with
  | text hs => exact fun hm => ht (hs.subset hm)
  | value hd hp hs ih =>
    intro hm
    rcases List.mem_append.1 hm with hm | hm
    · have := hp.subset hm
      rcases List.mem_append.1 this with h | h
      · exact declares_nul hd ht h
      · simp [NUL] at h
    · exact ih hm

/-- Markup is in the text itself. -/
theorem Pile.markup {s : List Char} {w : Nat} (h : Pile text height top s w) (hm : NoMarkup text) {r : List Char} (hs : s = '<' :: r) : s <:+ text := by
  induction h with
  | text h => exact h
  | value hd hp hr ih =>
    rename_i name value p s w
    cases p with
    | nil => exact ih hs
    | cons c p =>
      simp only [List.cons_append, List.cons.injEq] at hs
      exfalso
      have : '<' ∈ value ++ [' '] := hp.subset (by rw [hs.1]; simp)
      rcases List.mem_append.1 this with h | h
      · exact hm _ _ hd h
      · simp at h

/-- The value of an entity weighs less than the first character of a reference to it. -/
theorem weight_value {name value : List Char} {n k : Nat} (hd : DeclaresEntity text name value) (h : height name < k) (hn : 0 < n) :
    (value ++ [' ']).length * (text.length + 2) ^ height name < n * (text.length + 2) ^ k := by
  have h1 := declares_length hd
  have h2 : (text.length + 2) ^ (height name + 1) ≤ (text.length + 2) ^ k := Nat.pow_le_pow_right (by omega) (by omega)
  have h3 : (value ++ [' ']).length * (text.length + 2) ^ height name < (text.length + 2) ^ (height name + 1) := by
    rw [Nat.pow_succ, Nat.mul_comm ((text.length + 2) ^ height name)]
    apply Nat.mul_lt_mul_of_pos_right
    · simp only [List.length_append, List.length_cons, List.length_nil]; omega
    · exact pow_pos' _ _
  have h4 : (text.length + 2) ^ k ≤ n * (text.length + 2) ^ k := Nat.le_mul_of_pos_left _ hn
  omega

/-- The entities that were read. -/
def Known (text : List Char) (d : Dtd) : Prop :=
  Names d ∧ ∀ e ∈ d.entities, e.type = .parameter → ∀ v, e.content = some v → DeclaresEntity text e.name v

/-- The first reference that is left: what is read instead of it weighs less. -/
theorem Pile.reference {s : List Char} {w : Nat} (h : Pile text height top s w)
    (hh : ∀ name value, DeclaresEntity text name value → ∀ a n b v, value = a ++ '%' :: n ++ ';' :: b → DeclaresEntity text n v → height n < height name)
    (htop : ∀ name value, DeclaresEntity text name value → height name < top) {n r v : List Char} (hs : s = '%' :: n ++ ';' :: r)
    (hw : ∀ c ∈ n, ¬ White c) (hv : DeclaresEntity text n v) : ∃ w', Pile text height top (v ++ ' ' :: r) w' ∧ w' < w := by
  induction h with
  | text ht =>
    rename_i t
    subst hs
    have hr : r <:+ text := List.IsSuffix.trans ⟨'%' :: n ++ [';'], by simp⟩ ht
    have := Pile.value (p := v ++ [' ']) hv (List.suffix_refl _) (Pile.text (height := height) (top := top) hr)
    simp only [List.append_assoc, List.singleton_append] at this
    refine ⟨_, this, ?_⟩
    have h1 := weight_value (n := n.length + 2) hv (htop _ _ hv) (by omega)
    have h2 : ('%' :: n ++ ';' :: r).length = (n.length + 2) + r.length := by simp; omega
    rw [h2, Nat.add_mul]
    omega
  | value hd hp hrest ih =>
    rename_i name value p s w
    cases p with
    | nil =>
      obtain ⟨w', h1, h2⟩ := ih hs
      exact ⟨w', h1, by simp; omega⟩
    | cons c p =>
      simp only [List.cons_append, List.cons.injEq] at hs
      obtain ⟨rfl, hs⟩ := hs
      -- the reference is within the value
      have hsplit : ∃ p', p = n ++ ';' :: p' ∧ r = p' ++ s := by
        rw [List.append_eq_append_iff] at hs
        rcases hs with ⟨x, hx, hx2⟩ | ⟨x, hx, hx2⟩
        · exfalso
          -- the name would have the space
          have hlast : ' ' ∈ p := by
            obtain ⟨y, hy⟩ := hp
            rcases List.eq_nil_or_concat p with rfl | ⟨z, c, rfl⟩
            · have := congrArg List.getLast? hy
              simp at this
            · have := congrArg List.getLast? hy
              rw [List.getLast?_append, List.concat_eq_append, ← List.cons_append, List.getLast?_append] at this
              simp at this
              simp [this]
          exact hw ' ' (by rw [hx]; simp [hlast]) (.inl rfl)
        · cases x with
          | nil =>
            simp only [List.append_nil] at hx
            simp only [List.nil_append] at hx2
            exfalso
            have hlast : ' ' ∈ p := by
              obtain ⟨y, hy⟩ := hp
              rcases List.eq_nil_or_concat p with rfl | ⟨z, c, rfl⟩
              · have := congrArg List.getLast? hy
                simp at this
              · have := congrArg List.getLast? hy
                rw [List.getLast?_append, List.concat_eq_append, ← List.cons_append, List.getLast?_append] at this
                simp at this
                simp [this]
            exact hw ' ' (by rw [← hx]; exact hlast) (.inl rfl)
          | cons y x =>
            simp only [List.cons_append, List.cons.injEq] at hx2
            obtain ⟨rfl, hx2⟩ := hx2
            exact ⟨x, hx, hx2⟩
      obtain ⟨p', rfl, rfl⟩ := hsplit
      have hval : ∃ a b, value = a ++ '%' :: n ++ ';' :: b := by
        obtain ⟨y, hy⟩ := hp
        rcases List.eq_nil_or_concat p' with rfl | ⟨z, c, rfl⟩
        · have := congrArg List.getLast? hy
          rw [List.getLast?_append, List.getLast?_append, ← List.cons_append, List.getLast?_append] at this
          simp at this
        · rw [List.concat_eq_append] at hy
          have e : y ++ '%' :: (n ++ ';' :: (z ++ [c])) = (y ++ '%' :: n ++ ';' :: z) ++ [c] := by simp
          rw [e] at hy
          exact ⟨y, z, (List.append_inj' hy rfl).1.symm⟩
      obtain ⟨a, b, hval⟩ := hval
      have hlt := hh _ _ hd a n b v hval hv
      have hp' : p' <:+ value ++ [' '] := List.IsSuffix.trans ⟨'%' :: n ++ [';'], by simp⟩ hp
      have := Pile.value (p := v ++ [' ']) hv (List.suffix_refl _) (Pile.value hd hp' hrest)
      simp only [List.append_assoc, List.singleton_append] at this
      refine ⟨_, this, ?_⟩
      have h1 := weight_value (n := n.length + 2) hv hlt (by omega)
      have h2 : ('%' :: (n ++ ';' :: p')).length = (n.length + 2) + p'.length := by simp; omega
      rw [h2, Nat.add_mul]
      omega

/-! ### The functions of the parser -/

/-- The entities that the text declares are not recursive and have no markup. -/
structure Fine (text : List Char) (height : List Char → Nat) (top : Nat) : Prop where
  lower : ∀ name value, DeclaresEntity text name value → ∀ a n b v, value = a ++ '%' :: n ++ ';' :: b → DeclaresEntity text n v → height n < height name
  top : ∀ name value, DeclaresEntity text name value → height name < top
  markup : NoMarkup text
  nul : NUL ∉ text

theorem toStr_nul {t : List Char} (h : NUL ∉ t) : toStr t = t := by
  rw [← cstr_eq, cstr]
  induction t with
  | nil => rfl
  | cons c t ih =>
    have hc : c ≠ NUL := fun e => h (by rw [e]; simp)
    rw [List.takeWhile_cons, if_pos (by simpa [NUL] using hc), ih (fun hm => h (List.mem_cons_of_mem _ hm))]

theorem expand_sat {d : Dtd} {s : List Char} {w : Nat} (hf : Fine text height top) (hd : Known text d) (h : Pile text height top s w) :
    (expand d s).Sat fun r => ∃ w', Pile text height top r w' ∧ w' ≤ w := by
  unfold expand
  split
  · exact ⟨w, h, Nat.le_refl _⟩
  · rename_i r hr
    rw [eat_some] at hr
    split
    · trivial
    · rename_i f hg
      obtain ⟨h1, -, h3, -⟩ := getUntil_single (by decide) (by decide) hg
      split
      · exact ⟨w, h, Nat.le_refl _⟩
      · rename_i v hv
        have hnul : NUL ∉ f.text := by
          intro hm
          exact h.nul hf.nul (by rw [hr, h1]; simp [hm])
        rw [toStr_nul hnul] at hv
        unfold Dtd.entityValue Dtd.entity at hv
        rw [Option.bind_eq_some_iff] at hv
        obtain ⟨e, he, hc⟩ := hv
        have hm := List.mem_of_find?_eq_some he
        have hp := List.find?_some he
        simp only [Bool.and_eq_true, decide_eq_true_eq] at hp
        have hn := cmp_true.1 hp.2
        obtain ⟨w', h4, h5⟩ := h.reference hf.lower hf.top (n := f.text) (r := f.after) (v := v) (by rw [hr, h1]; simp)
          (hn ▸ hd.1 e hm) (hn ▸ hd.2 e hm hp.1 v hc)
        exact ⟨w', h4, by omega⟩

theorem Pile.left {s r : List Char} {w : Nat} (h : Pile text height top s w) (hl : Left s r) :
    ∃ v, Pile text height top r v ∧ v + (s.length - r.length) ≤ w := h.suffix hl

theorem Known.of {d d' : Dtd} (h : Known text d) (he : d'.entities = d.entities) : Known text d' := by
  unfold Known Names at h ⊢
  rw [he]
  exact h

theorem attlistLoop_fine (hF : Fine text height top) : ∀ {fuel : Nat} {d : Dtd} {decls : List AttDecl} {s : List Char} {w : Nat},
    Known text d → Pile text height top s w → w < fuel →
    (attlistLoop fuel d decls s).Sat fun x => (∃ w', Pile text height top x.2.2 w' ∧ w' ≤ w) ∧ x.1.entities = d.entities
  | 0, _, _, _, _, _, _, h => by omega
  | fuel + 1, d, decls, s, w, hd, hs, hf => by
    rw [attlistLoop]
    split
    · obtain ⟨v, h1, h2⟩ := hs.left (left_eat ‹_›)
      exact ⟨⟨v, h1, by omega⟩, rfl⟩
    · split
      · trivial
      · rename_i f hg
        have h1 : Left s (skip f.at_) := ((left_skip s).trans (getUntil_suffix hg).1).trans (left_skip _)
        obtain ⟨w1, p1, hw1⟩ := hs.left h1
        have he := expand_sat hF hd p1
        split
        · rename_i s1 hs1
          rw [hs1] at he
          obtain ⟨w2, p2, hw2⟩ := he
          have ht := attType_sat s1
          split
          · rename_i type s2 h2
            rw [h2] at ht
            obtain ⟨ht1, ht2⟩ : Left s1 s2 ∧ s2.length < s1.length := ht
            split
            · trivial
            · rename_i defaults s3 h3
              have h4 := ((left_skip s2).trans (attDefault_left h3)).trans ((left_skip s3).trans (attValue_left (skip s3)))
              generalize attValue (skip s3) = x at h4 ⊢
              obtain ⟨value, s4⟩ := x
              simp only at h4 ⊢
              have hl4 := h4.length
              split
              · trivial
              · split
                · trivial
                · obtain ⟨w3, p3, hw3⟩ := p2.left (ht1.trans h4)
                  have hent : (d.mark type).entities = d.entities := by cases type <;> rfl
                  refine (attlistLoop_fine hF (d := d.mark type) (hd.of hent) p3 (by omega)).imp fun x hx => ?_
                  obtain ⟨⟨w4, p4, hw4⟩, hx2⟩ := hx
                  exact ⟨⟨w4, p4, by omega⟩, by rw [hx2, hent]⟩
          · trivial
          · rename_i h2; rw [h2] at ht; exact ht
          · rename_i h2; rw [h2] at ht; exact ht
        · trivial
        · rename_i h2; rw [h2] at he; exact he
        · rename_i h2; rw [h2] at he; exact he

theorem parseAttlist_fine (hF : Fine text height top) {fuel : Nat} {d : Dtd} {s : List Char} {w : Nat} (hd : Known text d)
    (hs : Pile text height top s w) (hf : w < fuel) :
    (parseAttlist fuel d s).Sat fun x => (∃ w', Pile text height top x.2 w' ∧ w' ≤ w) ∧ x.1.entities = d.entities := by
  unfold parseAttlist
  split
  · trivial
  · rename_i f hg
    have h1 : Left s f.at_ := (left_skip s).trans (getUntil_suffix hg).1
    obtain ⟨w1, p1, hw1⟩ := hs.left h1
    have h := attlistLoop_fine hF (fuel := fuel) (decls := d.declsOf (toStr f.text)) hd p1 (by omega)
    split
    · rename_i h2
      rw [h2] at h
      obtain ⟨⟨w2, p2, hw2⟩, h3⟩ := h
      exact ⟨⟨w2, p2, by omega⟩, h3⟩
    · trivial
    · rename_i h2; rw [h2] at h; exact h
    · rename_i h2; rw [h2] at h; exact h

theorem skip_split (s : List Char) : ∃ g, s = g ++ skip s ∧ ∀ c ∈ g, White c := by
  refine ⟨s.takeWhile isWhite, (List.takeWhile_append_dropWhile ..).symm, fun c hc => ?_⟩
  have : ∀ (l : List Char), c ∈ l.takeWhile isWhite → isWhite c = true := by
    intro l
    induction l with
    | nil => simp
    | cons x l ih =>
      rw [List.takeWhile_cons]
      split
      · intro h
        rcases List.mem_cons.1 h with rfl | h
        · assumption
        · exact ih h
      · simp
  exact (white_iff c).1 (this s hc)

theorem skip_no_white (s : List Char) : match skip s with
    | [] => True
    | c :: _ => ¬ White c := by
  induction s with
  | nil => exact True.intro
  | cons x s ih =>
    unfold skip at ih ⊢
    rw [List.dropWhile_cons]
    by_cases h : isWhite x = true
    · rw [if_pos h]; exact ih
    · rw [if_neg h]
      exact fun hw => h ((white_iff x).2 hw)

theorem matchAt_space {c : Char} {r : List Char} {i n : Nat} (h : matchAt [c!" "] c r = some (i, n)) : White c := by
  unfold matchAt at h
  split at h
  · rename_i hc
    exact (white_iff c).1 (by simpa using hc)
  · rename_i hc
    simp [firstChunk] at h

/-- An entity read from the text is one that the text declares. -/
theorem parseEntity_declares {s s1 : List Char} (hs : s <:+ text) (hn : NUL ∉ text) (h1 : s = c!"<!ENTITY" ++ s1) {s2 : List Char}
    (h2 : entityType s1 = (.parameter, s2)) {f : Found} (hf : getUntil [c!" "] s2 = some f) {v s3 : List Char}
    (h3 : entityContent (skip f.at_) = some (some v, s3)) : DeclaresEntity text (toStr f.text) v := by
  obtain ⟨x, rfl⟩ := hs
  subst h1
  unfold entityType at h2
  split at h2
  · rename_i s1' he
    rw [eat_some] at he
    cases h2
    obtain ⟨g1, e1, w1⟩ := skip_split s1
    obtain ⟨g2, e2, w2⟩ := skip_split s1'
    obtain ⟨c, r, n, a1, a2, ha3, -, -⟩ := getUntil_some hf
    obtain ⟨g3, e3, w3⟩ := skip_split f.at_
    unfold entityContent at h3
    split at h3
    · cases h3
    · split at h3
      · cases h3
      · rcases Parse.quote_spec (s := skip f.at_) with h0 | ⟨q, r', h0, hq, hr'⟩
        · rw [h0] at h3; cases h3
        · rw [h0] at h3
          simp only [Option.some.injEq] at h3
          unfold Parse.attrValue at h3
          split at h3
          · cases h3
          · rename_i k hk
            obtain ⟨b1, b3, -, -⟩ := getUntil_single (mark := [q]) (by rcases hq with rfl | rfl <;> decide) (by simp) hk
            have hall : x ++ (c!"<!ENTITY" ++ s1) = x ++ c!"<!ENTITY" ++ g1 ++ '%' :: g2 ++ f.text ++ g3 ++ q :: k.text ++ q :: k.after := by
              rw [e1, he, e2, a2, ← a1, e3, hr', b1]
              simp
            have hnul : NUL ∉ f.text ∧ NUL ∉ k.text := by
              rw [hall] at hn
              simp only [List.mem_append, List.mem_cons, not_or] at hn
              grind
            simp only [Prod.mk.injEq, Option.some.injEq] at h3
            rw [toStr_nul hnul.2] at h3
            rw [toStr_nul hnul.1]
            obtain ⟨rfl, -⟩ := h3
            refine ⟨x, g1, g2, g3, q, k.after, hall, ?_, ?_, ?_, ?_, getUntil_white hf, w1, w2, w3⟩
            · rcases hq with rfl | rfl
              · exact .inl rfl
              · exact .inr rfl
            · intro hm
              apply b3
              obtain ⟨y, z, e⟩ := List.append_of_mem hm
              exact ⟨y, z, by rw [e]; simp⟩
            · intro hnil
              rw [hnil] at a2
              have hne := skip_no_white s1'
              rw [a2] at hne
              have hm := matchAt_space ha3
              exact hne hm
            · rintro rfl
              have hne := skip_no_white f.at_
              rw [List.nil_append] at e3
              rw [← e3, a1] at hne
              exact hne (matchAt_space ha3)
  · cases h2

theorem parseEntity_fine (hF : Fine text height top) {d : Dtd} {s : List Char} {w : Nat} (hd : Known text d) (hs : Pile text height top s w) :
    (parseEntity d s).Sat fun x => (∃ w', Pile text height top x.2 w' ∧ w' < w) ∧ Known text x.1 := by
  have hsat := parseEntity_sat hd.1 s
  unfold parseEntity at hsat ⊢
  cases h1 : eat (skip s) c!"<!ENTITY" with
  | none => trivial
  | some s1 =>
    rw [h1] at hsat
    rw [eat_some] at h1
    obtain ⟨w0, p0, -⟩ := hs.left (left_skip s)
    have hsub := p0.markup hF.markup (r := c!"!ENTITY" ++ s1) (by rw [h1]; rfl)
    cases h2 : entityType s1 with
    | mk type s2 =>
      simp only [h2] at hsat ⊢
      cases hf : getUntil [c!" "] s2 with
      | none => trivial
      | some f =>
        rw [hf] at hsat
        simp only at hsat ⊢
        cases h3 : entityContent (skip f.at_) with
        | none => trivial
        | some x =>
          obtain ⟨content, s3⟩ := x
          rw [h3] at hsat
          simp only at hsat ⊢
          cases h4 : eat (skip s3) c!">" with
          | none => trivial
          | some s4 =>
            rw [h4] at hsat
            obtain ⟨a1, a2, a3⟩ := hsat
            simp only at a1 a2 a3
            obtain ⟨w', p', hw'⟩ := hs.left a1
            refine ⟨⟨w', p', by omega⟩, a3, ?_⟩
            intro e he ht v hv
            simp only [List.mem_append, List.mem_singleton] at he
            rcases he with he | rfl
            · exact hd.2 e he ht v hv
            · simp only at ht hv
              subst ht hv
              exact parseEntity_declares hsub hF.nul h1 h2 hf h3

theorem declaration_fine (hF : Fine text height top) {fuel : Nat} {d : Dtd} {s : List Char} {w : Nat} (hd : Known text d)
    (hs : Pile text height top s w) (hf : w < fuel) {x : Res (Dtd × List Char)} (h : declaration fuel d s = some x) :
    x.Sat fun x => (∃ w', Pile text height top x.2 w' ∧ w' < w) ∧ Known text x.1 := by
  unfold declaration at h
  split at h
  · cases h
    refine (parseElement_sat d s).imp fun x hx => ?_
    obtain ⟨w', p', hw'⟩ := hs.left hx.1
    have := hx.2.1
    exact ⟨⟨w', p', by omega⟩, hd.of hx.2.2⟩
  · split at h
    · rename_i s1 h1
      cases h
      have hl := (eat_suffix h1).2
      simp only [List.length_cons, List.length_nil] at hl
      obtain ⟨w1, p1, hw1⟩ := hs.left (left_eat' h1)
      refine (parseAttlist_fine hF hd p1 (by omega)).imp fun x hx => ?_
      obtain ⟨⟨w2, p2, hw2⟩, hx2⟩ := hx
      exact ⟨⟨w2, p2, by omega⟩, hd.of hx2⟩
    · split at h
      · cases h
        exact parseEntity_fine hF hd hs
      · cases h

theorem parseLoop_fine (hF : Fine text height top) {fuel : Nat} : ∀ {k it : Nat} {d : Dtd} {s : List Char} {w : Nat}, Known text d →
    Pile text height top s w → w < fuel → it ≤ 3 → w + (3 - it) + 1 < k → (parseLoop fuel k it d s).Sat fun _ => True
  | 0, _, _, _, _, _, _, _, _, h => by omega
  | k + 1, it, d, s, w, hd, hs, hf, hit, hk => by
    rw [parseLoop]
    split
    · trivial
    · have hc := dtdComments_sat s
      split
      · rename_i s1 h1
        rw [h1] at hc
        obtain ⟨w1, p1, hw1⟩ := hs.left hc
        have hx := fun x (h : declaration fuel d s1 = some x) => declaration_fine hF hd p1 (by omega) h
        split
        · split
          · trivial
          · exact parseLoop_fine hF hd p1 (by omega) (by omega) (by omega)
        · rename_i h2
          obtain ⟨⟨w2, p2, hw2⟩, h5⟩ := hx _ h2
          exact parseLoop_fine hF h5 p2 (by omega) hit (by omega)
        · trivial
        · rename_i h2; exact hx _ h2
        · rename_i h2; exact hx _ h2
      · trivial
      · rename_i h2; rw [h2] at hc; exact hc
      · rename_i h2; rw [h2] at hc; exact hc

/-! ### The whole -/

/-- The names are pieces of the text, so that the heights have a bound. -/
theorem exists_top (height : List Char → Nat) (text : List Char) : ∃ top, ∀ name value, DeclaresEntity text name value → height name < top := by
  have hb : ∀ l : List (List Char), ∃ N, ∀ x ∈ l, height x < N := by
    intro l
    induction l with
    | nil => exact ⟨0, by simp⟩
    | cons x l ih =>
      obtain ⟨N, h⟩ := ih
      refine ⟨height x + N + 1, fun y hy => ?_⟩
      rcases List.mem_cons.1 hy with rfl | hy
      · omega
      · have := h y hy; omega
  obtain ⟨N, hN⟩ := hb ((List.range (text.length + 1)).flatMap fun i => (List.range (text.length + 1)).map fun j => (text.drop i).take j)
  refine ⟨N, fun name value hd => hN name ?_⟩
  obtain ⟨a, g1, g2, g3, q, b, ht, -⟩ := hd
  rw [List.mem_flatMap]
  refine ⟨(a ++ c!"<!ENTITY" ++ g1 ++ '%' :: g2).length, ?_, ?_⟩
  · rw [List.mem_range, ht]; simp; omega
  · rw [List.mem_map]
    refine ⟨name.length, ?_, ?_⟩
    · rw [List.mem_range, ht]; simp; omega
    · have e : text = (a ++ c!"<!ENTITY" ++ g1 ++ '%' :: g2) ++ (name ++ (g3 ++ q :: value ++ q :: b)) := by rw [ht]; simp
      rw [e, List.drop_left, List.take_left]

/-- It ends for the texts whose parameter entities are not recursive and have no markup in their values and whose elements are not
within themselves. -/
theorem parse_ends_entities (hnul : NUL ∉ text) (hrec : NotRecursive text) (hmark : NoMarkup text)
    (hac : ∀ fuel d, declarations fuel text = .ok d → Acyclic d.elements) : ∃ N, ∀ fuel, N ≤ fuel → parse fuel text ≠ .loop := by
  obtain ⟨height, hlow⟩ := hrec
  obtain ⟨top, htop⟩ := exists_top height text
  have hF : Fine text height top := ⟨hlow, htop, hmark, hnul⟩
  have h0 : ∃ M, declarations M text ≠ .loop := by
    refine ⟨text.length * (text.length + 2) ^ top + 1, fun hl => ?_⟩
    have := parseLoop_fine hF (fuel := text.length * (text.length + 2) ^ top + 1) (k := text.length * (text.length + 2) ^ top + 1 + 5) (it := 0) (d := Dtd.new)
      ⟨(by intro e he; cases he), (by intro e he; cases he)⟩ (.text (List.suffix_refl text)) (by omega) (by omega) (by omega)
    unfold declarations at hl
    rw [hl] at this
    exact this
  obtain ⟨M, h0⟩ := h0
  cases hr : declarations M text with
  | ok d =>
    obtain ⟨N, hN⟩ := conclude_ends (hac _ d hr)
    refine ⟨N + M, fun fuel hf => ?_⟩
    unfold parse
    rw [declarations_mono (by omega) h0, hr]
    exact hN d fuel rfl (by omega)
  | error =>
    refine ⟨M, fun fuel hf => ?_⟩
    unfold parse
    rw [declarations_mono (by omega) h0, hr]
    simp
  | ub =>
    refine ⟨M, fun fuel hf => ?_⟩
    unfold parse
    rw [declarations_mono (by omega) h0, hr]
    simp
  | loop => exact absurd hr h0

/-! ### A check for the declarations of a text -/

/-- The entity declared at the beginning. -/
def entityAt (s : List Char) : Option (List Char × List Char) :=
  match eat s c!"<!ENTITY" with
  | none => none
  | some s =>
    match eat (skip s) c!"%" with
    | none => none
    | some s =>
      match skip ((skip s).dropWhile fun c => !isWhite c) with
      | [] => none
      | q :: r => if q = '"' ∨ q = '\'' then some ((skip s).takeWhile fun c => !isWhite c, r.takeWhile fun c => decide (c ≠ q)) else none

/-- What is left at each place. -/
def places : List Char → List (List Char)
  | [] => [[]]
  | c :: s => (c :: s) :: places s

theorem mem_places : ∀ (a s : List Char), s ∈ places (a ++ s)
  | [], [] => by simp [places]
  | [], c :: s => by simp [places]
  | x :: a, s => by simp [places, mem_places a s]

/-- The entities that a text declares. -/
def entitiesOf (text : List Char) : List (List Char × List Char) := (places text).filterMap entityAt

theorem takeWhile_stop {p : Char → Bool} {a b : List Char} (ha : ∀ c ∈ a, p c = true) (hb : match b with | [] => True | c :: _ => p c = false) :
    (a ++ b).takeWhile p = a ∧ (a ++ b).dropWhile p = b := by
  induction a with
  | nil =>
    cases b with
    | nil => exact ⟨rfl, rfl⟩
    | cons c b =>
      simp only at hb
      simp [hb]
  | cons x a ih =>
    have hx := ha x (by simp)
    obtain ⟨h1, h2⟩ := ih (fun c hc => ha c (List.mem_cons_of_mem _ hc))
    simp [hx, h1, h2]

theorem skip_stop {a b : List Char} (ha : ∀ c ∈ a, White c) (hb : match b with | [] => True | c :: _ => ¬ White c) : skip (a ++ b) = b := by
  unfold skip
  refine (takeWhile_stop (fun c hc => (white_iff c).2 (ha c hc)) ?_).2
  cases b with
  | nil => exact True.intro
  | cons c b =>
    simp only at hb ⊢
    cases h : isWhite c with
    | false => rfl
    | true => exact absurd ((white_iff c).1 h) hb

theorem declares_mem {name value : List Char} (h : DeclaresEntity text name value) : (name, value) ∈ entitiesOf text := by
  obtain ⟨a, g1, g2, g3, q, b, ht, hq, hv, hn, hg, hw, w1, w2, w3⟩ := h
  have e : text = a ++ (c!"<!ENTITY" ++ (g1 ++ ('%' :: (g2 ++ (name ++ (g3 ++ (q :: (value ++ q :: b)))))))) := by rw [ht]; simp
  unfold entitiesOf
  rw [List.mem_filterMap]
  refine ⟨_, by rw [e]; exact mem_places a _, ?_⟩
  unfold entityAt
  have e1 : ∀ x y : List Char, eat (x ++ y) x = some y := fun x y => eat_some.2 rfl
  have hqw : ¬ White q := by rcases hq with rfl | rfl <;> (unfold White; decide)
  obtain ⟨n0, name', rfl⟩ : ∃ c t, name = c :: t := by cases name with
    | nil => exact absurd rfl hn
    | cons c t => exact ⟨c, t, rfl⟩
  obtain ⟨w0, g3', rfl⟩ : ∃ c t, g3 = c :: t := by cases g3 with
    | nil => exact absurd rfl hg
    | cons c t => exact ⟨c, t, rfl⟩
  rw [e1]
  simp only
  rw [skip_stop w1 (by simp only; unfold White; decide), show ('%' :: (g2 ++ ((n0 :: name') ++ ((w0 :: g3') ++ (q :: (value ++ q :: b)))))) =
    c!"%" ++ (g2 ++ ((n0 :: name') ++ ((w0 :: g3') ++ (q :: (value ++ q :: b))))) from rfl, e1]
  simp only
  rw [skip_stop w2 (by simp only [List.cons_append]; exact hw n0 (by simp))]
  obtain ⟨t1, t2⟩ := takeWhile_stop (p := fun c => !isWhite c) (a := n0 :: name') (b := (w0 :: g3') ++ (q :: (value ++ q :: b)))
    (fun c hc => by
      have := hw c hc
      cases h : isWhite c with
      | false => rfl
      | true => exact absurd ((white_iff c).1 h) this)
    (by simp [(white_iff w0).2 (w3 w0 (by simp))])
  rw [t1, t2, skip_stop w3 (by simp only; exact hqw)]
  simp only
  rw [if_pos hq, (takeWhile_stop (p := fun c => decide (c ≠ q)) (a := value) (b := q :: b) (fun c hc => by
    have : c ≠ q := fun e => hv (e ▸ hc)
    simpa using this) (by simp)).1]

/-- The value has a reference to the entity. -/
def refersTo (n value : List Char) : Bool := (places value).any fun s => ('%' :: n ++ [';']).isPrefixOf s

theorem notRecursive_of_check {height : List Char → Nat}
    (h : ∀ x ∈ entitiesOf text, ∀ y ∈ entitiesOf text, refersTo y.1 x.2 = true → height y.1 < height x.1) : NotRecursive text := by
  refine ⟨height, fun name value hd a n b v hval hn => h _ (declares_mem hd) _ (declares_mem hn) ?_⟩
  simp only
  unfold refersTo
  rw [List.any_eq_true]
  refine ⟨'%' :: n ++ ';' :: b, ?_, ?_⟩
  · rw [hval, List.append_assoc]; exact mem_places a _
  · rw [List.isPrefixOf_iff_prefix]
    exact ⟨b, by simp⟩

theorem noMarkup_of_check (h : ∀ x ∈ entitiesOf text, '<' ∉ x.2) : NoMarkup text := fun _ _ hd => h _ (declares_mem hd)

end Axl.Dtd
