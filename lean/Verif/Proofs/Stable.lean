/-
What is read can be written and read again.
-/
import Verif.Spec.Stable
import Verif.Proofs.Source

namespace Axl
namespace Parse
open Str Stream Spec.Xml Spec.RoundTrip Spec.Source Spec.Dump

theorem upTo_padded {t : List Char} (h : UpTo c!"-->" t) : UpTo c!"-->" (padded t) := by
  unfold UpTo at h ⊢
  intro hi
  apply h
  unfold padded at hi
  have e : c!"-->" = ['-', '-', '>'] := rfl
  rw [e] at hi ⊢
  simp only [List.dropLast] at hi ⊢
  -- the blank before
  have front : ∀ l : List Char, ['-', '-', '>'] <:+: (if t.head? = some ' ' then [] else [' ']) ++ l → ['-', '-', '>'] <:+: l := by
    intro l hl
    split at hl
    · exact hl
    · rw [List.singleton_append, List.infix_cons_iff] at hl
      rcases hl with hl | hl
      · exfalso
        rw [List.cons_prefix_cons] at hl
        exact absurd hl.1 (by decide)
      · exact hl
  rw [List.append_assoc, List.append_assoc] at hi
  have hi := front _ hi
  split at hi
  · simpa using hi
  · obtain ⟨p, q, hpq⟩ := hi
    have hpq : p ++ (['-', '-', '>'] ++ q) = t ++ [' ', '-', '-'] := by simpa using hpq
    rw [List.append_eq_append_iff] at hpq
    rcases hpq with ⟨u, h1, h2⟩ | ⟨u, h1, h2⟩
    · -- the mark begins in the text
      rw [List.append_eq_append_iff] at h2
      rcases h2 with ⟨w, h3, h4⟩ | ⟨w, h3, h4⟩
      · exact ⟨p, w ++ ['-', '-'], by rw [h1, h3]; simp⟩
      · match u, h3, h1 with
        | [], h3, _ => exfalso; simp at h3; rw [← h3] at h4; simp at h4
        | [_], h3, _ => exfalso; simp at h3; rw [← h3.2] at h4; simp at h4
        | [_, _], h3, _ => exfalso; simp at h3; rw [← h3.2.2] at h4; simp at h4
        | [_, _, _], h3, h1 =>
          simp at h3
          obtain ⟨rfl, rfl, rfl, _⟩ := h3
          exact ⟨p, ['-', '-'], by rw [h1]⟩
        | _ :: _ :: _ :: _ :: _, h3, _ => exfalso; simp at h3
    · exfalso
      match u, h2 with
      | [], h2 => simp at h2
      | [_], h2 => simp at h2
      | [_, _], h2 => simp at h2
      | [_, _, _], h2 => simp at h2
      | _ :: _ :: _ :: _ :: _, h2 =>
        have := congrArg List.length h2
        simp at this

theorem dropWhile_head {t : List Char} {p : Char → Bool} : ∀ c ∈ (t.dropWhile p).head?, p c = false := by
  induction t with
  | nil => simp
  | cons a t ih =>
    rw [List.dropWhile_cons]
    split
    · exact ih
    · intro c hc
      simp only [List.head?_cons, Option.mem_def, Option.some.injEq] at hc
      subst hc
      rename_i hh
      exact Bool.eq_false_iff.2 hh

theorem dropWhile_nil {t : List Char} (h : t.dropWhile (fun c => decide (White c)) = []) : ∀ c ∈ t, White c := by
  induction t with
  | nil => simp
  | cons a t ih =>
    rw [List.dropWhile_cons] at h
    split at h
    · rename_i ha
      intro c hc
      rcases List.mem_cons.1 hc with rfl | hc
      · simpa using ha
      · exact ih h c hc
    · cases h

/-- The text that is kept can be written. -/
theorem shown_fine {after : Bool} {t u : List Char} (hs : shown false after t = some u) (h1 : '<' ∉ t) (h2 : Char.ofNat 0 ∉ t) :
    FineLeaf (.content u) ∧ (after = true → ∀ c ∈ u.head?, ¬ White c) := by
  unfold shown at hs
  cases after with
  | false =>
    simp only [Bool.false_eq_true, if_false, and_true] at hs
    split at hs
    · cases hs
    · cases hs
      exact ⟨⟨by assumption, h1, h2⟩, by simp⟩
  | true =>
    simp only [if_true] at hs
    split at hs
    · cases hs
    · rename_i hb
      cases hs
      have hsuf : t.dropWhile (fun c => decide (White c)) <:+ t := List.dropWhile_suffix _
      have hhead : ∀ c ∈ (t.dropWhile fun c => decide (White c)).head?, ¬ White c := by
        intro c hc
        have := dropWhile_head c hc
        simpa using this
      refine ⟨⟨?_, fun h => h1 (hsuf.subset h), fun h => h2 (hsuf.subset h)⟩, fun _ => hhead⟩
      intro hbl
      cases hd : t.dropWhile (fun c => decide (White c)) with
      | nil =>
        apply hb
        intro c hc
        exact dropWhile_nil hd c hc
      | cons c r =>
        rw [hd] at hbl hhead
        exact hhead c (by simp) (hbl c (by simp))

theorem holds_fine {a : Attrs} {as : List Attribute} (h : Holds a as) (hv : ValidAttrs as) (hp : ¬ asksPreserve as) :
    ∀ n v, a.getValue n = some (some v) → FineAttr n v := by
  intro n v hnv
  have hm := (h.2.mem n v).2 hnv
  obtain ⟨x, hx, he⟩ := List.mem_map.1 hm
  cases he
  have hx' := hv.1 x hx
  refine ⟨hx'.name, ⟨hx'.value.2, ?_⟩, ?_⟩
  · rintro ⟨g1, g2⟩
    rcases hx'.quote with hq | hq <;> exact hx'.value.1 (by rw [hq]; assumption)
  · intro hn
    rcases hx'.space hn with h' | h'
    · exact absurd ⟨x, hx, hn, h'⟩ hp
    · exact h'

/-- What is before a text, in the source and in the tree. -/
def Agree (after : Bool) (b : Before) (c : Parts) : Prop :=
  (b = .misc → after = true) ∧ (b = .text → ¬ isText c)

theorem means_blocks : ∀ (c : Parts) (after : Bool) (i : Items), MeansParts false after c i → hasBlocks i → hasMarks c
  | .nil, _, i, h, hb => by
    simp only [MeansParts] at h; subst h; exact hb
  | .text t next, after, i, h, hb => by
    simp only [MeansParts] at h
    split at h
    · obtain ⟨j, rfl, h⟩ := h
      exact means_blocks next _ _ h (hb.resolve_left id)
    · exact means_blocks next _ _ h hb
  | .comment _ _, _, _, _, _ => trivial
  | .pi _ _ _, _, _, _, _ => trivial
  | .cdata _ next, _, i, h, hb => by
    simp only [MeansParts] at h
    obtain ⟨j, rfl, h⟩ := h
    exact means_blocks next _ _ h (hb.resolve_left id)
  | .element _ _, _, _, _, _ => trivial

theorem means_noContent : ∀ (c : Parts) (after : Bool) (i : Items), MeansParts false after c i → noTexts c → NoContent i
  | .nil, _, i, h, _ => by
    simp only [MeansParts] at h; subst h; trivial
  | .text t next, after, i, h, hn => by
    have hs : shown false after t = none := by
      unfold shown
      cases after <;> simp [hn.1]
    simp only [MeansParts, hs] at h
    exact means_noContent next _ _ h hn.2
  | .comment _ next, _, i, h, hn => by
    simp only [MeansParts] at h
    obtain ⟨j, rfl, h⟩ := h
    have := means_noContent next _ _ h hn
    exact this
  | .pi _ _ next, _, i, h, hn => by
    simp only [MeansParts] at h
    obtain ⟨j, rfl, h⟩ := h
    have := means_noContent next _ _ h hn
    exact this
  | .cdata _ next, _, i, h, hn => by
    simp only [MeansParts] at h
    obtain ⟨j, rfl, h⟩ := h
    have := means_noContent next _ _ h hn
    exact this
  | .element _ next, _, i, h, hn => by
    simp only [MeansParts] at h
    obtain ⟨n, j, rfl, _, h⟩ := h
    have := means_noContent next _ _ h hn
    exact this

theorem holds_bare {a : Attrs} {as : List Attribute} (h : Holds a as) (hb : Bare a) : as = [] := by
  cases as with
  | nil => rfl
  | cons x as => exact absurd ((h.2.mem x.name x.value).1 (by simp)) (hb x.name x.value)

/-- The first item read is a text that begins with `/>` if the content does. -/
theorem means_slash : ∀ {c : Parts} {i : Items}, c.Valid → MeansParts false false c i → SlashFirst i → c!"/>" <+: c.chars
  | .nil, i, _, hm, hs => by simp only [MeansParts] at hm; subst hm; exact hs.elim
  | .text t next, i, hv, hm, hs => by
    simp only [MeansParts] at hm
    split at hm
    · rename_i u hu
      obtain ⟨j, rfl, hm⟩ := hm
      have : u = t := by
        unfold shown at hu
        rw [if_neg (by decide)] at hu
        split at hu
        · cases hu
        · cases hu; rfl
      subst this
      exact List.IsPrefix.trans hs (List.prefix_append _ _)
    · match next, hv.2.2.2.1, hm with
      | .nil, _, hm => simp only [MeansParts] at hm; subst hm; exact hs.elim
      | .text _ _, h, _ => exact absurd trivial h
      | .comment _ _, _, hm => simp only [MeansParts] at hm; obtain ⟨_, rfl, _⟩ := hm; exact hs.elim
      | .pi _ _ _, _, hm => simp only [MeansParts] at hm; obtain ⟨_, rfl, _⟩ := hm; exact hs.elim
      | .cdata _ _, _, hm => simp only [MeansParts] at hm; obtain ⟨_, rfl, _⟩ := hm; exact hs.elim
      | .element _ _, _, hm => simp only [MeansParts] at hm; obtain ⟨_, _, rfl, _⟩ := hm; exact hs.elim
  | .comment _ _, _, _, hm, hs => by simp only [MeansParts] at hm; obtain ⟨_, rfl, _⟩ := hm; exact hs.elim
  | .pi _ _ _, _, _, hm, hs => by simp only [MeansParts] at hm; obtain ⟨_, rfl, _⟩ := hm; exact hs.elim
  | .cdata _ _, _, _, hm, hs => by simp only [MeansParts] at hm; obtain ⟨_, rfl, _⟩ := hm; exact hs.elim
  | .element _ _, _, _, hm, hs => by simp only [MeansParts] at hm; obtain ⟨_, _, rfl, _⟩ := hm; exact hs.elim

mutual
/-- The node read from an element can be written. -/
theorem means_fine (y : Layout) : ∀ (e : Element) (n : Node), e.Valid → NoPreserve e → FullInstructions e → NoSlash e →
    (y = .plain ∨ Unmixed e) → Means false e n → Fine y n
  | .empty name as gap, .mk n a i, hv, hp, _, _, _, hm => by
    obtain ⟨h1, h2, h3⟩ := hm
    simp only [Node.name, Node.attrs, Node.items] at h1 h2 h3
    subst h1 h3
    exact ⟨hv.1, h2.1, holds_fine h2 hv.2.1 hp, Or.inr fun h => h.elim, fun h => h.2.elim, trivial⟩
  | .pair name as gap c ge, .mk n a i, hv, hp, hf, hns, hy, hm => by
    obtain ⟨h1, h2, h3⟩ := hm
    simp only [Node.name, Node.attrs, Node.items] at h1 h2 h3
    subst h1
    rw [keeps_off hp.1] at h3
    refine ⟨hv.1, h2.1, holds_fine h2 hv.2.1 hp.1, ?_, fun h => hns.1 ⟨holds_bare h2 h.1, means_slash hv.2.2.2.1 h3 h.2⟩,
      means_fineParts y c false .other i hv.2.2.2.1 hp.2 hf hns.2 (hy.imp id (·.2)) ⟨by simp, by simp⟩ h3⟩
    rcases hy with hy | hy
    · exact Or.inl hy
    · exact Or.inr fun hb => means_noContent c _ _ h3 (hy.1 (means_blocks c _ _ h3 hb))
theorem means_fineParts (y : Layout) : ∀ (c : Parts) (after : Bool) (b : Before) (i : Items), c.Valid → NoPreserveParts c →
    FullInstructionsParts c → NoSlashParts c → (y = .plain ∨ UnmixedParts c) → Agree after b c → MeansParts false after c i → FineItems y b i
  | .nil, _, b, i, _, _, _, _, _, _, hm => by
    simp only [MeansParts] at hm; subst hm; cases b <;> trivial
  | .text t next, after, b, i, hv, hp, hf, hns, hy, ha, hm => by
    simp only [MeansParts] at hm
    obtain ⟨hv1, hv2, hv3, hv4, hv5⟩ := hv
    split at hm
    · rename_i u hu
      obtain ⟨j, rfl, hm⟩ := hm
      obtain ⟨g1, g2⟩ := shown_fine hu hv2 hv3
      refine ⟨g1, ?_, means_fineParts y next false .text j hv5 hp hf hns hy ⟨by simp, fun _ => hv4⟩ hm⟩
      cases b with
      | text => exact absurd trivial (ha.2 rfl)
      | misc => exact g2 (ha.1 rfl)
      | other => trivial
    · -- nothing was kept of the text: what is next is not a text
      have : ∀ b, FineItems y .other i → FineItems y b i ∨ isText next := by
        intro b h
        match next, i, hm, h with
        | _, .nil, _, _ => left; cases b <;> trivial
        | _, .node _ _, _, h => left; exact h
        | .text _ _, _, _, _ => right; trivial
        | .nil, .leaf _ _, hm, _ => simp only [MeansParts] at hm; cases hm
        | .comment _ _, .leaf l j, hm, h =>
          simp only [MeansParts] at hm
          obtain ⟨_, hm, _⟩ := hm
          cases hm
          left; exact ⟨h.1, by cases b <;> trivial, h.2.2⟩
        | .pi _ _ _, .leaf l j, hm, h =>
          simp only [MeansParts] at hm
          obtain ⟨_, hm, _⟩ := hm
          cases hm
          left; exact ⟨h.1, by cases b <;> trivial, h.2.2⟩
        | .cdata _ _, .leaf l j, hm, h =>
          simp only [MeansParts] at hm
          obtain ⟨_, hm, _⟩ := hm
          cases hm
          left; exact ⟨h.1, by cases b <;> trivial, h.2.2⟩
        | .element _ _, .leaf l j, hm, _ =>
          simp only [MeansParts] at hm
          obtain ⟨_, _, hm, _⟩ := hm
          cases hm
      have h := means_fineParts y next false .other i hv5 hp hf hns hy ⟨by simp, by simp⟩ hm
      exact (this b h).resolve_right hv4
  | .comment t next, after, b, i, hv, hp, hf, hns, hy, ha, hm => by
    simp only [MeansParts] at hm
    obtain ⟨j, rfl, hm⟩ := hm
    exact ⟨⟨hv.1, upTo_padded hv.2.1⟩, by cases b <;> trivial,
      means_fineParts y next true .misc j hv.2.2 hp hf hns hy ⟨by simp, by simp⟩ hm⟩
  | .pi t p next, after, b, i, hv, hp, hf, hns, hy, ha, hm => by
    simp only [MeansParts] at hm
    obtain ⟨j, rfl, hm⟩ := hm
    exact ⟨hf.1, by cases b <;> trivial,
      means_fineParts y next true .misc j hv.2 hp hf.2 hns hy ⟨by simp, by simp⟩ hm⟩
  | .cdata t next, after, b, i, hv, hp, hf, hns, hy, ha, hm => by
    simp only [MeansParts] at hm
    obtain ⟨j, rfl, hm⟩ := hm
    exact ⟨⟨hv.1, hv.2.1⟩, by cases b <;> trivial,
      means_fineParts y next false .other j hv.2.2 hp hf hns hy ⟨by simp, by simp⟩ hm⟩
  | .element e next, after, b, i, hv, hp, hf, hns, hy, ha, hm => by
    simp only [MeansParts] at hm
    obtain ⟨n, j, rfl, hn, hm⟩ := hm
    exact ⟨means_fine y e n hv.1 hp.1 hf.1 hns.1 (hy.imp id (·.1)) hn,
      means_fineParts y next false .other j hv.2 hp.2 hf.2 hns.2 (hy.imp id (·.2)) ⟨by simp, by simp⟩ hm⟩
end

/-- The encoding in a declaration can be written. -/
theorem prolog_encoding {prolog : List Char} {en : Option (List Char)} {a : Bool} {pis : List PI}
    (hp : Spec.Source.Prolog prolog en a pis) : ∀ e ∈ en, '"' ∉ e ∧ '\'' ∉ e ∧ Char.ofNat 0 ∉ e := by
  have decl : ∀ {x : List Char} {en : Option (List Char)} {a : Bool}, Spec.Source.Decl x en a →
      ∀ e ∈ en, '"' ∉ e ∧ '\'' ∉ e ∧ Char.ofNat 0 ∉ e := by
    intro x en a h e he
    cases h with
    | mk _ _ _ henc =>
      cases henc with
      | none => cases he
      | some _ _ _ h1 h2 h3 => cases he; exact ⟨h1, h2, h3⟩
  cases hp with
  | bare => intro e he; cases he
  | bareType => intro e he; cases he
  | decl h => exact decl h
  | declType h => exact decl h

/-! ### The second text -/

mutual
/-- The attributes of all the nodes were made through the API. -/
def AllMade : Node → Prop
  | .mk _ a i => a.Made ∧ AllMadeItems i
def AllMadeItems : Items → Prop
  | .nil => True
  | .node n next => AllMade n ∧ AllMadeItems next
  | .leaf _ next => AllMadeItems next
end

theorem allMade_leaves {i : Items} (h : AllMadeItems i) : ∀ ls, AllMadeItems (leaves ls i)
  | [] => h
  | _ :: ls => allMade_leaves h ls

theorem element_made {t : List Char} {n : Node} (h : Spec.Xml.Element t n) : AllMade n :=
  Spec.Xml.Element.rec (motive_1 := fun _ n _ => AllMade n) (motive_2 := fun _ i _ => AllMadeItems i)
    (fun _ ha => ⟨ha.2.1, trivial⟩)
    (fun _ ha _ _ hc => ⟨ha.2.1, hc⟩)
    trivial
    (fun _ _ hc => allMade_leaves hc _)
    (fun _ _ _ hc => hc)
    (fun _ _ hc => hc)
    (fun {_ _ _ _ ls n items} _ _ _ _ he hc =>
      have : AllMadeItems (.node n items) := ⟨he, hc⟩
      allMade_leaves this ls) h

mutual
/-- No node has more than ten attributes. -/
def AllFew : Node → Prop
  | .mk _ a i => (∃ k ≤ 10, a.numAttributes = some k) ∧ AllFewItems i
def AllFewItems : Items → Prop
  | .nil => True
  | .node n next => AllFew n ∧ AllFewItems next
  | .leaf _ next => AllFewItems next
end

mutual
theorem means_few : ∀ (e : Element) (n : Node), FewAttributes e → NoPreserve e → Means false e n → AllFew n
  | .empty name as gap, .mk n a i, hf, _, hm => by
    obtain ⟨_, h2, h3⟩ := hm
    simp only [Node.attrs, Node.items] at h2 h3
    subst h3
    exact ⟨⟨_, by rw [List.length_map]; exact hf, h2.2.num⟩, trivial⟩
  | .pair name as gap c ge, .mk n a i, hf, hp, hm => by
    obtain ⟨_, h2, h3⟩ := hm
    simp only [Node.attrs, Node.items] at h2 h3
    rw [keeps_off hp.1] at h3
    exact ⟨⟨_, by simpa using hf.1, h2.2.num⟩, means_fewParts c _ i hf.2 hp.2 h3⟩
theorem means_fewParts : ∀ (c : Parts) (after : Bool) (i : Items), FewAttributesParts c → NoPreserveParts c →
    MeansParts false after c i → AllFewItems i
  | .nil, _, i, _, _, hm => by simp only [MeansParts] at hm; subst hm; trivial
  | .text t next, after, i, hf, hp, hm => by
    simp only [MeansParts] at hm
    split at hm
    · obtain ⟨j, rfl, hm⟩ := hm
      have := means_fewParts next _ _ hf hp hm
      exact this
    · exact means_fewParts next _ _ hf hp hm
  | .comment _ next, _, i, hf, hp, hm => by
    simp only [MeansParts] at hm
    obtain ⟨j, rfl, hm⟩ := hm
    have := means_fewParts next _ _ hf hp hm
    exact this
  | .pi _ _ next, _, i, hf, hp, hm => by
    simp only [MeansParts] at hm
    obtain ⟨j, rfl, hm⟩ := hm
    have := means_fewParts next _ _ hf hp hm
    exact this
  | .cdata _ next, _, i, hf, hp, hm => by
    simp only [MeansParts] at hm
    obtain ⟨j, rfl, hm⟩ := hm
    have := means_fewParts next _ _ hf hp hm
    exact this
  | .element e next, _, i, hf, hp, hm => by
    simp only [MeansParts] at hm
    obtain ⟨n, j, rfl, hn, hm⟩ := hm
    exact ⟨means_few e n hf.1 hp.1 hn, means_fewParts next _ _ hf.2 hp.2 hm⟩
end

/-- The same attributes, not more than ten, are written in the same way. -/
theorem written_same {a a' : Attrs} (h : a.Made) (h' : a'.Made) (hs : SameAttrs a a') (hf : ∃ k ≤ 10, a.numAttributes = some k) :
    Dump.written a' = Dump.written a := by
  obtain ⟨ps, hr⟩ := Dump.made_rep h
  obtain ⟨ps', hr'⟩ := Dump.made_rep h'
  obtain ⟨k, hk, hn⟩ := hf
  have hn' := hs.2.1.trans hn
  have h1 := hs.2.2 k hk hn
  rw [(Attrs.rep_num hr).1] at hn
  rw [(Attrs.rep_num hr').1] at hn'
  cases hn
  rw [foreach_written hr hk, foreach_written hr' (by simp only [Option.some.injEq] at hn'; omega)] at h1
  simp only [Option.some.injEq] at h1
  have inj : ∀ {l l' : List (List Char × List Char)}, l.map (fun p => (p.1, some p.2)) = l'.map (fun p => (p.1, some p.2)) → l = l' := by
    intro l
    induction l with
    | nil => intro l' h; cases l' <;> simp_all
    | cons p l ih =>
      intro l' h
      cases l' with
      | nil => simp at h
      | cons q l' =>
        simp only [List.map_cons, List.cons.injEq, Prod.mk.injEq, Option.some.injEq] at h
        rw [ih h.2, Prod.ext h.1.1 h.1.2]
  have := congrArg List.reverse (inj h1)
  simpa using this

theorem padded_head {s : List Char} (h : s ≠ []) : (padded s).head? = some ' ' ∧ (padded s).getLast? = some ' ' := by
  unfold padded
  constructor
  · by_cases hh : s.head? = some ' '
    · rw [if_pos hh]
      cases s with
      | nil => exact absurd rfl h
      | cons c s => simpa using hh
    · rw [if_neg hh]; rfl
  · by_cases hh : s.getLast? = some ' '
    · rw [if_pos hh, List.append_nil, List.getLast?_append, hh]; rfl
    · rw [if_neg hh, List.getLast?_append]; rfl

theorem comment_padded {s : List Char} (h : s ≠ []) : commentText (padded s) = commentText s := by
  obtain ⟨h1, h2⟩ := padded_head h
  have h3 : commentText s = c!"<!--" ++ padded s ++ c!"-->" := by
    simp only [commentText, padded, List.append_assoc]
  rw [h3]
  generalize padded s = t at h1 h2
  unfold commentText
  rw [if_pos h1, if_pos h2]
  simp

theorem sameLeaf_text (y : Layout) (level : Nat) {l l' : Leaf} (hw : Leaf.Writable l) (h : SameLeaf l l') :
    leafText y level l' = leafText y level l := by
  cases l with
  | comment s =>
    simp only [SameLeaf] at h
    subst h
    have hs : s ≠ [] := hw
    simp only [leafText, comment_padded hs]
  | content s => simp only [SameLeaf] at h; rw [h]
  | cdata s => simp only [SameLeaf] at h; rw [h]
  | pi s => simp only [SameLeaf] at h; rw [h]
  | ref s => simp only [SameLeaf] at h; rw [h]

theorem sameLeaf_writable {l l' : Leaf} (hw : Leaf.Writable l) (h : SameLeaf l l') : Leaf.Writable l' := by
  cases l with
  | comment s =>
    simp only [SameLeaf] at h
    subst h
    exact padded_ne hw
  | content s => simp only [SameLeaf] at h; rw [h]; exact hw
  | cdata s => simp only [SameLeaf] at h; rw [h]; exact hw
  | pi s => simp only [SameLeaf] at h; rw [h]; exact hw
  | ref s => simp only [SameLeaf] at h; rw [h]; exact hw

theorem same_hasBlocks : ∀ {i i' : Items}, SameItems i i' → (hasBlocks i' ↔ hasBlocks i)
  | .nil, .nil, _ => Iff.rfl
  | .node _ _, .node _ _, _ => Iff.rfl
  | .leaf l i, .leaf l' i', h => by
    have ih := same_hasBlocks h.2
    have h1 := h.1
    cases l <;> simp only [SameLeaf] at h1 <;> subst h1 <;> simp only [hasBlocks, ih]
  | .nil, .node _ _, h => h.elim
  | .nil, .leaf _ _, h => h.elim
  | .node _ _, .nil, h => h.elim
  | .node _ _, .leaf _ _, h => h.elim
  | .leaf _ _, .nil, h => h.elim
  | .leaf _ _, .node _ _, h => h.elim

theorem same_hasTexts : ∀ {i i' : Items}, SameItems i i' → (hasTexts i' ↔ hasTexts i)
  | .nil, .nil, _ => Iff.rfl
  | .node _ i, .node _ i', h => by
    have := same_hasTexts h.2
    simp only [hasTexts, this]
  | .leaf l i, .leaf l' i', h => by
    have ih := same_hasTexts h.2
    have h1 := h.1
    cases l <;> simp only [SameLeaf] at h1 <;> subst h1 <;> simp only [hasTexts, ih]
  | .nil, .node _ _, h => h.elim
  | .nil, .leaf _ _, h => h.elim
  | .node _ _, .nil, h => h.elim
  | .node _ _, .leaf _ _, h => h.elim
  | .leaf _ _, .nil, h => h.elim
  | .leaf _ _, .node _ _, h => h.elim

mutual
theorem same_text (y : Layout) : ∀ (n n' : Node) (level : Nat), Writable n → AllFew n → AllMade n' → Same n n' →
    nodeText Dump.written y level n' = nodeText Dump.written y level n ∧ Writable n'
  | .mk name a i, .mk name' a' i', level, hw, hf, hm, hs => by
    obtain ⟨rfl, h2, h3⟩ := hs
    obtain ⟨g1, g2⟩ := same_itemsText y i i' level hw.2 hf.2 hm.2 h3
    refine ⟨?_, hm.1, g2⟩
    simp only [nodeText]
    rw [written_same hw.1 hm.1 h2 hf.1, g1]
    simp only [same_hasBlocks h3, same_hasTexts h3]
theorem same_itemsText (y : Layout) : ∀ (i i' : Items) (level : Nat), WritableItems i → AllFewItems i → AllMadeItems i' → SameItems i i' →
    itemsText Dump.written y level i' = itemsText Dump.written y level i ∧ WritableItems i'
  | .nil, .nil, _, _, _, _, _ => ⟨rfl, trivial⟩
  | .node n i, .node n' i', level, hw, hf, hm, hs => by
    obtain ⟨g1, g2⟩ := same_text y n n' (level + 1) hw.1 hf.1 hm.1 hs.1
    obtain ⟨g3, g4⟩ := same_itemsText y i i' level hw.2 hf.2 hm.2 hs.2
    exact ⟨by simp only [itemsText, g1, g3], g2, g4⟩
  | .leaf l i, .leaf l' i', level, hw, hf, hm, hs => by
    obtain ⟨g3, g4⟩ := same_itemsText y i i' level hw.2 hf hm hs.2
    exact ⟨by simp only [itemsText, sameLeaf_text y level hw.1 hs.1, g3], sameLeaf_writable hw.1 hs.1, g4⟩
  | .nil, .node _ _, _, _, _, _, h => h.elim
  | .nil, .leaf _ _, _, _, _, _, h => h.elim
  | .node _ _, .nil, _, _, _, _, h => h.elim
  | .node _ _, .leaf _ _, _, _, _, _, h => h.elim
  | .leaf _ _, .nil, _, _, _, _, h => h.elim
  | .leaf _ _, .node _ _, _, _, _, _, h => h.elim
end

end Parse
end Axl
