/-
C84: the root of a DTD.
-/
import Verif.Model.DtdRoot
import Verif.Spec.DtdRoot
import Verif.Proofs.DtdWell
import Verif.Proofs.DtdReads
import Verif.Proofs.DtdSource
import Verif.Proofs.DtdFuel

namespace Axl.Dtd

theorem rootRound_contains {es : List Element} {first : Element} : ∀ {xs : List Element} {root : Element} {ch : Bool} {r : Element} {b : Bool},
    (∀ x ∈ xs, x ∈ es) → root ∈ es → Contains es root first → rootRound xs root ch = .ok (r, b) → r ∈ es ∧ Contains es r first
  | [], root, ch, r, b, _, hr, hc, h => by cases h; exact ⟨hr, hc⟩
  | e :: xs, root, ch, r, b, hx, hr, hc, h => by
    rw [rootRound] at h
    have hx' : ∀ x ∈ xs, x ∈ es := fun x hm => hx x (List.mem_cons_of_mem _ hm)
    split at h
    · rename_i hp
      have he := hx e (List.mem_cons_self ..)
      exact rootRound_contains hx' he (.inside _ _ _ he hr ((isParent_ok hp).1 rfl) hc) h
    · exact rootRound_contains hx' hr hc h
    all_goals cases h

theorem newRoot_contains {es : List Element} {first : Element} : ∀ {fuel : Nat} {root r : Element}, root ∈ es → Contains es root first →
    newRoot es fuel root = .ok r → Contains es r first
  | 0, _, _, _, _, h => by cases h
  | fuel + 1, root, r, hr, hc, h => by
    rw [newRoot] at h
    split at h
    · rename_i r1 hh
      obtain ⟨h1, h2⟩ := rootRound_contains (fun _ h => h) hr hc hh
      exact newRoot_contains h1 h2 h
    · rename_i r1 hh
      cases h
      exact (rootRound_contains (fun _ h => h) hr hc hh).2
    all_goals cases h

theorem conclude_root {fuel : Nat} {d d' : Dtd} (h : conclude fuel d = .ok d') :
    d'.elements = d.elements ∧ (d.elements = [] → d'.root = none) ∧
      ∀ first, d.elements.head? = some first → ∃ r, d'.root = some r ∧ newRoot d.elements fuel first = .ok r := by
  unfold conclude at h
  cases he : d.elements with
  | nil =>
    simp only [he] at h
    split at h
    · cases h
    · cases h
      exact ⟨rfl, fun _ => rfl, by simp⟩
  | cons e es =>
    simp only [he] at h
    cases hr : newRoot (e :: es) fuel e with
    | ok r =>
      simp only [hr] at h
      split at h
      · cases h
      · cases h
        refine ⟨rfl, by simp, fun first hf => ⟨r, rfl, ?_⟩⟩
        simp only [List.head?_cons, Option.some.injEq] at hf
        subst hf
        exact hr
    | error => simp [hr] at h
    | ub => simp [hr] at h
    | loop => simp [hr] at h

/-- **C84**.  The root of a DTD that was read is a declared element that no declared element has in its content, and by the
declarations the first element that was declared may be inside it; a DTD without elements has no root. -/
theorem C84_root (text : List Char) (fuel : Nat) (d : Dtd) (h : parse fuel text = .ok d) :
    (d.elements = [] → getRoot (some d) = none) ∧
    ∀ first, d.elements.head? = some first → ∃ r, getRoot (some d) = some r ∧ r ∈ d.elements ∧ NotInside d.elements r.name ∧
      Contains d.elements r first := by
  unfold parse at h
  split at h
  · rename_i d0 h0
    obtain ⟨h1, h2, h3⟩ := conclude_root h
    rw [h1]
    refine ⟨fun he => by simp [getRoot, h2 he], fun first hf => ?_⟩
    obtain ⟨r, h4, h5⟩ := h3 first hf
    have hm : first ∈ d0.elements := List.mem_of_mem_head? hf
    obtain ⟨h6, h7⟩ := newRoot_ok hm h5
    exact ⟨r, by simp [getRoot, h4], h6, h7, newRoot_contains hm (.self _) h5⟩
  all_goals cases h

/-- **C84**.  If only one declared element is in the content of no other, it is the root, wherever it is declared. -/
theorem C84_only_root (text : List Char) (fuel : Nat) (d : Dtd) (h : parse fuel text = .ok d) (t : Element) (ht : t ∈ d.elements)
    (hn : ∀ e ∈ d.elements, NotInside d.elements e.name → e = t) : getRoot (some d) = some t := by
  cases he : d.elements.head? with
  | none => rw [List.head?_eq_none_iff] at he; rw [he] at ht; cases ht
  | some first =>
    obtain ⟨r, h1, h2, h3, -⟩ := (C84_root text fuel d h).2 first he
    rw [h1, hn r h2 h3]

theorem no_root {text : List Char} {fuel : Nat} {d : Dtd} (h : declarations fuel text = .ok d) (hne : d.elements ≠ [])
    (hall : ∀ c ∈ d.elements, ∃ p ∈ d.elements, p.Mentions c.name) : parse fuel text = .loop := by
  unfold parse
  rw [h]
  simp only [conclude]
  cases he : d.elements with
  | nil => exact absurd he hne
  | cons e es =>
    simp only
    have hloop : newRoot (e :: es) fuel e = .loop := by
      cases hr : newRoot (e :: es) fuel e with
      | loop => rfl
      | ub => exact absurd hr (newRoot_ne_ub _ _ _)
      | error => exact absurd hr (newRoot_ne_error _ _ _)
      | ok r =>
        obtain ⟨h1, h2⟩ := newRoot_ok (List.mem_cons_self ..) hr
        obtain ⟨p, hp, hm⟩ := hall r (by rw [he]; exact h1)
        exact absurd hm (h2 p (by rw [← he]; exact hp))
    rw [hloop]

/-- **C84**: not of the code.  If every declared element is in the content of a declared element, reading the DTD does not
end. -/
theorem C84_no_root (text : List Char) (fuel : Nat) (d : Dtd) (h : declarations fuel text = .ok d) (hne : d.elements ≠ [])
    (hall : ∀ c ∈ d.elements, ∃ p ∈ d.elements, p.Mentions c.name) : ∀ more, parse more text = .loop := by
  intro more
  cases hl : parse more text with
  | loop => rfl
  | _ =>
    have h1 : parse (max fuel more) text = parse more text := parse_mono (Nat.le_max_right ..) (by rw [hl]; simp)
    have h2 : declarations (max fuel more) text = .ok d := by
      rw [declarations_mono (Nat.le_max_left ..) (by rw [h]; simp), h]
    rw [no_root h2 hne hall, hl] at h1
    cases h1

example : ∃ d, declarations 60 c!"<!ELEMENT a (b?)><!ELEMENT b (c, a?)><!ELEMENT c EMPTY>" = .ok d ∧ d.elements ≠ [] ∧
    ∀ c ∈ d.elements, ∃ p ∈ d.elements, p.Mentions c.name :=
  ⟨⟨[⟨c!"a", .children ⟨.seq, .one, [.node .opt c!"b"]⟩⟩, ⟨c!"b", .children ⟨.seq, .one, [.node .one c!"c", .node .opt c!"a"]⟩⟩, ⟨c!"c", .empty⟩],
    [], none, false, false, []⟩, rfl, by simp, by
    simp [Element.Mentions, MentionsAny, Part.Mentions]⟩

/-- With several such elements the root depends on which element is declared first. -/
theorem C84_first_counts :
    (∃ d, parse 60 c!"<!ELEMENT b EMPTY><!ELEMENT a (b)><!ELEMENT c EMPTY>" = .ok d ∧ (getRoot (some d)).map (·.name) = some c!"a") ∧
    (∃ d, parse 60 c!"<!ELEMENT c EMPTY><!ELEMENT b EMPTY><!ELEMENT a (b)>" = .ok d ∧ (getRoot (some d)).map (·.name) = some c!"c") :=
  ⟨⟨_, rfl, rfl⟩, ⟨_, rfl, rfl⟩⟩

example : ∃ d, parse 60 c!"<!ELEMENT b (c*)><!ELEMENT c EMPTY><!ELEMENT a (b, c)>" = .ok d ∧ (getRoot (some d)).map (·.name) = some c!"a" ∧
    d.elements.map (·.name) = [c!"b", c!"c", c!"a"] := ⟨_, rfl, rfl, rfl⟩

end Axl.Dtd
