/-
Proofs about removing, splitting, joining and replacing.
-/
import Verif.Proofs.Str

namespace Axl
namespace Str
open Spec.Str

/-! ### The specifications are functional -/

theorem rewrites_unique {pat rep s o o' : List Char} (h : Rewrites pat rep s o) (h' : Rewrites pat rep s o') :
    o = o' := by
  induction h generalizing o' with
  | nil =>
    generalize hs : ([] : List Char) = s at h'
    cases h' with
    | nil => rfl
    | occurrence hp h1 => simp at hs; exact absurd hs.1 hp
    | other _ _ => cases hs
  | @occurrence t out hp h1 ih =>
    generalize hs : pat ++ t = s at h'
    cases h' with
    | nil => simp at hs; exact absurd hs.1 hp
    | occurrence _ h2 => rw [ih (by rw [List.append_cancel_left hs]; exact h2)]
    | other hn _ =>
      rcases hn with hn | hn
      · exact absurd hn hp
      · exact absurd ⟨t, hs⟩ hn
  | @other c t out hn h1 ih =>
    generalize hs : c :: t = s at h'
    cases h' with
    | nil => cases hs
    | occurrence hp h2 =>
      rcases hn with hn | hn
      · exact absurd hn hp
      · exact absurd ⟨_, hs.symm⟩ hn
    | other _ h2 => cases hs; rw [ih h2]

theorem rewrites_exists (pat rep : List Char) : ∀ (n : Nat) (s : List Char), s.length ≤ n → ∃ o, Rewrites pat rep s o := by
  intro n
  induction n with
  | zero =>
    intro s hs
    have : s = [] := List.eq_nil_of_length_eq_zero (by omega)
    subst this; exact ⟨[], .nil⟩
  | succ n ih =>
    intro s hs
    cases s with
    | nil => exact ⟨[], .nil⟩
    | cons c t =>
      by_cases h : pat ≠ [] ∧ pat <+: c :: t
      · obtain ⟨h1, t', h2⟩ := h
        have : 0 < pat.length := List.length_pos_iff.2 h1
        obtain ⟨o, ho⟩ := ih t' (by
          have := congrArg List.length h2
          simp at this hs; omega)
        exact ⟨rep ++ o, h2 ▸ .occurrence h1 ho⟩
      · obtain ⟨o, ho⟩ := ih t (by simpa using hs)
        refine ⟨c :: o, .other ?_ ho⟩
        by_cases hp : pat = []
        · exact Or.inl hp
        · exact Or.inr (fun h' => h ⟨hp, h'⟩)

/-! ### Remove -/

theorem remove_shift (kept pat r2 T : List Char) (rest : Int) (hr : rest = (r2.length : Nat)) :
    shiftOver (kept ++ (pat ++ r2) ++ T) kept.length pat.length rest =
      some (kept ++ r2 ++ ((pat ++ r2).drop r2.length ++ T)) := by
  subst hr
  unfold shiftOver
  by_cases h : r2.length = 0
  · have : r2 = [] := List.eq_nil_of_length_eq_zero h
    subst this
    simp
  · rw [if_pos (by omega)]
    have := moveBytes_spec kept pat r2 T
    rw [show ((kept.length + pat.length : Nat) : Int) = (kept.length : Int) + (pat.length : Int) by omega] at this
    simp only [List.append_assoc] at this ⊢
    exact this

theorem wr_end (l rest : List Char) (h : rest ≠ []) (n : Int) (hn : n = l.length) :
    wr (l ++ rest) n NUL = some (l ++ NUL :: rest.drop 1) := by
  subst hn
  rw [wr_nat _ _ _ (by have := List.length_pos_iff.2 h; simp; omega), set_append_nul _ _ h]

/-- The array holds the string, is as long as before and is the same after the old terminator. -/
def Holds (b' : List Char) (out : List Char) (n : Nat) (tail : List Char) : Prop :=
  ∃ rest, b' = out ++ NUL :: rest ∧ b'.length = n ∧ NUL :: tail <:+ b'

theorem holds_end (l st tail : List Char) (n : Int) (hn : n = l.length) :
    ∃ b', wr (l ++ (st ++ NUL :: tail)) n NUL = some b' ∧
      Holds b' l (l ++ (st ++ NUL :: tail)).length tail := by
  refine ⟨_, wr_end l (st ++ NUL :: tail) (by simp) n hn, (st ++ NUL :: tail).drop 1, rfl, ?_, ?_⟩
  · simp; omega
  · cases st with
    | nil => exact ⟨l, by simp⟩
    | cons a st => exact ⟨l ++ NUL :: st, by simp⟩

theorem removeLoop_false (pat W tail : List Char) (hWl : W.length = pat.length)
    (hWn : NUL ∉ W)
    (hrot : ¬ ∃ x y, x ≠ [] ∧ y ≠ [] ∧ pat = x ++ y ∧ W = y ++ x) :
    ∀ (fuel : Nat) (r kept st : List Char), NUL ∉ r → NUL ∉ st → r.length < fuel →
    (st = [] ∨ W <+: st) → (W <:+ r ∨ r <:+ W) →
    ∃ out b', removeLoop pat false fuel kept.length ((kept.length + r.length : Nat) : Int) (kept ++ r ++ (st ++ NUL :: tail)) =
      some b' ∧ Holds b' (kept ++ out) (kept ++ r ++ (st ++ NUL :: tail)).length tail ∧
      Rewrites pat [] r out := by
  intro fuel
  induction fuel with
  | zero => intro r kept st _ _ h; omega
  | succ fuel ih =>
    intro r kept st hr hst hf hstW hrW
    unfold removeLoop
    cases r with
    | nil =>
      rw [if_neg (by simp)]
      obtain ⟨b', g1, g2⟩ := holds_end kept st tail ((kept.length + ([] : List Char).length : Nat) : Int) (by simp)
      exact ⟨[], b', by simpa using g1, by simpa using g2, .nil⟩
    | cons c r =>
      rw [if_pos (by simp; omega)]
      have hdrop : (kept ++ (c :: r) ++ (st ++ NUL :: tail)).drop ((kept.length : Int)).toNat = (c :: r ++ st) ++ NUL :: tail := by
        simp
      have hnn : NUL ∉ c :: r ++ st := by
        intro h
        rcases List.mem_append.1 h with h | h
        · exact hr h
        · exact hst h
      rw [hdrop, toStr_spec _ _ hnn]
      by_cases hm : memcmp (c :: r ++ st) pat pat.length = true
      · rw [if_pos hm]
        obtain ⟨hpne, hpre⟩ := (memcmp_prefix _ _).1 hm
        have hlen : pat.length ≤ (c :: r).length := by
          apply Decidable.byContradiction
          intro hlt
          have hlt : (c :: r).length < pat.length := by omega
          rcases hstW with rfl | ⟨st', rfl⟩
          · have := hpre.length_le; simp at this hlt; omega
          · apply hrot
            have hrsuf : c :: r <:+ W := by
              rcases hrW with h | h
              · have := h.length_le; omega
              · exact h
            obtain ⟨y, hy⟩ := hrsuf
            refine ⟨c :: r, y, by simp, ?_, ?_, hy.symm⟩
            · intro h; subst h
              have := congrArg List.length hy
              simp at this hlt; omega
            · have e : c :: r ++ (W ++ st') = (c :: r ++ y) ++ ((c :: r) ++ st') := by
                rw [← hy]; simp
              rw [e] at hpre
              have hl : (c :: r ++ y).length = pat.length := by
                rw [← hWl, ← hy]; simp; omega
              obtain ⟨z, hz⟩ := hpre
              exact (List.append_inj hz hl.symm).1
        obtain ⟨r2, hr2⟩ : ∃ r2, c :: r = pat ++ r2 := by
          obtain ⟨z, hz⟩ := List.prefix_of_prefix_length_le hpre (List.prefix_append _ _) hlen
          exact ⟨z, hz.symm⟩
        rw [hr2] at hrW hr hf ⊢
        have e1 : ((kept.length + (pat ++ r2).length : Nat) : Int) - (kept.length : Int) - (pat.length : Int) = (r2.length : Nat) := by
          simp; omega
        rw [remove_shift kept pat r2 (st ++ NUL :: tail) _ e1]
        simp only []
        have e2 : ((kept.length + (pat ++ r2).length : Nat) : Int) - (pat.length : Int) = ((kept.length + r2.length : Nat) : Int) := by
          simp; omega
        rw [e2, if_neg (by simp)]
        have hW2 : (pat ++ r2).drop r2.length = W := by
          have : W <:+ pat ++ r2 := by
            rcases hrW with h | h
            · exact h
            · have hl := h.length_le
              have : (pat ++ r2).length = W.length := by simp at hl ⊢; omega
              rw [h.eq_of_length this]
              exact List.suffix_refl _
          have h2 := List.suffix_iff_eq_drop.1 this
          rw [h2]; congr 1; simp; omega
        have hr2n : NUL ∉ r2 := fun h => hr (List.mem_append_right _ h)
        rw [hW2, show W ++ (st ++ NUL :: tail) = (W ++ st) ++ NUL :: tail by simp]
        have hpos : 0 < pat.length := List.length_pos_iff.2 hpne
        obtain ⟨out, b', g1, g2, g3⟩ := ih r2 kept (W ++ st) hr2n (by
            intro h
            rcases List.mem_append.1 h with h | h
            · exact hWn h
            · exact hst h) (by simp at hf; omega) (Or.inr (List.prefix_append _ _)) (by
            have h1 : W <:+ pat ++ r2 := by rw [← hW2]; exact List.drop_suffix _ _
            exact List.suffix_or_suffix_of_suffix h1 (List.suffix_append _ _))
        refine ⟨out, b', g1, ?_, .occurrence hpne g3⟩
        have : (kept ++ r2 ++ ((W ++ st) ++ NUL :: tail)).length = (kept ++ (pat ++ r2) ++ (st ++ NUL :: tail)).length := by
          simp; omega
        rw [← this]; exact g2
      · rw [if_neg hm]
        have hn : pat = [] ∨ ¬ pat <+: c :: r := by
          by_cases hp : pat = []
          · exact Or.inl hp
          · right; intro h
            exact hm ((memcmp_prefix _ _).2 ⟨hp, h.trans (List.prefix_append _ _)⟩)
        obtain ⟨out, b', g1, g2, g3⟩ := ih r (kept ++ [c]) st (fun h => hr (List.mem_cons_of_mem _ h)) hst
          (by simp at hf; omega) hstW (by
            rcases hrW with h | h
            · exact List.suffix_or_suffix_of_suffix h (List.suffix_cons _ _)
            · exact Or.inr ((List.suffix_cons _ _).trans h))
        refine ⟨c :: out, b', ?_, ?_, .other hn g3⟩
        · rw [← g1]
          congr 1
          · simp
          · simp; omega
          · simp
        · simpa using g2

theorem removeLoop_true (pat tail : List Char) :
    ∀ (fuel : Nat) (r kept : List Char), NUL ∉ r → r.length < fuel →
    (pat ≠ [] → ∀ i < kept.length, ¬ pat <+: (kept ++ r).drop i) →
    ∃ out b', removeLoop pat true fuel kept.length ((kept.length + r.length : Nat) : Int) (kept ++ r ++ ([] ++ NUL :: tail)) =
      some b' ∧ Holds b' out (kept ++ r ++ ([] ++ NUL :: tail)).length tail ∧
      RemovesFirst pat (kept ++ r) out := by
  intro fuel
  induction fuel with
  | zero => intro r kept _ h; omega
  | succ fuel ih =>
    intro r kept hr hf hno
    unfold removeLoop
    cases r with
    | nil =>
      rw [if_neg (by simp)]
      obtain ⟨b', g1, g2⟩ := holds_end kept [] tail ((kept.length + ([] : List Char).length : Nat) : Int) (by simp)
      refine ⟨kept, b', by simpa using g1, by simpa using g2, Or.inl ⟨by simp, ?_⟩⟩
      by_cases hp : pat = []
      · exact Or.inl hp
      · right
        rintro ⟨u, v, huv⟩
        have hu : u.length < kept.length := by
          have h1 := congrArg List.length huv
          have h2 := List.length_pos_iff.2 hp
          simp at h1; omega
        apply hno hp u.length hu
        rw [← huv]; simp
    | cons c r =>
      rw [if_pos (by simp; omega)]
      have hdrop : (kept ++ (c :: r) ++ ([] ++ NUL :: tail)).drop ((kept.length : Int)).toNat = (c :: r) ++ NUL :: tail := by
        simp
      rw [hdrop, toStr_spec _ _ hr]
      by_cases hm : memcmp (c :: r) pat pat.length = true
      · rw [if_pos hm]
        obtain ⟨hpne, r2, hr2⟩ := (memcmp_prefix _ _).1 hm
        rw [← hr2] at hr hf hno ⊢
        have e1 : ((kept.length + (pat ++ r2).length : Nat) : Int) - (kept.length : Int) - (pat.length : Int) = (r2.length : Nat) := by
          simp; omega
        rw [remove_shift kept pat r2 ([] ++ NUL :: tail) _ e1]
        simp only [if_true]
        obtain ⟨b', g1, g2⟩ := holds_end (kept ++ r2) ((pat ++ r2).drop r2.length) tail
          (((kept.length + (pat ++ r2).length : Nat) : Int) - (pat.length : Int)) (by simp; omega)
        refine ⟨kept ++ r2, b', by simpa using g1, ?_, Or.inr ⟨hpne, kept, r2, by simp, rfl, ?_⟩⟩
        · have : (kept ++ r2 ++ ((pat ++ r2).drop r2.length ++ NUL :: tail)).length =
              (kept ++ (pat ++ r2) ++ ([] ++ NUL :: tail)).length := by simp; omega
          rw [← this]; exact g2
        · intro i hi; exact hno hpne i hi
      · rw [if_neg hm]
        have hn : pat ≠ [] → ¬ pat <+: c :: r := by
          intro hp h
          exact hm ((memcmp_prefix _ _).2 ⟨hp, h⟩)
        obtain ⟨out, b', g1, g2, g3⟩ := ih r (kept ++ [c]) (fun h => hr (List.mem_cons_of_mem _ h))
          (by simp at hf; omega) (by
            intro hp i hi
            simp only [List.length_append, List.length_cons, List.length_nil] at hi
            by_cases hi' : i < kept.length
            · have := hno hp i hi'
              simpa using this
            · have : i = kept.length := by omega
              subst this
              have := hn hp
              simpa using this)
        refine ⟨out, b', ?_, by simpa using g2, by simpa using g3⟩
        rw [← g1]
        congr 1
        · simp
        · simp; omega
        · simp

theorem holds_nul (s tail : List Char) : Holds (s ++ NUL :: tail) s (s ++ NUL :: tail).length tail :=
  ⟨tail, rfl, rfl, List.suffix_append _ _⟩

theorem holds_clear (s tail : List Char) : ∃ b', wr (s ++ NUL :: tail) 0 NUL = some b' ∧
    Holds b' [] (s ++ NUL :: tail).length tail := by
  have := holds_end [] s tail 0 rfl
  simpa using this

theorem remove_first_spec (s tail pat : List Char) (hs : NUL ∉ s) :
    ∃ out b', remove (s ++ NUL :: tail) pat true = some b' ∧
      Holds b' out (s ++ NUL :: tail).length tail ∧ RemovesFirst pat s out := by
  unfold remove
  rw [strlen_spec s tail hs]
  simp only [Option.bind_eq_bind, Option.bind_some]
  by_cases h1 : s.length = pat.length
  · rw [if_pos h1, toStr_spec s tail hs]
    by_cases h2 : cmpLoop s pat = true
    · rw [if_pos h2]
      have := (cmpLoop_iff _ _).1 h2
      subst this
      by_cases h0 : s = []
      · obtain ⟨b', g1, g2⟩ := holds_clear s tail
        exact ⟨[], b', g1, g2, Or.inl ⟨by rw [h0], Or.inl h0⟩⟩
      · obtain ⟨b', g1, g2⟩ := holds_clear s tail
        exact ⟨[], b', g1, g2, Or.inr ⟨h0, [], [], by simp, rfl, by simp⟩⟩
    · rw [if_neg h2]
      refine ⟨s, _, rfl, holds_nul s tail, Or.inl ⟨rfl, Or.inr ?_⟩⟩
      intro h
      apply h2
      rw [cmpLoop_iff]
      exact (h.eq_of_length h1.symm).symm
  · rw [if_neg h1]
    by_cases h2 : s.length < pat.length
    · rw [if_pos h2]
      refine ⟨s, _, rfl, holds_nul s tail, Or.inl ⟨rfl, Or.inr ?_⟩⟩
      intro h
      have := h.length_le
      omega
    · rw [if_neg h2]
      obtain ⟨out, b', g1, g2, g3⟩ := removeLoop_true pat tail (2 * s.length + 1) s [] hs (by omega) (by simp)
      exact ⟨out, b', by simpa using g1, by simpa using g2, by simpa using g3⟩

theorem rewrites_none {pat rep : List Char} (s : List Char) (h : ∀ i < s.length, pat = [] ∨ ¬ pat <+: s.drop i) :
    Rewrites pat rep s s := by
  induction s with
  | nil => exact .nil
  | cons c s ih =>
    refine .other (by simpa using h 0 (by simp)) (ih ?_)
    intro i hi
    simpa using h (i + 1) (by simpa using hi)

theorem rewrites_short {pat rep : List Char} (s : List Char) (h : s.length < pat.length) : Rewrites pat rep s s := by
  apply rewrites_none
  intro i hi
  right; intro h'
  have := h'.length_le
  simp at this; omega

theorem rewrites_none_eqlen {pat rep : List Char} (s : List Char) (h : s.length = pat.length) (hne : s ≠ pat) :
    Rewrites pat rep s s := by
  apply rewrites_none
  intro i hi
  right; intro h'
  have hl := h'.length_le
  simp at hl
  have : i = 0 := by omega
  subst this
  exact hne ((h'.eq_of_length (by simpa using h.symm)).symm)

theorem remove_all_spec (s tail pat : List Char) (hs : NUL ∉ s)
    (hrot : ¬ ∃ x y, x ≠ [] ∧ y ≠ [] ∧ pat = x ++ y ∧ y ++ x <:+ s) :
    ∃ out b', remove (s ++ NUL :: tail) pat false = some b' ∧
      Holds b' out (s ++ NUL :: tail).length tail ∧ Rewrites pat [] s out := by
  unfold remove
  rw [strlen_spec s tail hs]
  simp only [Option.bind_eq_bind, Option.bind_some]
  by_cases h1 : s.length = pat.length
  · rw [if_pos h1, toStr_spec s tail hs]
    by_cases h2 : cmpLoop s pat = true
    · rw [if_pos h2]
      have := (cmpLoop_iff _ _).1 h2
      subst this
      obtain ⟨b', g1, g2⟩ := holds_clear s tail
      refine ⟨[], b', g1, g2, ?_⟩
      by_cases h0 : s = []
      · subst h0; exact .nil
      · have := Rewrites.occurrence (rep := []) h0 (.nil)
        simpa using this
    · rw [if_neg h2]
      refine ⟨s, _, rfl, holds_nul s tail, rewrites_none_eqlen s h1 ?_⟩
      intro h
      exact h2 ((cmpLoop_iff _ _).2 h)
  · rw [if_neg h1]
    by_cases h2 : s.length < pat.length
    · rw [if_pos h2]
      exact ⟨s, _, rfl, holds_nul s tail, rewrites_short s h2⟩
    · rw [if_neg h2]
      have hsuf : s.drop (s.length - pat.length) <:+ s := List.drop_suffix _ _
      obtain ⟨out, b', g1, g2, g3⟩ := removeLoop_false pat (s.drop (s.length - pat.length)) tail
        (by simp; omega) (fun h => hs (List.mem_of_mem_drop h)) (by
          rintro ⟨x, y, hx, hy, hxy, hW⟩
          exact hrot ⟨x, y, hx, hy, hxy, hW ▸ hsuf⟩) (2 * s.length + 1) s [] [] hs (by simp) (by omega)
          (Or.inl rfl) (Or.inl hsuf)
      exact ⟨out, b', by simpa using g1, by simpa using g2, by simpa using g3⟩

/-! ### Split -/

theorem matchSep_some {rest : List Char} {seps : List (List Char)} {n : Nat} (h : matchSep rest seps = some n) :
    ∃ sep, FirstSep seps sep rest ∧ n = sep.length := by
  induction seps with
  | nil => cases h
  | cons x seps ih =>
    unfold matchSep at h
    by_cases hm : memcmp rest x x.length = true
    · rw [if_pos hm] at h
      obtain ⟨h1, h2⟩ := (memcmp_prefix _ _).1 hm
      exact ⟨x, ⟨[], seps, rfl, h1, h2, by simp⟩, (Option.some.inj h).symm⟩
    · rw [if_neg hm] at h
      obtain ⟨sep, ⟨be, af, e, h1, h2, h3⟩, hn⟩ := ih h
      refine ⟨sep, ⟨x :: be, af, by simp [e], h1, h2, ?_⟩, hn⟩
      intro y hy
      rcases List.mem_cons.1 hy with rfl | hy
      · by_cases h0 : y = []
        · exact Or.inl h0
        · exact Or.inr (fun h' => hm ((memcmp_prefix _ _).2 ⟨h0, h'⟩))
      · exact h3 y hy

theorem matchSep_none {rest : List Char} {seps : List (List Char)} (h : matchSep rest seps = none) :
    NoSep seps rest := by
  induction seps with
  | nil => intro x hx; cases hx
  | cons x seps ih =>
    unfold matchSep at h
    by_cases hm : memcmp rest x x.length = true
    · rw [if_pos hm] at h; cases h
    · rw [if_neg hm] at h
      intro y hy
      rcases List.mem_cons.1 hy with rfl | hy
      · by_cases h0 : y = []
        · exact Or.inl h0
        · exact Or.inr (fun h' => hm ((memcmp_prefix _ _).2 ⟨h0, h'⟩))
      · exact ih h y hy

theorem split_loops (seps : List (List Char)) : ∀ (fuel : Nat) (before p rest : List Char) (acc : List (List Char)) (c : Nat),
    rest.length < fuel → p ++ rest ≠ [] →
    (∀ i < p.length, NoSep seps ((p ++ rest).drop i)) →
    ∃ ps, splitLoop (before ++ p ++ rest) seps fuel (before.length + p.length) before.length acc = some (acc ++ ps) ∧
      Splits seps (p ++ rest) ps ∧ ps ≠ [] ∧
      splitCount (before ++ p ++ rest) seps fuel (before.length + p.length) c = some (c + ps.length - 1) := by
  intro fuel
  induction fuel with
  | zero => intro _ _ _ _ _ h; omega
  | succ fuel ih =>
    intro before p rest acc c hf hne hno
    unfold splitLoop splitCount
    have hlen : (before ++ p ++ rest).length = before.length + p.length + rest.length := by simp; omega
    rw [hlen]
    have hd : (before ++ p ++ rest).drop (before.length + p.length) = rest := by
      rw [← List.length_append, List.drop_left]
    have hd2 : (before ++ p ++ rest).drop before.length = p ++ rest := by
      rw [List.append_assoc, List.drop_left]
    rw [hd, hd2, show before.length + p.length - before.length = p.length by omega, List.take_left]
    by_cases hr : rest = []
    · subst hr
      have hp : p ≠ [] := by simpa using hne
      have : 0 < p.length := List.length_pos_iff.2 hp
      rw [if_neg (by simp), if_pos (by simp), if_pos (by omega), if_neg (by simp), if_pos (by simp)]
      refine ⟨[p], rfl, ?_, by simp, by simp⟩
      have := Splits.last (seps := seps) (s := p) (by simpa using hno)
      simpa using this
    · have hpos := List.length_pos_iff.2 hr
      rw [if_pos (by omega), if_pos (by omega)]
      cases hm : matchSep rest seps with
      | none =>
        simp only []
        obtain ⟨x, rest', rfl⟩ : ∃ x rest', rest = x :: rest' := by
          cases rest with
          | nil => exact absurd rfl hr
          | cons x r => exact ⟨x, r, rfl⟩
        have hns := matchSep_none hm
        obtain ⟨ps, g1, g2, g3, g4⟩ := ih before (p ++ [x]) rest' acc c (by simp at hf; omega) (by simp) (by
          intro i hi
          simp only [List.length_append, List.length_cons, List.length_nil] at hi
          by_cases hi' : i < p.length
          · have := hno i hi'; simpa using this
          · have : i = p.length := by omega
            subst this
            simpa using hns)
        refine ⟨ps, ?_, by simpa using g2, g3, ?_⟩
        · rw [← g1]; simp [Nat.add_assoc]
        · rw [← g4]; simp [Nat.add_assoc]
      | some n =>
        obtain ⟨sep, hfs, rfl⟩ := matchSep_some hm
        obtain ⟨be, af, e, hs1, ⟨rest', rfl⟩, hs3⟩ := id hfs
        have hsp := List.length_pos_iff.2 hs1
        simp only []
        have e1 : before.length + p.length + (sep.length - 1) + 1 = before.length + p.length + sep.length := by omega
        have e2 : before.length + p.length + sep.length - 1 + 1 = before.length + p.length + sep.length := by omega
        rw [e1, e2]
        by_cases hend : before.length + p.length + sep.length = before.length + p.length + (sep ++ rest').length
        · have : rest' = [] := by
            simp at hend; exact hend
          subst this
          rw [if_pos hend]
          refine ⟨[p, []], by simp, ?_, by simp, ?_⟩
          · have := Splits.cut (seps := seps) (p := p) (sep := sep) (rest := []) (ps := [[]])
              (by simpa using hno) hfs (Splits.last (by simp))
            simpa using this
          · obtain ⟨f, rfl⟩ : ∃ f, fuel = f + 1 := ⟨fuel - 1, by simp at hf; omega⟩
            unfold splitCount
            rw [if_neg (by simp; omega), if_pos (by simp; omega)]
            simp
        · rw [if_neg hend]
          have hr' : rest' ≠ [] := by
            intro h; apply hend; simp [h]
          obtain ⟨ps, g1, g2, g3, g4⟩ := ih (before ++ p ++ sep) [] rest' (acc ++ [p]) (c + 1)
            (by simp at hf; omega) (by simpa using hr') (by simp)
          have e3 : before ++ p ++ (sep ++ rest') = before ++ p ++ sep ++ [] ++ rest' := by simp
          have e4 : before.length + p.length + sep.length = (before ++ p ++ sep).length := by simp; omega
          rw [e3, e4]
          have hpos := List.length_pos_iff.2 g3
          refine ⟨p :: ps, ?_, ?_, by simp, ?_⟩
          · rw [show (before ++ p ++ sep).length = (before ++ p ++ sep).length + ([] : List Char).length by simp, ]
            have : (before ++ p ++ sep).length + ([] : List Char).length = (before ++ p ++ sep).length := by simp
            rw [this] at g1 ⊢
            rw [g1]; simp
          · have := Splits.cut (seps := seps) (p := p) (sep := sep) (rest := rest') (ps := ps)
              (by simpa using hno) hfs (by simpa using g2)
            simpa using this
          · have : (before ++ p ++ sep).length + ([] : List Char).length = (before ++ p ++ sep).length := by simp
            rw [this] at g4
            rw [g4]; simp

theorem split_spec (s : List Char) (seps : List (List Char)) (hs : s ≠ []) :
    ∃ ps, split s seps = some ps ∧ Splits seps s ps := by
  obtain ⟨ps, g1, g2, g3, g4⟩ := split_loops seps (s.length + 1) [] [] s [] 0 (by omega) (by simpa using hs) (by simp)
  refine ⟨ps, ?_, by simpa using g2⟩
  unfold split
  have hpos := List.length_pos_iff.2 g3
  simp at g1 g4
  rw [g4, g1]
  simp
  omega

theorem split_empty (seps : List (List Char)) : split [] seps = some [] := by
  simp [split, splitCount, splitLoop]

theorem firstSep_unique {seps : List (List Char)} {a b s : List Char} (h1 : FirstSep seps a s)
    (h2 : FirstSep seps b s) : a = b := by
  obtain ⟨be, af, e, ha, hp, hb⟩ := h1
  obtain ⟨be', af', e', ha', hp', hb'⟩ := h2
  rw [e] at e'
  induction be generalizing seps be' with
  | nil =>
    cases be' with
    | nil => simp at e'; exact e'.1
    | cons x be' =>
      simp at e'
      rcases hb' x (by simp) with h | h
      · exact absurd (e'.1.trans h) ha
      · rw [e'.1] at hp; exact absurd hp h
  | cons y be ih =>
    cases be' with
    | nil =>
      simp at e'
      rcases hb y (by simp) with h | h
      · exact absurd (e'.1.symm.trans h) ha'
      · rw [e'.1] at h; exact absurd hp' h
    | cons x be' =>
      simp at e'
      exact ih (seps := be ++ a :: af) rfl (fun z hz => hb z (by simp [hz])) be' e'.2 (fun z hz => hb' z (by simp [hz]))

theorem firstSep_not_noSep {seps : List (List Char)} {a s : List Char} (h1 : FirstSep seps a s) (h2 : NoSep seps s) : False := by
  obtain ⟨be, af, e, ha, hp, hb⟩ := h1
  rcases h2 a (by simp [e]) with h | h
  · exact ha h
  · exact h hp

theorem splits_unique {seps : List (List Char)} {s : List Char} {ps qs : List (List Char)}
    (h1 : Splits seps s ps) (h2 : Splits seps s qs) : ps = qs := by
  induction h1 generalizing qs with
  | @last s hn =>
    cases h2 with
    | last _ => rfl
    | @cut p sep rest ps' _ hf _ =>
      exfalso
      have hpos : 0 < sep.length := by
        obtain ⟨_, _, _, h, _⟩ := hf; exact List.length_pos_iff.2 h
      refine firstSep_not_noSep hf ?_
      have := hn p.length (by simp; omega)
      simpa using this
  | @cut p sep rest ps hn hf hs ih =>
    have hpos : 0 < sep.length := by
      obtain ⟨_, _, _, h, _⟩ := hf; exact List.length_pos_iff.2 h
    generalize hS : p ++ sep ++ rest = S at h2
    cases h2 with
    | last hn' =>
      exfalso
      refine firstSep_not_noSep hf ?_
      have := hn' p.length (by rw [← hS]; simp; omega)
      rw [← hS] at this
      simpa using this
    | @cut p' sep' rest' ps' hn' hf' hs' =>
      have hpos' : 0 < sep'.length := by
        obtain ⟨_, _, _, h, _⟩ := hf'; exact List.length_pos_iff.2 h
      have hl : p.length = p'.length := by
        rcases Nat.lt_trichotomy p.length p'.length with h | h | h
        · exfalso
          refine firstSep_not_noSep hf ?_
          have := hn' p.length h
          rw [← hS] at this
          simpa using this
        · exact h
        · exfalso
          refine firstSep_not_noSep hf' ?_
          have := hn p'.length h
          rw [hS] at this
          simpa using this
      have e : p ++ (sep ++ rest) = p' ++ (sep' ++ rest') := by simpa using hS
      obtain ⟨e1, e2⟩ := List.append_inj e hl
      rw [e2] at hf
      have e3 := firstSep_unique hf hf'
      subst e3
      have e4 := List.append_cancel_left e2
      subst e4
      rw [e1, ih hs']

/-- Pieces and the separators between them. -/
theorem splits_parts {seps : List (List Char)} {s : List Char} {ps : List (List Char)} (h : Splits seps s ps) :
    ps ≠ [] ∧ (∀ p ∈ ps, ∀ x ∈ seps, x ≠ [] → ¬ x <:+: p) := by
  have noInfix : ∀ {p q : List Char}, (∀ i < p.length, NoSep seps ((p ++ q).drop i)) →
      ∀ x ∈ seps, x ≠ [] → ¬ x <:+: p := by
    rintro p q hn x hx hx0 ⟨u, v, huv⟩
    have hpos := List.length_pos_iff.2 hx0
    rcases hn u.length (by rw [← huv]; simp; omega) x hx with h | h
    · exact hx0 h
    · apply h; rw [← huv]; simp
  induction h with
  | last hn =>
    refine ⟨by simp, ?_⟩
    intro p hp x hx hx0
    simp at hp; subst hp
    exact noInfix (q := []) (by simpa using hn) x hx hx0
  | @cut p sep rest ps hn hf hs ih =>
    refine ⟨by simp, ?_⟩
    intro q hq x hx hx0
    rcases List.mem_cons.1 hq with rfl | hq
    · exact noInfix (q := sep ++ rest) (by simpa using hn) x hx hx0
    · exact ih.2 q hq x hx hx0

theorem firstSep_single {sep a s : List Char} (h : FirstSep [sep] a s) : a = sep := by
  obtain ⟨be, af, e, _⟩ := h
  cases be with
  | nil => simp at e; exact e.1.symm
  | cons _ be => simp at e

theorem intercalate_cons_ne {sep p : List Char} {ps : List (List Char)} (h : ps ≠ []) :
    List.intercalate sep (p :: ps) = p ++ sep ++ List.intercalate sep ps := by
  cases ps with
  | nil => exact absurd rfl h
  | cons q ps => simp [List.intercalate, List.intersperse]

theorem splits_intercalate {sep s : List Char} {ps : List (List Char)} (h : Splits [sep] s ps) :
    List.intercalate sep ps = s := by
  generalize hS : [sep] = seps at h
  induction h with
  | last _ => simp [List.intercalate]
  | @cut p sep' rest ps hn hf hs ih =>
    subst hS
    have := firstSep_single hf
    subst this
    rw [intercalate_cons_ne (splits_parts hs).1, ih]

theorem joinLoop_spec (sep : List Char) (ps : List (List Char)) (h : ps ≠ []) :
    joinLoop sep false ps = List.intercalate sep ps := by
  induction ps with
  | nil => exact absurd rfl h
  | cons p ps ih =>
    unfold joinLoop
    cases ps with
    | nil => simp [joinLoop, List.intercalate]
    | cons q ps =>
      unfold joinLoop
      rw [ih (by simp), intercalate_cons_ne (p := p) (by simp)]
      simp

theorem length_intercalate (sep : List Char) (ps : List (List Char)) :
    (List.intercalate sep ps).length = (ps.map List.length).sum + sep.length * (ps.length - 1) := by
  induction ps with
  | nil => simp [List.intercalate]
  | cons p ps ih =>
    cases ps with
    | nil => simp [List.intercalate]
    | cons q ps =>
      rw [intercalate_cons_ne (by simp), List.length_append, List.length_append, ih]
      simp [Nat.mul_succ]
      omega

theorem join_spec (ps : List (List Char)) (sep : List Char) (h : ps ≠ []) :
    join ps sep = some (some (List.intercalate sep ps)) := by
  unfold join
  split
  · exact absurd rfl h
  · simp [List.intercalate]
  · rw [joinLoop_spec sep ps h]
    simp only []
    rw [if_pos (by rw [length_intercalate]; omega)]

theorem splits_of_intercalate (sep : List Char) (hsep : sep ≠ []) : ∀ (ps : List (List Char)) (l : List Char),
    (∀ p ∈ ps, ¬ sep <:+: p ++ sep.dropLast) → ¬ sep <:+: l →
    Splits [sep] (List.intercalate sep (ps ++ [l])) (ps ++ [l]) := by
  intro ps l hps hl
  induction ps with
  | nil =>
    simp [List.intercalate]
    refine .last ?_
    intro i hi x hx
    simp at hx; subst hx
    right
    intro h
    exact hl (h.isInfix.trans (List.drop_suffix _ _).isInfix)
  | cons p ps ih =>
    rw [List.cons_append, intercalate_cons_ne (by simp)]
    refine .cut ?_ ⟨[], [], rfl, hsep, List.prefix_append _ _, by simp⟩ (ih (fun q hq => hps q (by simp [hq])))
    intro i hi x hx
    simp at hx; subst hx
    right
    intro h
    apply hps p (by simp)
    -- the occurrence begins inside the piece, so it ends before the last byte of the separator
    have hpos := List.length_pos_iff.2 hsep
    have hcut : p ++ x.dropLast = (p ++ x ++ List.intercalate x (ps ++ [l])).take (p.length + (x.length - 1)) := by
      rw [List.append_assoc, List.take_append, List.take_of_length_le (l := p) (by omega), List.take_append_of_le_length (by omega)]
      rw [List.dropLast_eq_take]
      congr 2; omega
    rw [hcut]
    have h2 : x <+: ((p ++ x ++ List.intercalate x (ps ++ [l])).take (p.length + (x.length - 1))).drop i := by
      rw [List.drop_take]
      rw [List.prefix_take_iff]
      exact ⟨h, by omega⟩
    exact h2.isInfix.trans (List.drop_suffix _ _).isInfix

/-! ### Clean split -/

theorem cleanSplitLoop_spec : ∀ (fuel : Nat) (a b : List (List Char)), b.length < fuel → (∀ x ∈ a, x ≠ []) →
    cleanSplitLoop fuel a.length (a ++ b) = some (a ++ b.filter (· ≠ [])) := by
  intro fuel
  induction fuel with
  | zero => intro _ _ h; omega
  | succ fuel ih =>
    intro a b hf ha
    unfold cleanSplitLoop
    cases b with
    | nil => simp
    | cons x b =>
      rw [List.getElem?_append_right (Nat.le_refl _), Nat.sub_self, List.getElem?_cons_zero]
      simp only []
      by_cases hx : x = []
      · subst hx
        rw [if_pos (by simp), List.eraseIdx_append_of_length_le (Nat.le_refl _), Nat.sub_self]
        simp only [List.eraseIdx_cons_zero]
        rw [ih a b (by simpa using hf) ha]
        simp
      · rw [if_neg (by simpa using hx)]
        have := ih (a ++ [x]) b (by simpa using hf) (by
          intro y hy
          rcases List.mem_append.1 hy with hy | hy
          · exact ha y hy
          · simp at hy; subst hy; exact hx)
        simp at this
        rw [this]
        simp [hx]

theorem cleanSplit_spec (a : List (List Char)) : cleanSplit a = some (a.filter (· ≠ [])) := by
  have := cleanSplitLoop_spec (a.length + 1) [] a (by omega) (by simp)
  simpa [cleanSplit] using this

/-! ### Replace -/

theorem replace_loops (pat rep source : List Char) : ∀ (n it : Nat), it + n = source.length →
    ∃ k out, Rewrites pat rep (source.drop it) out ∧
      out.length + pat.length * k = n + rep.length * k ∧ (k = 0 → out = source.drop it) ∧
      (∀ fuel c, n + 1 < fuel → replaceCount source pat fuel it c = some (c + k)) ∧
      (∀ fuel acc, n < fuel → replaceLoop source pat rep fuel it acc = some (acc ++ out)) := by
  intro n
  induction n using Nat.strongRecOn with
  | _ n ih =>
    intro it hit
    by_cases hm : pat ≠ [] ∧ pat <+: source.drop it
    · obtain ⟨hp, t, ht⟩ := hm
      have hpos := List.length_pos_iff.2 hp
      have hl : pat.length + t.length = n := by
        have := congrArg List.length ht
        simp at this; omega
      have ht2 : source.drop (it + pat.length) = t := by
        rw [← List.drop_drop, ← ht, List.drop_left]
      obtain ⟨k, out, g1, g2, g3, g4, g5⟩ := ih t.length (by omega) (it + pat.length) (by omega)
      have hmem : memcmp (source.drop it) pat pat.length = true := (memcmp_prefix _ _).2 ⟨hp, t, ht⟩
      refine ⟨k + 1, rep ++ out, ?_, ?_, by simp, ?_, ?_⟩
      · rw [← ht]; rw [ht2] at g1; exact .occurrence hp g1
      · simp [Nat.mul_succ]; omega
      · intro fuel c hf
        obtain ⟨f, rfl⟩ : ∃ f, fuel = f + 1 := ⟨fuel - 1, by omega⟩
        unfold replaceCount
        rw [if_pos (by omega), if_pos hmem, g4 f (c + 1) (by omega)]
        congr 1; omega
      · intro fuel acc hf
        obtain ⟨f, rfl⟩ : ∃ f, fuel = f + 1 := ⟨fuel - 1, by omega⟩
        unfold replaceLoop
        rw [if_pos (by omega), if_pos ⟨by omega, hmem⟩, g5 f _ (by omega)]
        simp
    · have hmem : memcmp (source.drop it) pat pat.length = false := by
        apply Bool.eq_false_iff.2
        intro h; exact hm ((memcmp_prefix _ _).1 h)
      cases n with
      | zero =>
        have e : source.drop it = [] := List.drop_eq_nil_of_le (by omega)
        refine ⟨0, [], by rw [e]; exact .nil, by simp, fun _ => e.symm, ?_, ?_⟩
        · intro fuel c hf
          obtain ⟨f, rfl⟩ : ∃ f, fuel = f + 2 := ⟨fuel - 2, by omega⟩
          unfold replaceCount
          rw [hmem]
          split
          · simp only [Bool.false_eq_true, if_false]
            unfold replaceCount
            rw [if_neg (by omega)]; rfl
          · rfl
        · intro fuel acc hf
          obtain ⟨f, rfl⟩ : ∃ f, fuel = f + 1 := ⟨fuel - 1, by omega⟩
          unfold replaceLoop
          rw [if_neg (by omega)]; simp
      | succ n =>
        obtain ⟨k, out, g1, g2, g3, g4, g5⟩ := ih n (by omega) (it + 1) (by omega)
        have hlt : it < source.length := by omega
        have hd : source.drop it = source[it] :: source.drop (it + 1) := List.drop_eq_getElem_cons hlt
        refine ⟨k, source[it] :: out, ?_, by simp; omega, ?_, ?_, ?_⟩
        · rw [hd]
          refine .other ?_ g1
          rw [← hd]
          by_cases hp : pat = []
          · exact Or.inl hp
          · exact Or.inr (fun h => hm ⟨hp, h⟩)
        · intro hk; rw [hd, g3 hk]
        · intro fuel c hf
          obtain ⟨f, rfl⟩ : ∃ f, fuel = f + 1 := ⟨fuel - 1, by omega⟩
          unfold replaceCount
          rw [hmem]
          split
          · simp only [Bool.false_eq_true, if_false]
            exact g4 f c (by omega)
          · rename_i hge
            -- the rest is shorter than the pattern
            have := g4 (f + 1) c (by omega)
            unfold replaceCount at this
            rw [if_neg (by omega)] at this
            exact this
        · intro fuel acc hf
          obtain ⟨f, rfl⟩ : ∃ f, fuel = f + 1 := ⟨fuel - 1, by omega⟩
          unfold replaceLoop
          rw [if_pos hlt, hmem, if_neg (by simp), List.getElem?_eq_getElem hlt]
          simp only [Option.bind_eq_bind, Option.bind_some]
          rw [g5 f _ (by omega)]
          simp

theorem replace_spec (source pat rep : List Char) :
    ∃ out, replace source pat rep = some (out, out.length) ∧ Rewrites pat rep source out := by
  obtain ⟨k, out, g1, g2, g3, g4, g5⟩ := replace_loops pat rep source source.length 0 (by omega)
  rw [List.drop_zero] at g1 g3
  refine ⟨out, ?_, g1⟩
  unfold replace
  rw [g4 _ 0 (by omega)]
  simp only [Option.bind_eq_bind, Option.bind_some, Nat.zero_add]
  by_cases hk : k = 0
  · rw [if_pos hk, g3 hk]
  · rw [if_neg hk, g5 _ [] (by omega)]
    simp only [Option.bind_some, List.nil_append]
    have e : (source.length : Int) - pat.length * k + rep.length * k = out.length := by
      have := congrArg (fun n : Nat => (n : Int)) g2
      simp only [Int.natCast_add, Int.natCast_mul] at this
      omega
    rw [e, if_pos (by omega)]

end Str
end Axl
