/-
Facts about reading from a stream in memory.
-/
import Verif.Model.Stream
import Verif.Spec.Xml

namespace Axl
namespace Stream
open Str Spec.Xml

theorem white_iff (c : Char) : isWhite c = true ↔ White c := by
  unfold isWhite White
  grind

theorem white_false (c : Char) : isWhite c = false ↔ ¬ White c := by
  rw [← white_iff]; simp

theorem cstr_eq (t : List Char) : cstr t = toStr t := rfl

theorem eat_some {s chunk r : List Char} : eat s chunk = some r ↔ s = chunk ++ r := by
  unfold eat inspect
  by_cases h1 : s.length < chunk.length
  · simp only [h1, if_true]
    constructor
    · intro h; cases h
    · intro h; subst h; simp at h1; omega
  · by_cases h2 : chunk.isPrefixOf s = true
    · simp only [h1, if_false, h2, if_true]
      obtain ⟨t, rfl⟩ := List.isPrefixOf_iff_prefix.1 h2
      simp
    · simp only [h1, if_false, h2]
      constructor
      · intro h; cases h
      · intro h; subst h
        exact absurd (List.isPrefixOf_iff_prefix.2 (List.prefix_append _ _)) h2

theorem eat_append (chunk r : List Char) : eat (chunk ++ r) chunk = some r := eat_some.2 rfl

theorem eat_none {s chunk : List Char} : eat s chunk = none ↔ ¬ chunk <+: s := by
  cases h : eat s chunk with
  | some r => simp [eat_some.1 h]
  | none =>
    simp only [true_iff]
    rintro ⟨r, rfl⟩
    rw [eat_append] at h
    cases h

theorem peek_iff {s chunk : List Char} : peek s chunk = true ↔ ∃ r, s = chunk ++ r := by
  unfold peek
  cases h : eat s chunk with
  | some r => simp [eat_some.1 h]
  | none =>
    simp only [Option.isSome_none, Bool.false_eq_true, false_iff]
    rintro ⟨r, rfl⟩
    rw [eat_append] at h
    cases h

theorem peek_false {s chunk : List Char} : peek s chunk = false ↔ ¬ chunk <+: s := by
  rw [← eat_none]; unfold peek; simp

/-- The characters that a skip removes. -/
theorem skip_spec (s : List Char) : ∃ b, Blank b ∧ s = b ++ skip s ∧ (∀ c r, skip s = c :: r → ¬ White c) := by
  refine ⟨s.takeWhile isWhite, ?_, (List.takeWhile_append_dropWhile).symm, ?_⟩
  · intro c hc
    have := List.all_eq_true.1 (List.all_takeWhile (p := isWhite) (l := s)) c hc
    exact (white_iff c).1 this
  · intro c r h
    have := List.head?_dropWhile_not isWhite s
    unfold skip at h
    rw [h] at this
    rw [← white_false]
    simpa using this

theorem skip_length (s : List Char) : (skip s).length ≤ s.length := by
  obtain ⟨b, _, h, _⟩ := skip_spec s
  have := congrArg List.length h
  simp at this
  omega

theorem skip_cons_not {c : Char} {r : List Char} (h : ¬ White c) : skip (c :: r) = c :: r := by
  unfold skip
  rw [List.dropWhile_cons_of_neg]
  simpa [white_false] using h

theorem skip_blank {b : List Char} (h : Blank b) (r : List Char) : skip (b ++ r) = skip r := by
  induction b with
  | nil => rfl
  | cons c b ih =>
    unfold skip at *
    rw [List.cons_append, List.dropWhile_cons_of_pos ((white_iff c).2 (h c (by simp)))]
    exact ih fun d hd => h d (by simp [hd])

theorem skip_skip (s : List Char) : skip (skip s) = skip s := by
  obtain ⟨b, hb, h, _⟩ := skip_spec s
  conv => rhs; rw [h]
  rw [skip_blank hb]

theorem skip_nil : skip [] = [] := rfl

/-- Where get_until stops. -/
theorem getUntil_some {chunks : List (List Char)} : ∀ {s : List Char} {f : Found}, getUntil chunks s = some f →
    ∃ c r n, f.at_ = c :: r ∧ s = f.text ++ c :: r ∧ matchAt chunks c r = some (f.chunk, n) ∧ f.after = (c :: r).drop n ∧
      ∀ x d y, f.text = x ++ d :: y → matchAt chunks d (y ++ c :: r) = none
  | [], f, h => by simp [getUntil] at h
  | c :: s, f, h => by
    unfold getUntil at h
    split at h
    · rename_i i n hm
      cases h
      exact ⟨c, s, n, rfl, rfl, hm, rfl, fun x d y h => by simp at h⟩
    · rename_i hm
      cases hg : getUntil chunks s with
      | none => simp [hg] at h
      | some g =>
        simp only [hg, Option.map_some, Option.some.injEq] at h
        obtain ⟨e, r, n, h1, h2, h3, h4, h5⟩ := getUntil_some hg
        subst h
        refine ⟨e, r, n, h1, by simp [h2], h3, h4, ?_⟩
        intro x d y hx
        cases x with
        | nil =>
          simp only [List.nil_append, List.cons.injEq] at hx
          obtain ⟨rfl, rfl⟩ := hx
          rw [← h2]; exact hm
        | cons x0 x =>
          simp only [List.cons_append, List.cons.injEq] at hx
          exact h5 x d y hx.2

theorem getUntil_of {chunks : List (List Char)} {c : Char} {r : List Char} {i n : Nat} (hm : matchAt chunks c r = some (i, n)) :
    ∀ (text : List Char), (∀ x d y, text = x ++ d :: y → matchAt chunks d (y ++ c :: r) = none) →
    getUntil chunks (text ++ c :: r) = some ⟨text, i, c :: r, (c :: r).drop n⟩
  | [], _ => by
    simp only [List.nil_append, getUntil, hm]
  | a :: text, h => by
    have h1 := h [] a text rfl
    have h2 := getUntil_of hm text fun x d y hx => h (a :: x) d y (by simp [hx])
    simp only [List.cons_append, getUntil, h1, h2, Option.map_some]

/-- Before the first mark, a mark that begins in the text lies within the text and the mark. -/
theorem prefix_cut {m : List Char} {d : Char} {y rest : List Char} :
    m <+: d :: y ++ m ++ rest ↔ m <+: d :: y ++ m.dropLast := by
  constructor
  · intro h
    refine List.prefix_of_prefix_length_le h ?_ (by simp; omega)
    cases hm : m with
    | nil => simp
    | cons a m' =>
      have h1 : m = m.dropLast ++ [m.getLast (by simp [hm])] := (List.dropLast_concat_getLast (by simp [hm])).symm
      rw [← hm]
      refine ⟨[m.getLast (by simp [hm])] ++ rest, ?_⟩
      conv => rhs; rw [h1]
      simp
  · intro h
    refine List.IsPrefix.trans h ?_
    rw [List.append_assoc]
    refine (List.prefix_append_right_inj _).2 ?_
    exact List.IsPrefix.trans (List.dropLast_prefix m) (List.prefix_append _ _)

theorem upTo_iff {mark text : List Char} : UpTo mark text ↔
    (mark = [] → False) ∧ ∀ x d y, text = x ++ d :: y → ¬ mark <+: d :: y ++ mark.dropLast := by
  unfold UpTo
  constructor
  · intro h
    refine ⟨fun hm => h (by simp [hm]), fun x d y hx hp => h ?_⟩
    subst hx
    rw [List.append_assoc]
    exact List.IsInfix.trans hp.isInfix (List.suffix_append _ _).isInfix
  · rintro ⟨hm, h⟩ ⟨x, z, hx⟩
    have hl := congrArg List.length hx
    have hpos : 0 < mark.length := List.length_pos_iff.2 hm
    simp only [List.length_append, List.length_dropLast] at hl
    have hlt : x.length < text.length := by omega
    have hxp : x <+: text := by
      refine List.prefix_of_prefix_length_le (l₃ := text ++ mark.dropLast) ?_ (List.prefix_append _ _) (by omega)
      rw [← hx, List.append_assoc]; exact List.prefix_append _ _
    obtain ⟨y, rfl⟩ := hxp
    cases y with
    | nil => simp at hlt
    | cons d y =>
      refine h x d y rfl ⟨z, ?_⟩
      have : x ++ (mark ++ z) = x ++ (d :: y ++ mark.dropLast) := by simpa using hx
      exact List.append_cancel_left this

/-- A single mark that is not a blank. -/
theorem matchAt_single {mark : List Char} (hb : mark ≠ [' ']) (hn : mark ≠ []) (c : Char) (r : List Char) :
    matchAt [mark] c r = if mark <+: c :: r then some (0, mark.length) else none := by
  have h : ([mark] : List (List Char)).contains [' '] = false := by
    simp only [List.contains_eq_mem, List.mem_singleton, decide_eq_false_iff_not]
    exact fun h => hb h.symm
  unfold matchAt
  rw [h]
  simp only [Bool.false_and, Bool.false_eq_true, if_false, firstChunk]
  simp only [hb, hn, ne_eq, not_false_iff, true_and, List.isPrefixOf_iff_prefix]

theorem getUntil_single {mark s : List Char} (hb : mark ≠ [' ']) (hn : mark ≠ []) {f : Found}
    (h : getUntil [mark] s = some f) :
    s = f.text ++ mark ++ f.after ∧ UpTo mark f.text ∧ f.at_ = mark ++ f.after ∧ f.chunk = 0 := by
  obtain ⟨c, r, n, h1, h2, h3, h4, h5⟩ := getUntil_some h
  rw [matchAt_single hb hn] at h3
  split at h3
  · rename_i hp
    obtain ⟨t, ht⟩ := hp
    simp only [Option.some.injEq, Prod.mk.injEq] at h3
    obtain ⟨h3, rfl⟩ := h3
    have ha : f.after = t := by rw [h4, ← ht]; simp
    refine ⟨by rw [h2, ha, List.append_assoc, ht], ?_, by rw [h1, ha, ht], h3.symm⟩
    rw [upTo_iff]
    refine ⟨hn, fun x d y hx hp => ?_⟩
    have := h5 x d y hx
    rw [matchAt_single hb hn, ← ht] at this
    have hp2 := (prefix_cut (rest := t)).2 hp
    rw [List.append_assoc] at hp2
    simp only [List.cons_append] at hp2
    simp [hp2] at this
  · cases h3

theorem getUntil_mark {mark text rest : List Char} (hb : mark ≠ [' ']) (h : UpTo mark text) :
    getUntil [mark] (text ++ mark ++ rest) = some ⟨text, 0, mark ++ rest, rest⟩ := by
  obtain ⟨hn, h⟩ := upTo_iff.1 h
  cases hm : mark with
  | nil => exact absurd hm hn
  | cons c m =>
    have hm1 : matchAt [mark] c (m ++ rest) = some (0, mark.length) := by
      rw [matchAt_single hb hn, if_pos]
      rw [← List.cons_append, ← hm]; exact List.prefix_append _ _
    have := getUntil_of hm1 text fun x d y hx => by
      rw [matchAt_single hb hn, if_neg]
      intro hp
      refine h x d y hx ((prefix_cut (rest := rest)).1 ?_)
      rw [List.append_assoc]
      have he : c :: (m ++ rest) = mark ++ rest := by rw [hm]; rfl
      rw [he] at hp; exact hp
    rw [← hm, List.append_assoc]
    conv => lhs; rw [hm, List.cons_append, ← hm]
    rw [this, ← List.cons_append, ← hm]
    simp

theorem upTo_char {c : Char} {t : List Char} : UpTo [c] t ↔ c ∉ t := by
  unfold UpTo
  rw [show ([c] : List Char).dropLast = [] from rfl, List.append_nil]
  constructor
  · intro h hc
    obtain ⟨x, y, rfl⟩ := List.append_of_mem hc
    exact h ⟨x, y, by simp⟩
  · rintro h ⟨x, y, rfl⟩
    simp at h

end Stream
end Axl
