/-
Proofs for C81 and C80: the lookup that trims the value of an attribute.
-/
import Verif.Proofs.BuildCopy

namespace Axl.Work
open Spec.Build Spec.Attr Spec.Str
open Str hiding isWhite

theorem white_iff (c : Char) : isWhite c = true ↔ White c := by
  simp [isWhite, White, or_assoc]

theorem takeWhile_white (s : List Char) : ∀ c ∈ s.takeWhile isWhite, White c := by
  induction s with
  | nil => simp
  | cons x s ih =>
    rw [List.takeWhile_cons]
    split
    · next h =>
      intro c hc
      rcases List.mem_cons.1 hc with rfl | hc
      · exact (white_iff _).1 h
      · exact ih c hc
    · simp

theorem dropWhile_white (s : List Char) : ∀ c ∈ (s.dropWhile isWhite).head?, ¬ White c := by
  induction s with
  | nil => simp
  | cons x s ih =>
    rw [List.dropWhile_cons]
    split
    · exact ih
    · next h =>
      intro c hc
      simp only [List.head?_cons, Option.mem_def, Option.some.injEq] at hc
      subst hc
      exact fun hw => h ((white_iff _).2 hw)

/-- The function of the specification does what `Trimmed` says. -/
theorem trimmed_trim (s : List Char) : Trimmed s (trim s) := by
  have h1 : s = s.takeWhile isWhite ++ s.dropWhile isWhite := List.takeWhile_append_dropWhile.symm
  generalize hm : s.dropWhile isWhite = m at h1
  have h2 : m = (m.reverse.dropWhile isWhite).reverse ++ (m.reverse.takeWhile isWhite).reverse := by
    rw [← List.reverse_append, List.takeWhile_append_dropWhile, List.reverse_reverse]
  have ht : trim s = (m.reverse.dropWhile isWhite).reverse := by rw [trim, hm]
  have hhead := dropWhile_white s
  rw [hm] at hhead
  rw [ht]
  refine ⟨s.takeWhile isWhite, (m.reverse.takeWhile isWhite).reverse, ?_, takeWhile_white s, ?_, ?_, ?_⟩
  · rw [List.append_assoc, ← h2]; exact h1
  · intro c hc; exact takeWhile_white _ c (List.mem_reverse.1 hc)
  · intro c hc
    refine hhead c ?_
    generalize (m.reverse.dropWhile isWhite).reverse = x at h2 hc
    rw [h2]
    cases x with
    | nil => cases hc
    | cons y x => simpa using hc
  · intro c hc
    rw [List.getLast?_reverse] at hc
    exact dropWhile_white _ c hc

theorem encode_char (c : Char) : encode [c] = [c] ∨ ∃ m, encode [c] = '&' :: m ++ [';'] := by
  unfold encode
  simp only [List.flatMap_cons, List.flatMap_nil, List.append_nil]
  cases hf : Spec.Escape.entities.find? (fun e => e.2 == c) with
  | none => exact .inl rfl
  | some e =>
    have := List.mem_of_find?_eq_some hf
    simp only [Spec.Escape.entities, List.mem_cons, List.not_mem_nil, or_false] at this
    rcases this with rfl | rfl | rfl | rfl | rfl
    · exact .inr ⟨c!"apos", rfl⟩
    · exact .inr ⟨c!"quot", rfl⟩
    · exact .inr ⟨c!"amp", rfl⟩
    · exact .inr ⟨c!"gt", rfl⟩
    · exact .inr ⟨c!"lt", rfl⟩

theorem encode_append (s t : List Char) : encode (s ++ t) = encode s ++ encode t := by simp [encode]

theorem encode_whites : ∀ {s : List Char}, (∀ c ∈ s, White c) → encode s = s
  | [], _ => rfl
  | c :: s, h => by
    have h1 : encode [c] = [c] := by rcases h c (by simp) with rfl | rfl | rfl | rfl <;> decide
    have := encode_append [c] s
    rw [h1, encode_whites (s := s) fun d hd => h d (List.mem_cons_of_mem _ hd)] at this
    exact this

/-- Escaping and trimming can be done in any order. -/
theorem trimmed_encode {s t : List Char} (h : Trimmed s t) : Trimmed (encode s) (encode t) := by
  obtain ⟨l, r, rfl, h1, h2, h3, h4⟩ := h
  refine ⟨l, r, ?_, h1, h2, ?_, ?_⟩
  · rw [encode_append, encode_append, encode_whites h1, encode_whites h2]
  · cases t with
    | nil => simp [encode]
    | cons c t =>
      rw [show c :: t = [c] ++ t from rfl, encode_append]
      rcases encode_char c with e | ⟨m, e⟩
      · rw [e]; intro d hd; exact h3 d (by simpa using hd)
      · rw [e]
        intro d hd
        simp only [List.cons_append, List.head?_cons, Option.mem_def, Option.some.injEq] at hd
        subst hd
        unfold White
        decide
  · cases hl : t.getLast? with
    | none =>
      rw [List.getLast?_eq_none_iff] at hl
      subst hl
      simp [encode]
    | some c =>
      obtain ⟨t0, rfl⟩ := List.getLast?_eq_some_iff.1 hl
      rw [encode_append]
      rcases encode_char c with e | ⟨m, e⟩
      · rw [e]; intro d hd; exact h4 d (by simpa using hd)
      · rw [e, ← List.append_assoc]
        intro d hd
        rw [List.getLast?_append] at hd
        simp at hd
        subst hd
        unfold White
        decide

theorem nul_trim {s : List Char} (h : NUL ∉ s) : NUL ∉ trim s := by
  obtain ⟨l, r, e, -⟩ := trimmed_trim s
  intro hm
  exact h (by rw [e]; simp only [List.mem_append]; exact .inl (.inr hm))

theorem find_of_mem : ∀ {ps : List (List Char × List Char)}, (ps.map (·.1)).Nodup → ∀ {p}, p ∈ ps → ps.find? (·.1 == p.1) = some p
  | [], _, _, h => by cases h
  | q :: ps, hd, p, h => by
    rw [List.map_cons, List.nodup_cons] at hd
    rw [List.find?_cons]
    rcases List.mem_cons.1 h with rfl | h
    · simp
    · have : q.1 ≠ p.1 := fun e => hd.1 (by rw [e]; exact List.mem_map_of_mem h)
      rw [beq_eq_false_iff_ne.2 this]
      exact find_of_mem hd.2 h

/-- The lookup on attributes that hold these pairs. -/
theorem trim_rep {a : Attrs} {ps : List (List Char × List Char)} (hm : a.Made) (hr : Attrs.Rep a ps) (hn : ∀ p ∈ ps, NUL ∉ p.2) (k : List Char) :
    ∃ r b, a.getValueTrimmed k = some (r, b) ∧ b.Made ∧ Attrs.Rep b (trimPair k ps) := by
  rcases Attrs.rep_trimmed hr k hn with ⟨h0, g⟩ | ⟨v, t, b, h1, h2, g, h3⟩
  · refine ⟨none, a, g, hm, ?_⟩
    have : trimPair k ps = ps := by
      unfold trimPair
      conv => rhs; rw [← List.map_id ps]
      refine List.map_congr_left fun p hp => ?_
      have := List.find?_eq_none.1 h0 p hp
      simp only [this]
      rfl
    rw [this]; exact hr
  · refine ⟨some t, b, g, .trimmed hm g, ?_⟩
    have : trimPair k ps = Attrs.setPair k t ps := by
      unfold trimPair Attrs.setPair
      refine List.map_congr_left fun p hp => ?_
      by_cases e : p.1 = k
      · subst e
        obtain ⟨q, hq, rfl⟩ := Option.map_eq_some_iff.1 h1
        have hpq : q = p := by
          rw [find_of_mem hr.1 hp] at hq
          exact (Option.some.inj hq).symm
        subst hpq
        rw [trimmed_unique h2 (trimmed_trim q.2)]
      · have e' : (p.1 == k) = false := by simpa using e
        simp [e']
    rw [this]; exact h3

theorem Fit.trimmed {a : Attrs} {ps : List (List Char × List Char)} (F : Fit a ps) (k : List Char) :
    ∃ r b, a.getValueTrimmed k = some (r, b) ∧ Fit b (trimPair k ps) := by
  obtain ⟨r, b, h1, h2, h3⟩ := trim_rep F.made F.rep (by
    intro p hp
    obtain ⟨q, hq, rfl⟩ := List.mem_map.1 hp
    exact Attrs.nul_encode (F.good q hq).2.2) k
  refine ⟨r, b, h1, h2, ?_, ?_⟩
  · have : trimPair k (ps.map ep) = (trimPair k ps).map ep := by
      unfold trimPair
      rw [List.map_map, List.map_map]
      refine List.map_congr_left fun p _ => ?_
      show (if p.1 == k then (p.1, trim (encode p.2)) else (p.1, encode p.2)) = ep (if p.1 == k then (p.1, trim p.2) else p)
      split
      · rw [trimmed_unique (trimmed_trim (encode p.2)) (trimmed_encode (trimmed_trim p.2))]
        rfl
      · rfl
    rw [← this]; exact h3
  · intro p hp
    obtain ⟨q, hq, rfl⟩ := List.mem_map.1 hp
    obtain ⟨g1, g2, g3⟩ := F.good q hq
    split
    · exact ⟨g1, g2, nul_trim g3⟩
    · exact ⟨g1, g2, g3⟩

end Axl.Work
