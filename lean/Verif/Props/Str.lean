/-
Properties C16 to C19: the string utilities of the library.
-/
import Verif.Proofs.StrEdit

namespace Axl
open Spec.Str Str

/-- **C16**.  Trimming a string held in an array (terminator included, whatever follows it) gives
the string without its leading and trailing white space, reports how many bytes it lost, touches
nothing after its new terminator, and trimming again changes nothing. -/
theorem C16_trim (s tail : List Char) (hs : NUL ∉ s) :
    ∃ t rest, Trimmed s t ∧ (∀ t', Trimmed s t' → t' = t) ∧
      trimWithSize (s ++ NUL :: tail) = some (t ++ NUL :: rest, (s.length : Int) - t.length) ∧
      rest = (s ++ NUL :: tail).drop (t.length + 1) ∧
      trimWithSize (t ++ NUL :: rest) = some (t ++ NUL :: rest, 0) := by
  obtain ⟨t, h1, h2⟩ := trimWithSize_spec s tail hs
  refine ⟨t, _, h1, fun t' h => trimmed_unique h h1, h2, rfl, ?_⟩
  have ht : NUL ∉ t := by
    obtain ⟨l, r, e, _⟩ := h1
    intro h; apply hs; rw [e]; simp [h]
  obtain ⟨t', h3, h4⟩ := trimWithSize_spec t ((s ++ NUL :: tail).drop (t.length + 1)) ht
  have := trimmed_unique h3 (trimmed_self h1)
  subst this
  rw [h4]
  simp

example : (trimWithSize (" \ta b\n ".toList ++ NUL :: ['x'])).map (fun r => (toStr r.1, r.2)) = some ("a b".toList, 4) := by
  decide

/-- **C17**, partial (not for the empty string).  Splitting a non-empty string by a non-empty separator and joining the pieces with it
gives the string back; no piece contains the separator; and the pieces are those of the cut from
left to right. -/
theorem C17_join_split_partial (s sep : List Char) (hs : s ≠ []) (hsep : sep ≠ []) :
    ∃ ps, split s [sep] = some ps ∧ join ps sep = some (some s) ∧ (∀ p ∈ ps, ¬ sep <:+: p) ∧
      Splits [sep] s ps := by
  obtain ⟨ps, h1, h2⟩ := split_spec s [sep] hs
  have h3 := splits_parts h2
  refine ⟨ps, h1, ?_, fun p hp => h3.2 p hp sep (by simp) hsep, h2⟩
  rw [join_spec ps sep h3.1, splits_intercalate h2]

example : split "a,,b,".toList [",".toList] = some ["a".toList, [], "b".toList, []] := by decide

/-- **C17** (several separators).  The pieces of a non-empty string are those of the cut from left to
right at the first of the separators found, they are determined by that, and contain none. -/
theorem C17_split_many (s : List Char) (seps : List (List Char)) (hs : s ≠ []) :
    ∃ ps, split s seps = some ps ∧ Splits seps s ps ∧ (∀ qs, Splits seps s qs → qs = ps) ∧
      (∀ p ∈ ps, ∀ x ∈ seps, x ≠ [] → ¬ x <:+: p) := by
  obtain ⟨ps, h1, h2⟩ := split_spec s seps hs
  exact ⟨ps, h1, h2, fun qs h => splits_unique h h2, (splits_parts h2).2⟩

example : split "a;;b,c".toList [";;".toList, ",".toList, ";".toList] =
    some ["a".toList, "b".toList, "c".toList] := by decide

/-- **C17** (the other way).  Joining pieces and splitting the result gives the pieces back, if the
separator is not found too early, that is inside a piece or across its end. -/
theorem C17_split_join (ps : List (List Char)) (l sep : List Char) (hsep : sep ≠ [])
    (hps : ∀ p ∈ ps, ¬ sep <:+: p ++ sep.dropLast) (hl : ¬ sep <:+: l) (hne : ps = [] → l ≠ []) :
    ∃ s, join (ps ++ [l]) sep = some (some s) ∧ split s [sep] = some (ps ++ [l]) := by
  refine ⟨_, join_spec _ sep (by simp), ?_⟩
  have h1 := splits_of_intercalate sep hsep ps l hps hl
  have hs : List.intercalate sep (ps ++ [l]) ≠ [] := by
    intro h0
    have h2 := length_intercalate sep (ps ++ [l])
    rw [h0] at h2
    have hpos := List.length_pos_iff.2 hsep
    cases ps with
    | nil =>
      have := List.length_pos_iff.2 (hne rfl)
      simp at h2; omega
    | cons p ps =>
      simp at h2
      have : 0 < sep.length * (ps.length + 1) := Nat.mul_pos hpos (by omega)
      omega
  obtain ⟨qs, h2, h3⟩ := split_spec _ [sep] hs
  rw [h2, splits_unique h3 h1]

example : ∃ s, join (["a".toList, []] ++ ["bc".toList]) "--".toList = some (some s) ∧
    split s ["--".toList] = some (["a".toList, []] ++ ["bc".toList]) :=
  C17_split_join _ _ _ (by decide) (by decide) (by decide) (by decide)

/-- **C17** fails for the empty string: it is split into no piece at all, and nothing can be joined
(the result is NULL, not the empty string). -/
theorem C17_empty_string_lost (sep : List Char) :
    split [] [sep] = some [] ∧ join [] sep = some none := ⟨split_empty _, rfl⟩

/-- **C17** (cleaning).  Cleaning a split removes the empty pieces and nothing else, in order. -/
theorem C17_clean_split (ps : List (List Char)) : cleanSplit ps = some (ps.filter (· ≠ [])) :=
  cleanSplit_spec ps

example : cleanSplit [[], "a".toList, [], [], "b".toList, []] = some ["a".toList, "b".toList] := by decide

/-- **C18** (replace).  The string given is the only one where every leftmost non-overlapping
occurrence of the pattern is replaced and the rest is the same; the size returned is its size. -/
theorem C18_replace (source pat rep : List Char) :
    ∃ out, replace source pat rep = some (out, out.length) ∧ Rewrites pat rep source out ∧
      ∀ o, Rewrites pat rep source o → o = out := by
  obtain ⟨out, h1, h2⟩ := replace_spec source pat rep
  exact ⟨out, h1, h2, fun o h => rewrites_unique h h2⟩

example : replace "aaaba".toList "aa".toList "xyz".toList = some ("xyzaba".toList, 6) := by decide

/-- **C18** (remove the first).  The array ends up holding the string without the first occurrence of
the pattern, is as long as before, and is the same after the old terminator. -/
theorem C18_remove_first (s tail pat : List Char) (hs : NUL ∉ s) :
    ∃ out rest b, remove (s ++ NUL :: tail) pat true = some b ∧ b = out ++ NUL :: rest ∧
      b.length = (s ++ NUL :: tail).length ∧ NUL :: tail <:+ b ∧ RemovesFirst pat s out := by
  obtain ⟨out, b, h1, ⟨rest, h2, h3, h4⟩, h5⟩ := remove_first_spec s tail pat hs
  exact ⟨out, rest, b, h1, h2, h3, h4, h5⟩

example : (remove ("xabab".toList ++ [NUL]) "ab".toList true).map toStr = some "xab".toList := by decide

/-- **C18** (remove all), partial: the occurrences are deleted if the string does not end with a
rotation of the pattern (other than the pattern).  In particular patterns of one character can
always be removed. -/
theorem C18_remove_all_partial (s tail pat : List Char) (hs : NUL ∉ s)
    (hrot : ∀ x y, x ≠ [] → y ≠ [] → pat = x ++ y → ¬ y ++ x <:+ s) :
    ∃ out rest b, remove (s ++ NUL :: tail) pat false = some b ∧ b = out ++ NUL :: rest ∧
      b.length = (s ++ NUL :: tail).length ∧ NUL :: tail <:+ b ∧ Rewrites pat [] s out := by
  obtain ⟨out, b, h1, ⟨rest, h2, h3, h4⟩, h5⟩ := remove_all_spec s tail pat hs
    (by rintro ⟨x, y, hx, hy, e, h⟩; exact hrot x y hx hy e h)
  exact ⟨out, rest, b, h1, h2, h3, h4, h5⟩

example : (remove ("aabxab".toList ++ [NUL]) "ab".toList false).map toStr = some "ax".toList := by decide

/-- The hypothesis of `C18_remove_all_partial` for patterns of one character. -/
example (c : Char) (s x y : List Char) (hx : x ≠ []) (hy : y ≠ []) (h : [c] = x ++ y) : ¬ y ++ x <:+ s := by
  have := congrArg List.length h
  have := List.length_pos_iff.2 hx
  have := List.length_pos_iff.2 hy
  simp at *
  omega

/-- **C18** fails for axl_stream_remove: after an occurrence is deleted, the bytes left beyond the
new end are still compared, so bytes that are not an occurrence are deleted: "abbba" without "ab"
gives "b", not "bba". -/
theorem C18_remove_deletes_too_much :
    (remove ("abbba".toList ++ [NUL]) "ab".toList false).map toStr = some "b".toList ∧
    Rewrites "ab".toList [] "abbba".toList "bba".toList := by
  refine ⟨by decide, ?_⟩
  have h := replace_spec "abbba".toList "ab".toList []
  obtain ⟨o, h1, h2⟩ := h
  have : replace "abbba".toList "ab".toList [] = some ("bba".toList, 3) := by decide
  rw [this] at h1
  cases h1
  exact h2

/-- **C18** fails for axl_stream_remove: deleting "ab" from "aba" writes before the array. -/
theorem C18_remove_writes_out_of_bounds : remove ("aba".toList ++ [NUL]) "ab".toList false = none := by
  decide

/-- **C19** (axl_cmp).  True exactly for two strings that are the same. -/
theorem C19_cmp (a b : Option (List Char)) : cmp a b = true ↔ ∃ s, a = some s ∧ b = some s := cmp_iff a b

example : cmp (some "abc".toList) (some "abc".toList) = true ∧ cmp (some "abc".toList) (some "ab".toList) = false ∧
    cmp none none = false := by decide

/-- **C19** (axl_casecmp).  True exactly for two strings that are the same up to ASCII case. -/
theorem C19_casecmp (a b : Option (List Char)) :
    caseCmp a b = true ↔ ∃ s t, a = some s ∧ b = some t ∧ SameUpToCase s t := caseCmp_iff a b

example : caseCmp (some "aBc@".toList) (some "AbC@".toList) = true ∧
    caseCmp (some "@".toList) (some "`".toList) = false := by decide

/-- **C19** (axl_stream_casecmp).  True exactly if the strings, cut at the size, are the same up to
ASCII case. -/
theorem C19_stream_casecmp (a b : List Char) (n : Nat) :
    streamCaseCmp a b n = true ↔ SameUpToCase (a.take n) (b.take n) := by
  rw [← strncasecmpEq_iff]
  unfold streamCaseCmp
  rw [if_neg (by omega)]
  simp

example : streamCaseCmp "aBcd".toList "AbCe".toList 3 = true ∧ streamCaseCmp "aB".toList "AbCe".toList 3 = false := by
  decide

/-- **C19** (axl_memcmp).  True exactly if both strings have that many bytes and agree on them; never
for size 0 or less. -/
theorem C19_memcmp (a b : List Char) (n : Int) :
    memcmp a b n = true ↔ 0 < n ∧ n ≤ a.length ∧ n ≤ b.length ∧ a.take n.toNat = b.take n.toNat := by
  by_cases h : 0 < n
  · obtain ⟨m, rfl⟩ : ∃ m : Nat, n = m := ⟨n.toNat, by omega⟩
    rw [memcmp_iff]
    simp
  · rw [memcmp_neg a b n (by omega)]
    simp [h]

example : memcmp "abc".toList "abd".toList 2 = true ∧ memcmp "ab".toList "abc".toList 3 = false := by decide

/-- **C19** (axl_stream_cmp), partial: it decides if the strings agree on the first bytes, for one
byte or more and a first string that is not empty. -/
theorem C19_stream_cmp_partial (a b : List Char) (n : Nat) (hn : 0 < n) (ha : a ≠ []) :
    ∃ r, streamCmp a b n = some r ∧
      (r = true ↔ n ≤ a.length ∧ n ≤ b.length ∧ a.take n = b.take n) := streamCmp_iff a b n hn ha

example : streamCmp "abc".toList "abd".toList 2 = some true ∧ streamCmp "abc".toList "abd".toList 3 = some false := by
  decide

/-- **C19** fails for axl_stream_cmp: no two strings agree on their first 0 bytes, and comparing two
empty strings reads after their terminators. -/
theorem C19_stream_cmp_zero_and_empty :
    (∀ (x y : Char) (s t : List Char), streamCmp (x :: s) (y :: t) 0 = some false) ∧
    (∀ n : Nat, 1 < n → streamCmp [] [] n = none) := by
  constructor
  · intro x y s t
    simp only [streamCmp]
    rw [if_neg (by omega)]
    split
    · rw [memcmp_neg _ _ _ (by omega)]; simp
    · rfl
  · intro n hn
    simp only [streamCmp]
    rw [if_neg (by omega), if_neg (by omega)]

/-- **C19** (case conversion).  Changing the case of a string keeps it the same up to case, and equal
up to case is equal after the conversion. -/
theorem C19_to_lower (s t : List Char) :
    SameUpToCase s (toLowerStr s) ∧ (SameUpToCase s t ↔ toLowerStr s = toLowerStr t) := by
  constructor
  · unfold toLowerStr
    induction s with
    | nil => exact .nil
    | cons c s ih =>
      refine .cons ?_ ih
      have low : ∀ i < 26, toLower (Char.ofNat (97 + i)) = Char.ofNat (97 + i) := by decide
      rcases toLower_of c with ⟨h, _⟩ | ⟨i, hi, h1, h2⟩
      · rw [h]; exact Or.inl rfl
      · exact Or.inr ⟨i, hi, Or.inl ⟨h1, h2⟩⟩
  · induction s generalizing t with
    | nil => cases t <;> simp [toLowerStr, sameUpToCase_nil_left]
    | cons c s ih =>
      cases t with
      | nil => simp [toLowerStr, sameUpToCase_nil_right]
      | cons d t =>
        have := ih t
        simp only [toLowerStr] at this
        simp only [toLowerStr, List.map_cons, List.cons.injEq, sameUpToCase_cons, ← sameLetter_iff, this]

/-- **C19** (case conversion).  The same for capital letters. -/
theorem C19_to_upper (s : List Char) : SameUpToCase s (toUpperStr s) ∧ toLowerStr (toUpperStr s) = toLowerStr s := by
  have key : ∀ c : Char, toLower (toUpper c) = toLower c := by
    intro c
    by_cases h : 97 ≤ c.toNat ∧ c.toNat ≤ 122
    · have ht : ∀ i < 26, toLower (toUpper (Char.ofNat (97 + i))) = toLower (Char.ofNat (97 + i)) := by decide
      have := ht (c.toNat - 97) (by omega)
      rwa [show 97 + (c.toNat - 97) = c.toNat by omega, Char.ofNat_toNat] at this
    · have : toUpper c = c := by
        unfold toUpper
        exact if_neg h
      rw [this]
  have h2 : toLowerStr (toUpperStr s) = toLowerStr s := by
    simp [toLowerStr, toUpperStr, key]
  exact ⟨((C19_to_lower s (toUpperStr s)).2).2 h2.symm, h2⟩

example : toLowerStr "aB@Z".toList = "ab@z".toList ∧ toUpperStr "aB`z".toList = "AB`Z".toList := by decide

end Axl
