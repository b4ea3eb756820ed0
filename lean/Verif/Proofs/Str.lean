/-
Proofs about the string utilities.
-/
import Verif.Model.Str
import Verif.Spec.Str

namespace Axl
namespace Str
open Spec.Str

/-! ### Comparisons -/

theorem memcmpFrom_iff (size : Int) (i : Int) (s t : List Char) :
    memcmpFrom size i s t = true ↔
      i < size ∧ (size - i).toNat ≤ s.length ∧ (size - i).toNat ≤ t.length ∧
        s.take (size - i).toNat = t.take (size - i).toNat := by
  induction s generalizing i t with
  | nil => simp [memcmpFrom]; omega
  | cons a s ih =>
    cases t with
    | nil => simp [memcmpFrom]; omega
    | cons b t =>
      unfold memcmpFrom
      by_cases hab : a = b
      · subst hab
        simp only [ne_eq, not_true_eq_false, if_false]
        by_cases h1 : i + 1 = size
        · have : (size - i).toNat = 1 := by omega
          simp [h1, this]; omega
        · simp only [h1, if_false]
          rw [ih]
          by_cases h2 : i < size
          · have e : (size - i).toNat = (size - (i + 1)).toNat + 1 := by omega
            rw [e]
            simp only [List.take_succ_cons, List.length_cons, List.cons.injEq, true_and]
            constructor
            · rintro ⟨a1, a2, a3, a4⟩; exact ⟨h2, by omega, by omega, a4⟩
            · rintro ⟨a1, a2, a3, a4⟩; exact ⟨by omega, by omega, by omega, a4⟩
          · constructor
            · rintro ⟨a1, _⟩; omega
            · rintro ⟨a1, _⟩; omega
      · simp only [ne_eq, hab, not_false_eq_true, if_true]
        constructor
        · intro h; cases h
        · rintro ⟨h1, _, _, h4⟩
          have e : (size - i).toNat = (size - i).toNat - 1 + 1 := by omega
          rw [e] at h4
          simp [hab] at h4

theorem memcmp_iff (s t : List Char) (n : Nat) :
    memcmp s t n = true ↔ 0 < n ∧ n ≤ s.length ∧ n ≤ t.length ∧ s.take n = t.take n := by
  unfold memcmp
  rw [memcmpFrom_iff]
  simp

theorem memcmp_neg (s t : List Char) (n : Int) (h : n ≤ 0) : memcmp s t n = false := by
  apply Bool.eq_false_iff.2
  intro h'
  unfold memcmp at h'
  rw [memcmpFrom_iff] at h'
  omega

theorem memcmp_prefix (s pat : List Char) :
    memcmp s pat pat.length = true ↔ pat ≠ [] ∧ pat <+: s := by
  rw [memcmp_iff]
  constructor
  · rintro ⟨h1, h2, _, h3⟩
    refine ⟨by intro h; simp [h] at h1, ?_⟩
    rw [List.take_length] at h3
    rw [← h3]
    exact List.take_prefix _ _
  · rintro ⟨h1, h2⟩
    refine ⟨List.length_pos_iff.2 h1, h2.length_le, Nat.le_refl _, ?_⟩
    rw [List.take_length, ← List.prefix_iff_eq_take.1 h2]

theorem cmpLoop_iff (a b : List Char) : cmpLoop a b = true ↔ a = b := by
  induction a generalizing b with
  | nil => cases b <;> simp [cmpLoop]
  | cons x a ih =>
    cases b with
    | nil => simp [cmpLoop]
    | cons y b =>
      unfold cmpLoop
      by_cases h : x = y
      · simp [h, ih]
      · simp [h]

theorem cmp_iff (a b : Option (List Char)) : cmp a b = true ↔ ∃ s, a = some s ∧ b = some s := by
  cases a with
  | none => simp [cmp]
  | some a =>
    cases b with
    | none => simp [cmp]
    | some b =>
      rw [cmp, cmpLoop_iff]
      simp
      exact eq_comm

theorem streamCmp_iff (a b : List Char) (n : Nat) (hn : 0 < n) (ha : a ≠ []) :
    ∃ r, streamCmp a b n = some r ∧
      (r = true ↔ n ≤ a.length ∧ n ≤ b.length ∧ a.take n = b.take n) := by
  cases a with
  | nil => exact absurd rfl ha
  | cons x s =>
    have hn0 : ¬ ((n : Int) < 0) := by omega
    cases b with
    | nil =>
      refine ⟨false, by simp [streamCmp, hn0], ?_⟩
      simp; omega
    | cons y t =>
      obtain ⟨m, rfl⟩ : ∃ m, n = m + 1 := ⟨n - 1, by omega⟩
      have e : ((m + 1 : Nat) : Int) - 1 = (m : Nat) := by omega
      by_cases h : x = y
      · subst h
        refine ⟨((m + 1 : Nat) : Int) == 1 || memcmp s t (((m + 1 : Nat) : Int) - 1), by simp only [streamCmp, hn0, if_false, if_true], ?_⟩
        rw [Bool.or_eq_true, e, memcmp_iff]
        simp only [List.length_cons, List.take_succ_cons, List.cons.injEq, true_and, beq_iff_eq]
        constructor
        · rintro (h1 | ⟨h1, h2, h3, h4⟩)
          · have : m = 0 := by omega
            subst this; simp
          · exact ⟨by omega, by omega, h4⟩
        · rintro ⟨h1, h2, h3⟩
          by_cases hm : m = 0
          · left; omega
          · right; exact ⟨by omega, by omega, by omega, h3⟩
      · refine ⟨false, by simp only [streamCmp, hn0, if_false, h], ?_⟩
        simp [h]

theorem toLower_of (c : Char) : toLower c = c ∧ ¬ (65 ≤ c.toNat ∧ c.toNat ≤ 90) ∨
    ∃ i < 26, c = Char.ofNat (65 + i) ∧ toLower c = Char.ofNat (97 + i) := by
  unfold toLower
  have hA : 'A'.toNat = 65 := by decide
  have hZ : 'Z'.toNat = 90 := by decide
  rw [hA, hZ]
  by_cases h : 65 ≤ c.toNat ∧ c.toNat ≤ 90
  · right
    refine ⟨c.toNat - 65, by omega, ?_, ?_⟩
    · rw [show 65 + (c.toNat - 65) = c.toNat by omega, Char.ofNat_toNat]
    · rw [if_pos h]; congr 1; omega
  · left; exact ⟨if_neg h, h⟩

theorem toNat_ofNat_small (n : Nat) (h : n < 256) : (Char.ofNat n).toNat = n := by
  have hv : n.isValidChar := Or.inl (by omega)
  simp [Char.ofNat, hv, Char.ofNatAux, Char.toNat]

theorem sameLetter_iff (a b : Char) : toLower a = toLower b ↔ SameLetter a b := by
  have low : ∀ i < 26, toLower (Char.ofNat (97 + i)) = Char.ofNat (97 + i) := by decide
  have up : ∀ i < 26, toLower (Char.ofNat (65 + i)) = Char.ofNat (97 + i) := by decide
  constructor
  · intro h
    rcases toLower_of a with ⟨h1, h1'⟩ | ⟨i, hi, h1, h2⟩
    · rcases toLower_of b with ⟨h3, _⟩ | ⟨j, hj, h3, h4⟩
      · left; rw [← h1, ← h3, h]
      · right; refine ⟨j, hj, Or.inr ⟨?_, h3⟩⟩
        rw [← h1, h, h4]
    · rcases toLower_of b with ⟨h3, _⟩ | ⟨j, hj, h3, h4⟩
      · right; refine ⟨i, hi, Or.inl ⟨h1, ?_⟩⟩
        rw [← h3, ← h, h2]
      · left
        rw [h2, h4] at h
        have := congrArg Char.toNat h
        rw [toNat_ofNat_small _ (by omega), toNat_ofNat_small _ (by omega)] at this
        have : i = j := by omega
        rw [h1, h3, this]
  · rintro (h | ⟨i, hi, ⟨h1, h2⟩ | ⟨h1, h2⟩⟩)
    · rw [h]
    · rw [h1, h2, up i hi, low i hi]
    · rw [h1, h2, up i hi, low i hi]

theorem sameUpToCase_nil_left (t : List Char) : SameUpToCase [] t ↔ t = [] := by
  constructor
  · intro h; cases h; rfl
  · intro h; subst h; exact .nil

theorem sameUpToCase_nil_right (t : List Char) : SameUpToCase t [] ↔ t = [] := by
  constructor
  · intro h; cases h; rfl
  · intro h; subst h; exact .nil

theorem sameUpToCase_cons (a b : Char) (s t : List Char) :
    SameUpToCase (a :: s) (b :: t) ↔ SameLetter a b ∧ SameUpToCase s t := by
  constructor
  · intro h; cases h with | cons h1 h2 => exact ⟨h1, h2⟩
  · rintro ⟨h1, h2⟩; exact .cons h1 h2

theorem SameUpToCase.length {s t : List Char} (h : SameUpToCase s t) : s.length = t.length := by
  induction h with
  | nil => rfl
  | cons _ _ ih => simp [ih]

theorem strncasecmpEq_iff (s t : List Char) (n : Nat) :
    strncasecmpEq s t n = true ↔ SameUpToCase (s.take n) (t.take n) := by
  induction n generalizing s t with
  | zero => simp [strncasecmpEq, SameUpToCase.nil]
  | succ n ih =>
    cases s with
    | nil => cases t <;> simp [strncasecmpEq, sameUpToCase_nil_left]
    | cons a s =>
      cases t with
      | nil => simp [strncasecmpEq, sameUpToCase_nil_right]
      | cons b t =>
        unfold strncasecmpEq
        rw [List.take_succ_cons, List.take_succ_cons, sameUpToCase_cons, ← sameLetter_iff, ← ih]
        split <;> simp_all

theorem caseCmp_iff (a b : Option (List Char)) :
    caseCmp a b = true ↔ ∃ s t, a = some s ∧ b = some t ∧ SameUpToCase s t := by
  cases a with
  | none => simp [caseCmp]
  | some a =>
    cases b with
    | none => simp [caseCmp]
    | some b =>
      have h0 : ¬ ((a.length : Int) < 0) := by omega
      by_cases h : a.length = b.length
      · have e : caseCmp (some a) (some b) = strncasecmpEq a b a.length := by
          simp [caseCmp, h, streamCaseCmp]
        rw [e, strncasecmpEq_iff, List.take_length, h, List.take_length]
        simp
      · constructor
        · intro h'; simp [caseCmp, h] at h'
        · rintro ⟨s, t, h1, h2, h3⟩
          cases h1; cases h2
          exact absurd (SameUpToCase.length h3) h

/-! ### Arrays -/

theorem rd_nat (b : List Char) (i : Nat) : rd b i = b[i]? := by
  unfold rd; rw [if_neg (by omega)]; rfl

theorem wr_nat (b : List Char) (i : Nat) (c : Char) (h : i < b.length) : wr b i c = some (b.set i c) := by
  unfold wr; rw [if_pos ⟨by omega, by simpa using h⟩]; rfl

theorem strlen_spec (s tail : List Char) (hs : NUL ∉ s) : strlen (s ++ NUL :: tail) = some s.length := by
  induction s with
  | nil => simp [strlen]
  | cons c s ih =>
    simp only [List.mem_cons, not_or] at hs
    rw [List.cons_append, strlen, if_neg (fun h => hs.1 h.symm), ih hs.2]
    simp

theorem toStr_spec (s tail : List Char) (hs : NUL ∉ s) : toStr (s ++ NUL :: tail) = s := by
  induction s with
  | nil => simp [toStr]
  | cons c s ih =>
    simp only [List.mem_cons, not_or] at hs
    have : c ≠ NUL := fun h => hs.1 h.symm
    have ih := ih hs.2
    simp only [toStr, List.cons_append] at ih ⊢
    rw [List.takeWhile_cons, if_pos (by simpa using this), ih]

theorem isWhite_iff (c : Char) : isWhite c = true ↔ White c := by
  simp [isWhite, White, or_assoc]

theorem not_white_nul : isWhite NUL = false := by decide

theorem moveBytes_get (dst src : Nat) (n : Nat) : ∀ (i : Nat) (b : List Char), dst ≤ src →
    src + i + n ≤ b.length →
    ∃ b', moveBytes dst src n i b = some b' ∧ b'.length = b.length ∧
      ∀ k : Nat, b'[k]? = if dst + i ≤ k ∧ k < dst + i + n then b[k - dst + src]? else b[k]? := by
  induction n with
  | zero =>
    intro i b _ _
    refine ⟨b, rfl, rfl, ?_⟩
    intro k
    rw [if_neg (by omega)]
  | succ n ih =>
    intro i b h1 h2
    unfold moveBytes
    have hlt : src + i < b.length := by omega
    have hlt' : dst + i < b.length := by omega
    have e1 : (src : Int) + (i : Int) = ((src + i : Nat) : Int) := by omega
    have e2 : (dst : Int) + (i : Int) = ((dst + i : Nat) : Int) := by omega
    have e3 : (i : Int) + 1 = ((i + 1 : Nat) : Int) := by omega
    rw [e1, rd_nat, List.getElem?_eq_getElem hlt]
    simp only [Option.bind_eq_bind, Option.bind_some]
    rw [e2, wr_nat _ _ _ hlt']
    simp only [Option.bind_some]
    rw [e3]
    obtain ⟨b', g1, g2, g3⟩ := ih (i + 1) (b.set (dst + i) b[src + i]) h1 (by simp; omega)
    refine ⟨b', g1, by simpa using g2, ?_⟩
    intro k
    rw [g3]
    by_cases hk : dst + i = k
    · subst hk
      rw [if_neg (by omega), if_pos (by omega)]
      simp only [List.getElem?_set_self hlt']
      rw [show dst + i - dst + src = src + i by omega, List.getElem?_eq_getElem hlt]
    · by_cases hk2 : dst + (i + 1) ≤ k ∧ k < dst + (i + 1) + n
      · rw [if_pos hk2, if_pos (by omega), List.getElem?_set_ne (by omega)]
      · rw [if_neg hk2, if_neg (by omega), List.getElem?_set_ne (by omega)]

theorem moveBytes_spec (A P R T : List Char) :
    moveBytes A.length (A.length + P.length : Nat) R.length 0 (A ++ P ++ R ++ T) =
      some (A ++ R ++ (P ++ R).drop R.length ++ T) := by
  obtain ⟨b', g1, g2, g3⟩ := moveBytes_get A.length (A.length + P.length) R.length 0 (A ++ P ++ R ++ T)
    (by omega) (by simp; omega)
  have g1 : moveBytes A.length (A.length + P.length : Nat) R.length 0 (A ++ P ++ R ++ T) = some b' := g1
  rw [g1]
  congr 1
  apply List.ext_getElem?
  intro k
  rw [g3]
  simp only [List.getElem?_append, List.length_append, List.length_drop, List.getElem?_drop]
  clear g1 g3
  repeat' split
  all_goals first | omega | rfl | (congr 1; omega)

/-! ### Trim -/

theorem trimBegin_spec (pre w : List Char) (c : Char) (rest : List Char) (hw : ∀ x ∈ w, White x)
    (hc : ¬ White c) : ∀ fuel, w.length < fuel →
    trimBegin (pre ++ w ++ c :: rest) fuel (pre.length : Nat) = some ((pre.length + w.length : Nat) : Int) := by
  induction w generalizing pre with
  | nil =>
    intro fuel hf
    obtain ⟨f, rfl⟩ : ∃ f, fuel = f + 1 := ⟨fuel - 1, by simp at hf; omega⟩
    unfold trimBegin
    have : isWhite c = false := by
      apply Bool.eq_false_iff.2; rw [Ne, isWhite_iff]; exact hc
    rw [rd_nat]
    simp [this]
  | cons x w ih =>
    intro fuel hf
    obtain ⟨f, rfl⟩ : ∃ f, fuel = f + 1 := ⟨fuel - 1, by simp at hf; omega⟩
    unfold trimBegin
    have hx : isWhite x = true := (isWhite_iff x).2 (hw x (by simp))
    have hx0 : x ≠ NUL := by intro h; rw [h, not_white_nul] at hx; cases hx
    have := ih (pre ++ [x]) (fun y hy => hw y (by simp [hy])) f (by simp at hf; omega)
    rw [rd_nat]
    simp only [List.append_assoc, List.cons_append, List.nil_append, List.length_append,
      List.length_cons, List.length_nil] at this ⊢
    rw [List.getElem?_append_right (Nat.le_refl _)]
    simp only [Nat.sub_self, List.getElem?_cons_zero, Option.bind_eq_bind, Option.bind_some, hx0,
      if_false, hx]
    rw [show ((pre.length : Nat) : Int) + 1 = ((pre.length + (0 + 1) : Nat) : Int) by omega, if_neg (by simp)]
    rw [this]
    congr 1; omega

theorem trimEnd_spec (pre w : List Char) (c : Char) (rest : List Char) (hw : ∀ x ∈ w, White x)
    (hc : ¬ White c) : ∀ fuel, w.length < fuel →
    trimEnd (pre ++ c :: w ++ rest) fuel (pre.length + w.length : Nat) = some ((pre.length : Nat) : Int) := by
  induction h : w.length generalizing w rest with
  | zero =>
    have : w = [] := List.eq_nil_of_length_eq_zero h
    subst this
    intro fuel hf
    obtain ⟨f, rfl⟩ : ∃ f, fuel = f + 1 := ⟨fuel - 1, by omega⟩
    unfold trimEnd
    have : isWhite c = false := by
      apply Bool.eq_false_iff.2; rw [Ne, isWhite_iff]; exact hc
    rw [rd_nat]
    simp [this]
  | succ n ih =>
    intro fuel hf
    obtain ⟨f, rfl⟩ : ∃ f, fuel = f + 1 := ⟨fuel - 1, by omega⟩
    have hne : w ≠ [] := by intro h'; simp [h'] at h
    obtain ⟨w', x, rfl⟩ : ∃ w' x, w = w' ++ [x] := ⟨w.dropLast, w.getLast hne, (List.dropLast_concat_getLast _).symm⟩
    simp only [List.length_append, List.length_cons, List.length_nil, Nat.add_right_cancel_iff] at h
    unfold trimEnd
    have hx : isWhite x = true := (isWhite_iff x).2 (hw x (by simp))
    have hx0 : x ≠ NUL := by intro h; rw [h, not_white_nul] at hx; cases hx
    have := ih w' (x :: rest) (fun y hy => hw y (by simp [hy])) h f (by omega)
    rw [rd_nat]
    have e : (pre ++ c :: (w' ++ [x]) ++ rest)[pre.length + (n + 1)]? = some x := by
      rw [show pre ++ c :: (w' ++ [x]) ++ rest = (pre ++ c :: w') ++ x :: rest by simp]
      rw [List.getElem?_append_right (by simp; omega)]
      simp [h]
    rw [e]
    simp only [Option.bind_eq_bind, Option.bind_some, hx0, if_false, hx]
    rw [if_neg (by simp), show ((pre.length + (n + 1) : Nat) : Int) - 1 = ((pre.length + n : Nat) : Int) by omega]
    rw [← this]
    simp

theorem exists_trimmed (s : List Char) : ∃ l t r, s = l ++ t ++ r ∧ (∀ c ∈ l, White c) ∧
    (∀ c ∈ r, White c) ∧ (∀ c ∈ t.head?, ¬ White c) ∧ (∀ c ∈ t.getLast?, ¬ White c) ∧
    (t = [] → r = []) := by
  induction s with
  | nil => exact ⟨[], [], [], by simp⟩
  | cons c s ih =>
    obtain ⟨l, t, r, h1, h2, h3, h4, h5, h6⟩ := ih
    by_cases hc : White c
    · exact ⟨c :: l, t, r, by simp [h1], by simpa [hc] using h2, h3, h4, h5, h6⟩
    · by_cases ht : t = []
      · refine ⟨[], [c], l, ?_, by simp, h2, by simpa using hc, by simpa using hc, by simp⟩
        simp [h1, ht, h6 ht]
      · refine ⟨[], c :: l ++ t, r, by simp [h1], by simp, h3, by simpa using hc, ?_, by simp⟩
        intro x hx
        apply h5
        rw [List.getLast?_append] at hx
        cases hl : t.getLast? with
        | none => simp at hl; exact absurd hl ht
        | some y => simpa [hl] using hx

theorem trimmed_unique_aux {l l' t t' r r' : List Char} (h : l ++ t ++ r = l' ++ t' ++ r')
    (hl : ∀ c ∈ l, White c) (hl' : ∀ c ∈ l', White c) (hr : ∀ c ∈ r, White c) (hr' : ∀ c ∈ r', White c)
    (hh : ∀ c ∈ t.head?, ¬ White c) (hh' : ∀ c ∈ t'.head?, ¬ White c)
    (ht : ∀ c ∈ t.getLast?, ¬ White c) (ht' : ∀ c ∈ t'.getLast?, ¬ White c) : t = t' := by
  cases t with
  | nil =>
    cases t' with
    | nil => rfl
    | cons x t' =>
      have : x ∈ l ++ [] ++ r := by rw [h]; simp
      simp at this
      exact absurd (this.elim (hl x) (hr x)) (hh' x rfl)
  | cons x t =>
    cases t' with
    | nil =>
      have : x ∈ l' ++ [] ++ r' := by rw [← h]; simp
      simp at this
      exact absurd (this.elim (hl' x) (hr' x)) (hh x rfl)
    | cons y t' =>
      have hll : l.length = l'.length := by
        rcases Nat.lt_trichotomy l.length l'.length with h1 | h1 | h1
        · have e := congrArg (fun z => z[l.length]?) h
          simp only [List.append_assoc, List.cons_append] at e
          rw [List.getElem?_append_right (Nat.le_refl _), List.getElem?_append_left h1] at e
          simp at e
          exact absurd (hl' _ (List.mem_of_getElem? e.symm)) (hh x rfl)
        · exact h1
        · have e := congrArg (fun z => z[l'.length]?) h
          simp only [List.append_assoc, List.cons_append] at e
          rw [List.getElem?_append_left h1, List.getElem?_append_right (Nat.le_refl _)] at e
          simp [List.getElem?_eq_getElem h1] at e
          exact absurd (hl _ (by rw [← e]; exact List.getElem_mem h1)) (hh' y rfl)
      have h' : l ++ ((x :: t) ++ r) = l' ++ ((y :: t') ++ r') := by simpa using h
      obtain ⟨_, h2⟩ := List.append_inj h' hll
      have last : ∀ {u v w z : List Char}, u ++ w = v ++ z → (∀ c ∈ w, White c) →
          (∀ c ∈ v.getLast?, ¬ White c) → v ≠ [] → v.length ≤ u.length := by
        intro u v w z e hw hv hne
        apply Decidable.byContradiction
        intro hlt
        have e2 := congrArg (fun q => q[v.length - 1]?) e
        have hpos : 0 < v.length := List.length_pos_iff.2 hne
        rw [List.getElem?_append_right (by omega), List.getElem?_append_left (by omega)] at e2
        have e3 : v[v.length - 1]? = v.getLast? := by rw [List.getLast?_eq_getElem?]
        rw [e3] at e2
        cases hg : v.getLast? with
        | none => simp at hg; exact absurd hg hne
        | some c =>
          rw [hg] at e2
          exact hv c hg (hw c (List.mem_of_getElem? e2))
      have l1 := last h2 hr ht' (by simp)
      have l2 := last h2.symm hr' ht (by simp)
      exact (List.append_inj h2 (by omega)).1

theorem trimmed_unique {s t t' : List Char} (h : Trimmed s t) (h' : Trimmed s t') : t = t' := by
  obtain ⟨l, r, h1, h2, h3, h4, h5⟩ := h
  obtain ⟨l', r', g1, g2, g3, g4, g5⟩ := h'
  exact trimmed_unique_aux (h1.symm.trans g1) h2 g2 h3 g3 h4 g4 h5 g5

theorem trimmed_self {s t : List Char} (h : Trimmed s t) : Trimmed t t := by
  obtain ⟨l, r, h1, h2, h3, h4, h5⟩ := h
  exact ⟨[], [], by simp, by simp, by simp, h4, h5⟩

theorem set_append_nul (t X : List Char) (h : X ≠ []) : (t ++ X).set t.length NUL = t ++ NUL :: X.drop 1 := by
  rw [List.set_append_right _ _ (Nat.le_refl _)]
  cases X with
  | nil => exact absurd rfl h
  | cons a X => simp

theorem trimWithSize_spec (s tail : List Char) (hs : NUL ∉ s) :
    ∃ t, Trimmed s t ∧ trimWithSize (s ++ NUL :: tail) =
      some (t ++ NUL :: (s ++ NUL :: tail).drop (t.length + 1), (s.length : Int) - t.length) := by
  obtain ⟨l, t, r, h1, h2, h3, h4, h5, h6⟩ := exists_trimmed s
  refine ⟨t, ⟨l, r, h1, h2, h3, h4, h5⟩, ?_⟩
  unfold trimWithSize
  rw [strlen_spec s tail hs]
  simp only [Option.bind_eq_bind, Option.bind_some]
  by_cases h0 : s.length = 0
  · have : s = [] := List.eq_nil_of_length_eq_zero h0
    subst this
    have : t = [] := by
      have := congrArg List.length h1
      simp at this
      exact List.eq_nil_of_length_eq_zero (by omega)
    subst this
    simp
  · rw [if_neg h0]
    cases t with
    | nil =>
      have hr := h6 rfl
      subst hr
      have e : s = l := by simpa using h1
      have := trimBegin_spec [] l NUL tail h2 (by rw [← isWhite_iff]; decide) (s.length + 1) (by rw [e]; omega)
      have : trimBegin (s ++ NUL :: tail) (s.length + 1) 0 = some (s.length : Int) := by
        rw [e] at this ⊢; simpa using this
      rw [this]
      simp only [Option.bind_some, if_true]
      have := wr_nat (s ++ NUL :: tail) 0 NUL (by simp; omega)
      have : wr (s ++ NUL :: tail) 0 NUL = some ((s ++ NUL :: tail).set 0 NUL) := this
      rw [this]
      simp only [Option.bind_some]
      have := set_append_nul [] (s ++ NUL :: tail) (by simp)
      simp only [List.nil_append, List.length_nil] at this
      rw [this]
      simp
    | cons c t =>
      have hc : ¬ White c := h4 c rfl
      obtain ⟨t0, d, hd⟩ : ∃ t0 d, c :: t = t0 ++ [d] :=
        ⟨(c :: t).dropLast, (c :: t).getLast (by simp), (List.dropLast_concat_getLast _).symm⟩
      have hdw : ¬ White d := by
        apply h5; rw [hd]; simp
      have hlen : s.length = l.length + (t0.length + 1) + r.length := by
        rw [h1, hd]; simp; omega
      have b1 : trimBegin (s ++ NUL :: tail) (s.length + 1) 0 = some (l.length : Int) := by
        have := trimBegin_spec [] l c (t ++ r ++ NUL :: tail) h2 hc (s.length + 1) (by omega)
        rw [h1]
        rw [h1] at this
        simpa using this
      have b2 : trimEnd (s ++ NUL :: tail) (s.length + 1) ((s.length : Int) - 1) = some ((l.length + t0.length : Nat) : Int) := by
        have := trimEnd_spec (l ++ t0) r d (NUL :: tail) h3 hdw (s.length + 1) (by omega)
        have e : s ++ NUL :: tail = l ++ t0 ++ d :: r ++ NUL :: tail := by rw [h1, hd]; simp
        rw [← e] at this
        rw [show (s.length : Int) - 1 = (((l ++ t0).length + r.length : Nat) : Int) by simp; omega, this]
        simp
      rw [b1]
      simp only [Option.bind_some]
      rw [if_neg (by omega), b2]
      simp only [Option.bind_some]
      have hT : ((l.length + t0.length : Nat) : Int) - (l.length : Int) + 1 = ((c :: t).length : Int) := by
        rw [hd]; simp; omega
      rw [hT]
      have mv := moveBytes_spec [] l (c :: t) (r ++ NUL :: tail)
      have e : s ++ NUL :: tail = [] ++ l ++ (c :: t) ++ (r ++ NUL :: tail) := by rw [h1]; simp
      have mv : moveBytes 0 (l.length : Int) ((c :: t).length : Int).toNat 0 (s ++ NUL :: tail) =
          some ((c :: t) ++ ((l ++ c :: t).drop (c :: t).length ++ (r ++ NUL :: tail))) := by
        rw [e]
        simpa using mv
      rw [mv]
      simp only [Option.bind_some]
      rw [wr_nat _ _ _ (by simp; omega)]
      simp only [Option.bind_some]
      rw [set_append_nul _ _ (by simp)]
      congr 2
      · congr 1
        congr 1
        have : (l ++ c :: t).drop (c :: t).length ++ (r ++ NUL :: tail) = (s ++ NUL :: tail).drop (c :: t).length := by
          rw [h1, show l ++ c :: t ++ r ++ NUL :: tail = (l ++ c :: t) ++ (r ++ NUL :: tail) by simp,
            List.drop_append_of_le_length (l₁ := l ++ c :: t) (by simp)]
        rw [this, List.drop_drop]
      · rw [hlen, hd]; simp; omega

end Str
end Axl
