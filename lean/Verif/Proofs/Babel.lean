/-
Proofs about the model of babel/axl_babel.c.
-/
import Verif.Model.Babel
import Verif.Spec.Utf8

namespace Axl
namespace Babel
open Spec.Utf8

/-- The same pass over what remains of the content. -/
def stepOf : List UInt8 → Option Nat
  | [] => some 1
  | [a] => if a.toNat ≤ 127 then some 1 else none
  | [a, b] =>
    if 192 ≤ a.toNat ∧ a.toNat ≤ 223 then (if isTail b.toNat then some 2 else none)
    else if a.toNat ≤ 127 then some 1 else none
  | [a, b, c] =>
    if 224 ≤ a.toNat ∧ a.toNat ≤ 239 then (if isTail b.toNat && isTail c.toNat then some 3 else none)
    else if 192 ≤ a.toNat ∧ a.toNat ≤ 223 then (if isTail b.toNat then some 2 else none)
    else if a.toNat ≤ 127 then some 1 else none
  | a :: b :: c :: d :: _ =>
    if 240 ≤ a.toNat ∧ a.toNat ≤ 247 then
      (if isTail b.toNat && isTail c.toNat && isTail d.toNat then some 4 else none)
    else if 224 ≤ a.toNat ∧ a.toNat ≤ 239 then (if isTail b.toNat && isTail c.toNat then some 3 else none)
    else if 192 ≤ a.toNat ∧ a.toNat ≤ 223 then (if isTail b.toNat then some 2 else none)
    else if a.toNat ≤ 127 then some 1 else none

theorem byteAt_add (content : List UInt8) (i k : Nat) :
    byteAt content (i + k) = ((content.drop i)[k]?.getD 0).toNat := by
  simp [byteAt]

theorem checkStep_eq (content : List UInt8) (i : Nat) :
    checkStep content i = stepOf (content.drop i) := by
  have h0 := byteAt_add content i 0
  have h1 := byteAt_add content i 1
  have h2 := byteAt_add content i 2
  have h3 := byteAt_add content i 3
  have hl : (content.drop i).length = content.length - i := by simp
  simp only [Nat.add_zero] at h0
  simp only [checkStep, fourOk, threeOk, h0, h1, h2, h3]
  generalize content.drop i = l at hl ⊢
  match l, hl with
  | [], hl =>
    have : ¬ i + 1 < content.length := by simp at hl; omega
    simp [stepOf, this]
  | [a], hl =>
    have : ¬ i + 1 < content.length := by simp at hl; omega
    simp [stepOf, this]
  | [a, b], hl =>
    have q1 : i + 1 < content.length := by simp at hl; omega
    have q2 : ¬ i + 2 < content.length := by simp at hl; omega
    simp [stepOf, q1, q2]
    grind
  | [a, b, c], hl =>
    have q1 : i + 1 < content.length := by simp at hl; omega
    have q2 : i + 2 < content.length := by simp at hl; omega
    have q3 : ¬ i + 3 < content.length := by simp at hl; omega
    simp [stepOf, q1, q2, q3]
    grind
  | a :: b :: c :: d :: r, hl =>
    have q1 : i + 1 < content.length := by simp at hl; omega
    have q2 : i + 2 < content.length := by simp at hl; omega
    have q3 : i + 3 < content.length := by simp at hl; omega
    simp [stepOf, q1, q2, q3]
    grind

theorem isTail_iff (b : UInt8) : isTail b.toNat = true ↔ Continues b := by
  simp only [isTail, Continues, Bool.and_eq_true, decide_eq_true_eq]
  omega

/-- A pass that goes on has read one character. -/
theorem stepOf_some {l : List UInt8} {n : Nat} (hl : l ≠ []) (h : stepOf l = some n) :
    Shaped (l.take n) ∧ 0 < n ∧ n ≤ l.length := by
  match l with
  | [] => exact absurd rfl hl
  | [a] =>
    simp only [stepOf] at h
    split at h <;> simp_all
    subst h; simp [Shaped]; omega
  | [a, b] =>
    have tb := isTail_iff b
    simp only [stepOf] at h
    repeat' split at h
    all_goals simp_all
    all_goals (subst h; simp_all [Shaped]; try omega)
  | [a, b, c] =>
    have tb := isTail_iff b
    have tc := isTail_iff c
    simp only [stepOf] at h
    repeat' split at h
    all_goals simp_all
    all_goals (subst h; simp_all [Shaped]; try omega)
  | a :: b :: c :: d :: r =>
    have tb := isTail_iff b
    have tc := isTail_iff c
    have td := isTail_iff d
    simp only [stepOf] at h
    repeat' split at h
    all_goals simp_all
    all_goals (subst h; simp_all [Shaped]; try omega)

/-- A character at the beginning is read by the pass. -/
theorem stepOf_shaped {c rest : List UInt8} (h : Shaped c) : stepOf (c ++ rest) = some c.length := by
  match c, h with
  | [a], h =>
    simp only [Shaped] at h
    have e : a.toNat ≤ 127 := by omega
    match rest with
    | [] => simp [stepOf, e]
    | [x] => simp only [List.cons_append, List.nil_append, stepOf, e]; grind
    | [x, y] => simp only [List.cons_append, List.nil_append, stepOf, e]; grind
    | x :: y :: z :: r => simp only [List.cons_append, List.nil_append, stepOf, e]; grind
  | [a, b], h =>
    obtain ⟨h, hb⟩ := h
    rw [← isTail_iff] at hb
    match rest with
    | [] => simp only [List.cons_append, List.nil_append, stepOf, hb]; grind
    | [x] => simp only [List.cons_append, List.nil_append, stepOf, hb]; grind
    | x :: y :: r => simp only [List.cons_append, List.nil_append, stepOf, hb]; grind
  | [a, b, c], h =>
    obtain ⟨h, hb, hc⟩ := h
    rw [← isTail_iff] at hb hc
    match rest with
    | [] => simp only [List.cons_append, List.nil_append, stepOf, hb, hc]; grind
    | x :: r => simp only [List.cons_append, List.nil_append, stepOf, hb, hc]; grind
  | [a, b, c, d], h =>
    obtain ⟨h, hb, hc, hd⟩ := h
    rw [← isTail_iff] at hb hc hd
    simp [stepOf, hb, hc, hd]; omega

theorem wellShaped_nil : WellShaped [] := ⟨[], rfl, by simp⟩

theorem wellShaped_append {a b : List UInt8} (ha : WellShaped a) (hb : WellShaped b) :
    WellShaped (a ++ b) := by
  obtain ⟨x, rfl, hx⟩ := ha
  obtain ⟨y, rfl, hy⟩ := hb
  exact ⟨x ++ y, by simp, by grind⟩

theorem wellShaped_one {c : List UInt8} (h : Shaped c) : WellShaped c := ⟨[c], by simp, by simpa using h⟩

/-- The loop from a place where all before is good. -/
theorem checkLoop_spec (content : List UInt8) : ∀ (fuel i : Nat), i ≤ content.length →
    content.length ≤ i + fuel → WellShaped (content.take i) →
    (checkLoop content fuel i = .good ∧ WellShaped content) ∨
    (∃ k, checkLoop content fuel i = .bad k ∧ FirstBad content k) := by
  intro fuel
  induction fuel with
  | zero =>
    intro i hi hf hw
    have : ¬ i < content.length := by omega
    refine .inl ⟨by simp [checkLoop, this], ?_⟩
    rwa [List.take_of_length_le (by omega)] at hw
  | succ fuel ih =>
    intro i hi hf hw
    by_cases hlt : i < content.length
    · have hne : content.drop i ≠ [] := by simp; omega
      rw [checkLoop]
      simp only [hlt, if_true, checkStep_eq]
      cases hs : stepOf (content.drop i) with
      | none =>
        refine .inr ⟨i, rfl, hlt, hw, ?_⟩
        rintro ⟨c, rest, hc, he⟩
        rw [he, stepOf_shaped hc] at hs
        simp at hs
      | some n =>
        obtain ⟨a, b, c⟩ := stepOf_some hne hs
        simp only [List.length_drop] at c
        refine ih (i + n) (by omega) (by omega) ?_
        rw [List.take_add]
        exact wellShaped_append hw (wellShaped_one a)
    · refine .inl ⟨by simp [checkLoop, hlt], ?_⟩
      rwa [List.take_of_length_le (by omega)] at hw

/-- No sequence of characters has a bad one. -/
theorem not_firstBad {chars : List (List UInt8)} (h : ∀ c ∈ chars, Shaped c) {k : Nat}
    (hb : FirstBad chars.flatten k) : False := by
  obtain ⟨hk, ⟨before, he, hB⟩, hn⟩ := hb
  -- reading `before` first and `chars` gives the same characters
  have key : ∀ (before chars : List (List UInt8)), (∀ c ∈ before, Shaped c) → (∀ c ∈ chars, Shaped c) →
      ∀ k, k < chars.flatten.length → chars.flatten.take k = before.flatten →
      ∃ c rest, Shaped c ∧ chars.flatten.drop k = c ++ rest := by
    intro before
    induction before with
    | nil =>
      intro chars _ hC k hk he
      have hk0 : k = 0 := by
        have := congrArg List.length he
        simp at this hk
        omega
      subst hk0
      match chars, hC with
      | [], _ => simp at hk
      | c :: cs, hC => exact ⟨c, cs.flatten, hC c (by simp), by simp⟩
    | cons b before ih =>
      intro chars hB hC k hk he
      match chars, hC with
      | [], _ => simp at hk
      | c :: cs, hC =>
        have sb := hB b (by simp)
        have sc := hC c (by simp)
        -- the first characters are the same
        have e1 : (c :: cs).flatten = b ++ (before.flatten ++ (c :: cs).flatten.drop k) := by
          rw [← List.append_assoc, ← List.flatten_cons, ← he, List.take_append_drop]
        have l1 : b.length = c.length := by
          have x := stepOf_shaped (rest := cs.flatten) sc
          have y := stepOf_shaped (rest := before.flatten ++ (c :: cs).flatten.drop k) sb
          rw [← e1, List.flatten_cons, x] at y
          simpa using y.symm
        have hbc : b = c := by
          have := congrArg (List.take b.length) e1
          rw [List.flatten_cons, l1, List.take_left' rfl, ← l1, List.take_left' rfl] at this
          exact this.symm
        subst hbc
        have hkb : b.length ≤ k := by
          have := congrArg List.length he
          simp at this
          omega
        obtain ⟨c', rest, s', e'⟩ := ih cs (fun c h => hB c (by simp [h])) (fun c h => hC c (by simp [h]))
          (k - b.length) (by simp at hk ⊢; omega) (by
            simp only [List.flatten_cons, List.take_append, List.take_of_length_le hkb] at he
            exact List.append_cancel_left he)
        refine ⟨c', rest, s', ?_⟩
        rw [List.flatten_cons, List.drop_append, List.drop_of_length_le hkb]
        simpa using e'
  obtain ⟨c, rest, a, b⟩ := key before chars hB h k hk he
  exact hn ⟨c, rest, a, b⟩

theorem checkLoop_good (content : List UInt8) {fuel : Nat} (hf : content.length ≤ fuel) :
    checkLoop content fuel 0 = .good ↔ WellShaped content := by
  rcases checkLoop_spec content fuel 0 (by omega) (by omega) (by simpa using wellShaped_nil) with ⟨h, w⟩ | ⟨k, h, b⟩
  · simp [h, w]
  · simp only [h, reduceCtorEq, false_iff]
    rintro ⟨chars, rfl, hc⟩
    exact not_firstBad hc b

/-- There is one first bad character at most. -/
theorem firstBad_unique {content : List UInt8} {j k : Nat} (hj : FirstBad content j) (hk : FirstBad content k) :
    j = k := by
  -- the shorter of the two parts would end where the longer one has a character
  have aux : ∀ {j k : Nat}, FirstBad content j → FirstBad content k → ¬ j < k := by
    intro j k hj hk hlt
    obtain ⟨hkl, ⟨chars, he, hc⟩, _⟩ := hk
    refine not_firstBad (chars := chars) (k := j) hc ?_
    rw [← he]
    refine ⟨by simp; omega, ?_, ?_⟩
    · rw [List.take_take, Nat.min_eq_left (by omega)]; exact hj.2.1
    · rintro ⟨c, rest, s, e⟩
      refine hj.2.2 ⟨c, rest ++ content.drop k, s, ?_⟩
      rw [← List.append_assoc, ← e, List.drop_take]
      have : content.drop k = (content.drop j).drop (k - j) := by
        rw [List.drop_drop]; congr 1; omega
      rw [this, List.take_append_drop]
  have a := aux hj hk
  have b := aux hk hj
  omega

theorem checkLoop_bad (content : List UInt8) {fuel k : Nat} (hf : content.length ≤ fuel) :
    checkLoop content fuel 0 = .bad k ↔ FirstBad content k := by
  rcases checkLoop_spec content fuel 0 (by omega) (by omega) (by simpa using wellShaped_nil) with ⟨h, w⟩ | ⟨j, h, b⟩
  · simp only [h, reduceCtorEq, false_iff]
    intro hb
    obtain ⟨chars, rfl, hc⟩ := w
    exact not_firstBad hc hb
  · simp only [h, Verdict.bad.injEq]
    constructor
    · rintro rfl; exact b
    · intro hb; exact firstBad_unique b hb

theorem ofNat_toNat {n : Nat} (h : n < 256) : (UInt8.ofNat n).toNat = n := by
  simp [Nat.mod_eq_of_lt h]

/-- The encoding of a character has its form. -/
theorem shaped_encode (c : Char) : Shaped (String.utf8EncodeChar c) := by
  rw [String.utf8EncodeChar.eq_1]
  have : c.val.toNat < 1114112 := by
    have := c.valid
    simp only [UInt32.isValidChar, Nat.isValidChar] at this
    omega
  repeat' split
  · simp only [Shaped]; rw [ofNat_toNat (by omega)]; omega
  · simp only [Shaped, Continues]; rw [ofNat_toNat (by omega), ofNat_toNat (by omega)]; omega
  · simp only [Shaped, Continues]
    rw [ofNat_toNat (by omega), ofNat_toNat (by omega), ofNat_toNat (by omega)]; omega
  · simp only [Shaped, Continues]
    rw [ofNat_toNat (by omega), ofNat_toNat (by omega), ofNat_toNat (by omega), ofNat_toNat (by omega)]; omega

theorem wellShaped_encode (text : List Char) : WellShaped (encode text) :=
  ⟨text.map String.utf8EncodeChar, by simp [encode, List.flatMap], by
    intro c h
    obtain ⟨x, _, rfl⟩ := List.mem_map.1 h
    exact shaped_encode x⟩

end Babel
end Axl
