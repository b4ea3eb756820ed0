/-
Proofs about `axl_stream_get_until_zero`.
-/
import Verif.Model.StreamZero
import Verif.Spec.StreamZero
import Verif.Proofs.FileRead

namespace Axl
namespace StreamZero
open FileStream Spec.FileStream Spec.StreamZero

/-- One call, with chunks of one character.  `R`: the file had more to give. -/
theorem zero_single (junk : Nat) {chunks : List (List Char)} (hs : Single chunks) {maxLen : Nat} (hmax : maxLen ≤ 1)
    (accept : Bool) (fuel2 : Nat) (hf2 : 0 < fuel2) (R : Prop) :
    ∀ (fuel i : Nat) (rem : Int) (len : Nat) (s : FS Char), Plain s → s.index + i ≤ s.data.length →
      (unread s.fd ≠ [] → R) →
      (rem = (s.data.length : Int) - s.index - i ∨ rem = (s.data.length : Int) - s.index - i - 1 ∧ 0 ≤ rem ∧ R) →
      ((pending s).length - i) + (unread s.fd).length < fuel →
      (∀ j < i, matchList chunks ((pending s).drop j) = none) →
      ∃ got s', zeroLoop junk chunks maxLen accept fuel2 fuel rem i len s = .ok (got, s') ∧
        ((∃ f, Stream.getUntil chunks (pending s) = some f ∧ got = ⟨f.text, some f.chunk⟩ ∧ Plain s' ∧
            (pending s' = if accept then f.after else f.at_) ∧ (unread s'.fd ≠ [] → R)) ∨
         (Stream.getUntil chunks (pending s) = none ∧ got = ⟨pending s, none⟩ ∧ s'.fd = none) ∨
         (R ∧ ∃ t c, pending s = t ++ [c] ∧ Stream.getUntil chunks t = none ∧ got = ⟨t, none⟩ ∧ s'.fd = none)) := by
  intro fuel
  induction fuel with
  | zero => intro i rem len s _ _ _ _ h; omega
  | succ fuel ih =>
    intro i rem len s h hi hR hrem hf hb
    obtain ⟨f2, rfl⟩ : ∃ f2, fuel2 = f2 + 1 := ⟨fuel2 - 1, by omega⟩
    have place : ∀ (t : FS Char) (j : Nat), Plain t → pending t = pending s → t.index + j < t.data.length →
        (∀ m < j, matchList chunks ((pending s).drop m) = none) →
        (matchList chunks ((pending s).drop j) = none ∧ scan junk chunks maxLen (f2 + 1) t j = .ok (none, t)) ∨
        (∃ k, scan junk chunks maxLen (f2 + 1) t j = .ok (some (k, 1), t) ∧
          ∃ f, Stream.getUntil chunks (pending s) = some f ∧ (finish accept t j (some k) 1).1 = ⟨f.text, some f.chunk⟩ ∧
            Plain (finish accept t j (some k) 1).2 ∧
            pending (finish accept t j (some k) 1).2 = if accept then f.after else f.at_) := by
      intro t j ht hp hlt hbefore
      have hm := matchList_pending hs (s := t) (i := j) hlt
      rw [hp] at hm
      cases hx : matchList chunks ((pending s).drop j) with
      | none => exact .inl ⟨rfl, by simp only [scan, matchHere_eq hlt, hm, hx]⟩
      | some kn =>
        obtain ⟨k, n⟩ := kn
        have hn := matchList_length hs hx
        subst hn
        refine .inr ⟨k, ?_, ?_⟩
        · simp only [scan, matchHere_eq hlt, hm, hx]
          rw [if_neg (by omega)]
        · obtain ⟨g1, g2, g3⟩ := FileStream.finish_spec (accept := accept) ht (i := j) (k := k) (n := 1) (by omega) hp hbefore hx
          have hg := getUntil_at chunks j (pending s) k 1 hbefore hx
          refine ⟨_, hg, ?_, g2, ?_⟩
          · simp only [memUntil, hg, FileStream.finish, Option.some.injEq, FileStream.Got.mk.injEq] at g1
            simp only [finish, Got.mk.injEq]
            exact ⟨g1.1, trivial⟩
          · refine Eq.trans g3 ?_
            simp only [memUntil, hg]
    have hpl : (pending s).length = s.data.length - s.index + (unread s.fd).length := by simp [pending]
    unfold zeroLoop
    split
    · rename_i hneg
      obtain ⟨more, s1, e1, e2, e3, e4, e5⟩ := prebuffer_plain junk h
      simp only [e1]
      cases more with
      | false =>
        obtain ⟨q1, q2, q3⟩ := e5 rfl
        refine ⟨_, _, rfl, .inr ?_⟩
        have hpd : pending s = s.data.drop s.index := by simp [pending, q2]
        have hpl' : (pending s).length = s.data.length - s.index := by rw [hpl, q2]; simp
        have htext : (finish accept s1 i none len).1 = ⟨(pending s).take i, none⟩ := by
          simp only [finish, q3, hpd]
        rcases hrem with hr | ⟨hr, hr0, hRr⟩
        · -- all was seen
          have hil : i = (pending s).length := by omega
          refine .inl ⟨?_, htext.trans (by rw [hil, List.take_length]), q1⟩
          exact getUntil_none chunks _ (fun j hj => hb j (by omega))
        · have hil : i + 1 = (pending s).length := by omega
          have hlt : i < (pending s).length := by omega
          refine .inr ⟨hRr, (pending s).take i, (pending s)[i], ?_, ?_, htext, q1⟩
          · have := List.take_append_drop i (pending s)
            rw [List.drop_eq_getElem_cons hlt, List.drop_of_length_le (by omega)] at this
            exact this.symm
          · apply getUntil_none
            intro j hj
            simp only [List.length_take] at hj
            have h1 := hb j (by omega)
            rw [List.drop_take]
            have h2 : (pending s).drop j = (pending s)[j] :: (pending s).drop (j + 1) := List.drop_eq_getElem_cons (by omega)
            rw [h2] at h1 ⊢
            rw [show i - j = (i - j - 1) + 1 from by omega, List.take_succ_cons, matchList_single hs]
            rwa [matchList_single hs] at h1
      | true =>
        obtain ⟨q1, -, bytes, q2, q3, q4⟩ := e4 rfl
        have hlen : s1.data.length = s.data.length - s.index + bytes.length := by rw [q3]; simp
        have hbl : 0 < bytes.length := by
          cases bytes with
          | nil => exact absurd rfl q2
          | cons b bs => simp
        have hul : (unread s.fd).length = bytes.length + (unread s1.fd).length := by rw [q4]; simp
        have hRR : R := hR (by intro e; rw [e] at hul; simp at hul; omega)
        rcases place s1 (i - 1) e2 e3 (by rw [q1]; omega) (fun m hm => hb m (by omega)) with ⟨hn, hsc⟩ | ⟨k, hsc, f, r0, r1, r2, r3⟩
        · show ∃ got s', (scan junk chunks maxLen (f2 + 1) s1 (i - 1)).bind _ = _ ∧ _
          rw [hsc]
          obtain ⟨got, s', a, b⟩ := ih (i - 1 + 1) ((s1.data.length : Int) - i - 1) (lastLength chunks) s1 e2 (by omega) (fun _ => hRR) (by
              rcases Nat.eq_zero_or_pos i with h0 | h0
              · left; subst h0; rw [q1]; omega
              · right; rw [q1]; exact ⟨by omega, by omega, hRR⟩) (by
              rw [e3]
              omega) (by
              intro j hj
              rw [e3]
              rcases Nat.lt_or_eq_of_le (Nat.le_of_lt_succ hj) with hj | rfl
              · exact hb j (by omega)
              · exact hn)
          rw [e3] at b
          exact ⟨got, s', a, b⟩
        · show ∃ got s', (scan junk chunks maxLen (f2 + 1) s1 (i - 1)).bind _ = _ ∧ _
          rw [hsc]
          exact ⟨_, _, rfl, .inl ⟨f, r0, r1, r2, r3, fun _ => hRR⟩⟩
    · rename_i hneg
      have hlt : s.index + i < s.data.length := by omega
      rcases place s i h rfl hlt hb with ⟨hn, hsc⟩ | ⟨k, hsc, f, r0, r1, r2, r3⟩
      · simp only [hsc]
        obtain ⟨got, s', a, b⟩ := ih (i + 1) (rem - 1) (lastLength chunks) s h (by omega) hR (by
            rcases hrem with hr | ⟨hr, hr0, hRr⟩
            · left; omega
            · right; exact ⟨by omega, by omega, hRr⟩) (by omega) (by
            intro j hj
            rcases Nat.lt_or_eq_of_le (Nat.le_of_lt_succ hj) with hj | rfl
            · exact hb j hj
            · exact hn)
        exact ⟨got, s', a, b⟩
      · simp only [hsc]
        exact ⟨_, _, rfl, .inl ⟨f, r0, r1, r2, r3, hR⟩⟩

/-! ## All the pieces -/

theorem split_text {sep : Char} : ∀ {w : List Char}, sep ∉ w → split sep w = [w]
  | [], _ => rfl
  | c :: w, h => by
    simp only [List.mem_cons, not_or] at h
    simp only [split, if_neg (Ne.symm h.1), split_text h.2]

theorem split_sep {sep : Char} (r : List Char) : ∀ {w : List Char}, sep ∉ w → split sep (w ++ sep :: r) = w :: split sep r
  | [], _ => by simp [split]
  | c :: w, h => by
    simp only [List.mem_cons, not_or] at h
    simp only [List.cons_append, split, if_neg (Ne.symm h.1), split_sep r h.2]

theorem getUntil_parts {sep : Char} (hsep : sep ≠ ' ') : ∀ t : List Char,
    match Stream.getUntil [[sep]] t with
    | none => sep ∉ t
    | some f => t = f.text ++ sep :: f.after ∧ sep ∉ f.text
  | [] => by simp [Stream.getUntil]
  | c :: t => by
    have ih := getUntil_parts hsep t
    have hm : Stream.matchAt [[sep]] c t = if c = sep then some (0, 1) else none := by
      have h1 : ([[sep]] : List (List Char)).contains [' '] = false := by simp [Ne.symm hsep]
      simp only [Stream.matchAt, h1, Bool.false_and, Bool.false_eq_true, if_false, Stream.firstChunk]
      by_cases h : c = sep
      · subst h; simp [List.isPrefixOf, hsep]
      · simp [List.isPrefixOf, h, Ne.symm h]
    simp only [Stream.getUntil, hm]
    by_cases h : c = sep
    · simp [h]
    · simp only [if_neg h]
      cases hg : Stream.getUntil [[sep]] t with
      | none => rw [hg] at ih; simp only at ih; simp [ih, Ne.symm h]
      | some f =>
        rw [hg] at ih; simp only at ih
        simp only [Option.map_some, List.cons_append, List.mem_cons, not_or]
        exact ⟨by rw [← ih.1], Ne.symm h, ih.2⟩

/-- Reading to the end.  `R`: the file has more to give than what is in the buffer. -/
theorem pieces_spec (junk : Nat) {sep : Char} (hsep : sep ≠ ' ') (fuel : Nat) (R : Prop) :
    ∀ (turns : Nat) (s : FS Char), Plain s → (unread s.fd ≠ [] → R) → 2 * (pending s).length < fuel → (pending s).length < turns →
      ∃ ps s', pieces junk fuel sep turns s = .ok (ps, s') ∧
        (ps = split sep (pending s) ∨ R ∧ ∃ t c, pending s = t ++ [c] ∧ ps = split sep t) := by
  intro turns
  induction turns with
  | zero => intro s _ _ _ h; omega
  | succ turns ih =>
    intro s h hR hf ht
    have hs : Single [[sep]] := by intro c hc; simp only [List.mem_singleton] at hc; subst hc; rfl
    have hu : (unread s.fd).length ≤ (pending s).length := by simp [pending]
    obtain ⟨got, s', a, b⟩ := zero_single junk hs (maxLength_single hs) true fuel (by omega) R
      fuel 0 ((s.data.length : Int) - s.index) 0 s h (by have := h.index; omega) hR (.inl (by omega)) (by omega) (by omega)
    have hsp := getUntil_parts hsep (pending s)
    have e : pieces junk fuel sep (turns + 1) s = (match got.chunk with
        | none => .ok ([got.text], s')
        | some _ => (pieces junk fuel sep turns s').bind fun x => .ok (got.text :: x.1, x.2)) := by
      show (getUntilZero junk fuel [[sep]] true s).bind _ = _
      rw [getUntilZero, a]
      rfl
    rw [e]
    rcases b with ⟨f, b1, b2, b3, b4, hun⟩ | ⟨b1, b2, b3⟩ | ⟨hRR, t, c, b1, b2, b3, b4⟩
    · rw [b1] at hsp
      simp only at hsp
      simp only [if_true] at b4
      have hl := congrArg List.length hsp.1
      simp only [List.length_append, List.length_cons] at hl
      obtain ⟨ps, s2, c1, c2⟩ := ih s' b3 hun (by rw [b4]; omega) (by rw [b4]; omega)
      subst b2
      refine ⟨f.text :: ps, s2, by simp only [c1]; rfl, ?_⟩
      rw [b4] at c2
      rcases c2 with c2 | ⟨hRR, t, c, c2, c3⟩
      · exact .inl (by rw [hsp.1, split_sep _ hsp.2, c2])
      · refine .inr ⟨hRR, f.text ++ sep :: t, c, ?_, ?_⟩
        · rw [List.append_assoc, List.cons_append, ← c2]; exact hsp.1
        · rw [split_sep _ hsp.2, c3]
    · rw [b1] at hsp
      simp only at hsp
      subst b2
      exact ⟨_, _, rfl, .inl (split_text hsp).symm⟩
    · subst b3
      have h2 := getUntil_parts hsep t
      rw [b2] at h2
      exact ⟨_, _, rfl, .inr ⟨hRR, t, c, b1, (split_text h2).symm⟩⟩

end StreamZero
end Axl
