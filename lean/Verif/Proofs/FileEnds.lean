/-
Where the parser over memory is after each of its functions: behind a ">", or at something that is not a white
space.
-/
import Verif.Proofs.ParseSound

namespace Axl
namespace Parse
open Str Stream

/-- What is left, behind a ">" of the text. -/
def Ends (l r : List Char) : Prop := ∃ pre, l = pre ++ '>' :: r

theorem Ends.suffix {l r : List Char} (h : Ends l r) : r <:+ l := by
  obtain ⟨pre, rfl⟩ := h
  exact ⟨pre ++ ['>'], by simp⟩

theorem Ends.of {l l' r : List Char} (h : l' <:+ l) (h' : Ends l' r) : Ends l r := by
  obtain ⟨x, rfl⟩ := h
  obtain ⟨pre, rfl⟩ := h'
  exact ⟨x ++ pre, by simp⟩

theorem skip_suf (s : List Char) : skip s <:+ s := List.dropWhile_suffix _

theorem eat_suf {s chunk r : List Char} (h : eat s chunk = some r) : r <:+ s := by
  rw [eat_some] at h
  exact ⟨chunk, h.symm⟩

theorem found_suf {chunks : List (List Char)} {s : List Char} {f : Found} (h : getUntil chunks s = some f) :
    f.after <:+ s ∧ f.at_ <:+ s := by
  obtain ⟨c, r, n, h1, h2, -, h4, -⟩ := getUntil_some h
  have : f.at_ <:+ s := by rw [h1]; exact ⟨f.text, h2.symm⟩
  refine ⟨List.IsSuffix.trans ?_ this, this⟩
  rw [h4, h1]
  exact List.drop_suffix _ _

theorem ref_suf (chunks : List (List Char)) (s : List Char) : (getUntilRef chunks s).2 <:+ s := by
  unfold getUntilRef
  cases h : getUntil chunks s with
  | none => exact List.suffix_refl _
  | some f =>
    simp only
    split <;> exact (found_suf h).1

theorem consumePi_suf {st st' : St} {s r : List Char} (h : consumePi st s = .ok (st', r)) : r <:+ s := by
  unfold consumePi at h
  split at h
  · simp only [Res.ok.injEq, Prod.mk.injEq] at h
    rw [← h.2]
    exact List.suffix_refl _
  · rename_i s1 he
    split at h
    · simp at h
    · rename_i f hf
      split at h
      · simp at h
      · split at h
        · simp only [Res.ok.injEq, Prod.mk.injEq] at h
          rw [← h.2]
          exact (found_suf hf).1.trans (eat_suf he)
        · split at h
          · simp at h
          · rename_i g hg
            simp only [Res.ok.injEq, Prod.mk.injEq] at h
            rw [← h.2]
            exact (found_suf hg).1.trans ((found_suf hf).1.trans (eat_suf he))

theorem comment_suf {st st' : St} {s r : List Char} {b : Bool} (h : comment st s = .ok (b, st', r)) : r <:+ s := by
  unfold comment at h
  split at h
  · simp only [Res.ok.injEq, Prod.mk.injEq] at h
    rw [← h.2.2]
    exact skip_suf s
  · rename_i s1 he
    have := ref_suf [c!"-->"] s1
    split at h
    · simp at h
    · rename_i text rest hg
      rw [hg] at this
      simp only [Res.ok.injEq, Prod.mk.injEq] at h
      rw [← h.2.2]
      exact this.trans ((eat_suf he).trans (skip_suf s))

theorem instruction_suf {header : Bool} {st st' : St} {s r : List Char} {b : Bool}
    (h : instruction header st s = .ok (b, st', r)) : r <:+ s := by
  unfold instruction at h
  split at h
  · cases hc : consumePi st (skip s) with
    | ok x =>
      obtain ⟨st1, r1⟩ := x
      rw [hc] at h
      simp only [bind, Res.bind, Res.ok.injEq, Prod.mk.injEq] at h
      rw [← h.2.2]
      exact (consumePi_suf hc).trans (skip_suf s)
    | error => rw [hc] at h; simp [bind, Res.bind] at h
    | ub => rw [hc] at h; simp [bind, Res.bind] at h
    | loop => rw [hc] at h; simp [bind, Res.bind] at h
  · simp only [Res.ok.injEq, Prod.mk.injEq] at h
    rw [← h.2.2]
    exact skip_suf s

theorem bind_ok {α β : Type} {x : Res α} {f : α → Res β} {b : β} (h : (x >>= f) = .ok b) :
    ∃ a, x = .ok a ∧ f a = .ok b := by
  cases x with
  | ok a => exact ⟨a, rfl, h⟩
  | error => cases h
  | ub => cases h
  | loop => cases h

theorem comments_suf {header : Bool} : ∀ (fuel : Nat) {st st' : St} {s r : List Char},
    comments header fuel st s = .ok (st', r) → r <:+ s ∧ skip r = r := by
  intro fuel
  induction fuel with
  | zero => intro st st' s r h; simp [comments] at h
  | succ fuel ih =>
    intro st st' s r h
    unfold comments at h
    obtain ⟨⟨b1, st1, s1⟩, h1, h⟩ := bind_ok h
    obtain ⟨⟨b2, st2, s2⟩, h2, h⟩ := bind_ok h
    simp only at h2 h
    have hs := (instruction_suf h2).trans (comment_suf h1)
    split at h
    · obtain ⟨a, b⟩ := ih h
      exact ⟨a.trans hs, b⟩
    · simp only [Res.ok.injEq, Prod.mk.injEq] at h
      rw [← h.2]
      exact ⟨(skip_suf s2).trans hs, skip_skip s2⟩

theorem quote_suf {s r : List Char} {q : Char} (h : quote s = some (q, r)) : r <:+ s := by
  unfold quote at h
  split at h
  · rename_i s1 he
    simp only [Option.some.injEq, Prod.mk.injEq] at h
    rw [← h.2]
    exact eat_suf he
  · split at h
    · rename_i s1 he
      simp only [Option.some.injEq, Prod.mk.injEq] at h
      rw [← h.2]
      exact eat_suf he
    · simp at h

theorem attrValue_suf (q : Char) (s : List Char) : (attrValue q s).2 <:+ s := by
  unfold attrValue
  split
  · exact List.suffix_refl _
  · rename_i f hf
    exact (found_suf hf).1

theorem attrib_suf {st st' : St} {s r : List Char} (h : attrib st s = .ok (st', r)) : r <:+ s := by
  unfold attrib at h
  split at h
  · simp at h
  · rename_i f hf
    split at h
    · simp at h
    · split at h
      · simp at h
      · rename_i q s1 hq
        split at h
        · simp at h
        · obtain ⟨has, -, h⟩ := bind_ok h
          split at h
          · simp at h
          · obtain ⟨o', -, h⟩ := bind_ok h
            obtain ⟨st1, -, h⟩ := bind_ok h
            simp only [Res.ok.injEq, Prod.mk.injEq] at h
            rw [← h.2]
            exact (skip_suf _).trans ((attrValue_suf q s1).trans ((quote_suf hq).trans
              ((found_suf hf).1.trans (skip_suf s))))

theorem eat_ends {s r : List Char} {a : List Char} (h : eat s (a ++ ['>']) = some r) : Ends s r := by
  rw [eat_some] at h
  exact ⟨a, by simpa using h⟩

theorem attrLoop_ends : ∀ (fuel : Nat) {st st' : St} {s r : List Char} {b : Bool},
    attrLoop fuel st s = .ok (st', r, b) → Ends s r := by
  intro fuel
  induction fuel with
  | zero => intro st st' s r b h; simp [attrLoop] at h
  | succ fuel ih =>
    intro st st' s r b h
    unfold attrLoop at h
    split at h
    · rename_i s1 he
      simp only [Res.ok.injEq, Prod.mk.injEq] at h
      rw [← h.2.1]
      exact eat_ends (a := c!"/") he
    · split at h
      · rename_i s1 he
        simp only [Res.ok.injEq, Prod.mk.injEq] at h
        rw [← h.2.1]
        exact eat_ends (a := []) he
      · obtain ⟨⟨st1, s1⟩, h1, h⟩ := bind_ok h
        exact (ih h).of (attrib_suf h1)

theorem parseTag_ends {st st' : St} {s r : List Char} {b : Bool} (h : parseTag st s = .ok (st', r, b)) : Ends s r := by
  unfold parseTag at h
  split at h
  · simp at h
  · rename_i f hf
    obtain ⟨-, -, hcase⟩ := getUntil_tag hf
    split at h
    · simp at h
    · split at h
      · exact (attrLoop_ends _ h).of ((skip_suf _).trans (found_suf hf).1)
      · rename_i hc
        have hs : s = f.text ++ '>' :: f.after := by
          rcases hcase with ⟨-, e⟩ | ⟨e, -⟩
          · exact e
          · exact absurd e hc
        split at h
        · simp only [Res.ok.injEq, Prod.mk.injEq] at h
          rw [← h.2.1]
          exact ⟨_, hs⟩
        · simp only [Res.ok.injEq] at h
          unfold endOfName at h
          split at h
          · rename_i s1 he
            simp only [Prod.mk.injEq] at h
            rw [← h.2.1]
            exact (eat_ends (a := c!"/") he).of (found_suf hf).1
          · simp only [Prod.mk.injEq] at h
            rw [← h.2.1]
            exact ⟨_, hs⟩

theorem parseNode_ends {st st' : St} {s r : List Char} {b : Bool} (h : parseNode st s = .ok (st', r, b)) : Ends s r := by
  unfold parseNode at h
  obtain ⟨⟨st1, s1⟩, h1, h⟩ := bind_ok h
  simp only at h
  split at h
  · simp at h
  · rename_i s2 ho
    have : s2 <:+ s1 := by
      unfold openAngle at ho
      split at ho
      · rename_i s3 he
        simp only [Option.some.injEq] at ho
        exact ho ▸ eat_suf he
      · split at ho
        · simp at ho
        · simp only [Option.some.injEq] at ho
          exact ho ▸ List.suffix_refl _
    exact (parseTag_ends h).of (this.trans (comments_suf _ h1).1)

theorem closeNode_ends {st st' : St} {s r : List Char} (h : closeNode st s = .ok (st', r)) : Ends s r := by
  unfold closeNode at h
  rcases getUntilRef_spec (mark := c!">") (s := s) (by simp) (by simp) with hn | ⟨text, rest, hg, -, -, hs⟩
  · cases hg : getUntilRef [c!">"] s with
    | mk a b =>
      rw [hg] at h hn
      simp only at hn
      subst hn
      simp at h
  · rw [hg] at h
    simp only at h
    split at h
    · simp at h
    · split at h
      · simp only [Res.ok.injEq, Prod.mk.injEq] at h
        rw [← h.2]
        exact ⟨text, by simpa using hs⟩
      · simp at h

theorem cdata_ends {st st' : St} {s r : List Char} (h : cdata st s = .ok (st', r)) : Ends s r := by
  unfold cdata at h
  split at h
  · simp at h
  · rename_i f hf
    obtain ⟨hs, -⟩ := getUntil_single (mark := c!"]]>") (by simp) (by simp) hf
    simp only [Res.ok.injEq, Prod.mk.injEq] at h
    rw [← h.2]
    exact ⟨f.text ++ c!"]]", by simpa using hs⟩

theorem content_stay {st st' : St} {s r : List Char} (h : content st s = .ok (st', r)) : r <:+ s ∧ skip r = r := by
  unfold content at h
  split at h
  · simp at h
  · rename_i f hf
    obtain ⟨-, -, ha, -⟩ := getUntil_single (mark := c!"<") (by simp) (by simp) hf
    simp only [Res.ok.injEq, Prod.mk.injEq] at h
    rw [← h.2]
    refine ⟨(found_suf hf).2, ?_⟩
    rw [ha]
    exact skip_cons_not (by simp [Spec.Xml.White])

/-- A pass ends behind a ">" or at something that is not a white space. -/
theorem pass_ends {st st' : St} {s r : List Char} {b : Bool} (h : pass st s = .ok (st', r, b)) :
    Ends s r ∨ (r <:+ s ∧ skip r = r) := by
  unfold pass at h
  have h1 : (if st.preserves then s else skip s) <:+ s := by
    split
    · exact List.suffix_refl _
    · exact skip_suf s
  generalize (if st.preserves then s else skip s) = s1 at h h1
  simp only at h
  split at h
  · obtain ⟨⟨st1, s2⟩, h2, h⟩ := bind_ok h
    simp only [Res.ok.injEq, Prod.mk.injEq] at h
    rw [← h.2.1]
    obtain ⟨a, b⟩ := comments_suf _ h2
    exact .inr ⟨a.trans h1, b⟩
  · split at h
    · rename_i s2 he
      obtain ⟨⟨st1, s3⟩, h2, h⟩ := bind_ok h
      simp only [Res.ok.injEq, Prod.mk.injEq] at h
      rw [← h.2.1]
      exact .inl ((closeNode_ends h2).of ((eat_suf he).trans h1))
    · split at h
      · rename_i s2 he
        obtain ⟨⟨st1, s3⟩, h2, h⟩ := bind_ok h
        simp only [Res.ok.injEq, Prod.mk.injEq] at h
        rw [← h.2.1]
        exact .inl ((cdata_ends h2).of ((eat_suf he).trans h1))
      · split at h
        · rename_i s2 he
          obtain ⟨⟨st1, s3, b1⟩, h2, h⟩ := bind_ok h
          simp only [Res.ok.injEq, Prod.mk.injEq] at h
          rw [← h.2.1]
          exact .inl ((parseNode_ends h2).of ((eat_suf he).trans h1))
        · obtain ⟨⟨st1, s3⟩, h2, h⟩ := bind_ok h
          simp only [Res.ok.injEq, Prod.mk.injEq] at h
          rw [← h.2.1]
          exact .inr (content_stay h2)

end Parse
end Axl
