/-
Proofs about a DTD read from a file: each function of the parser over a stream of a file does what the one over memory
does, if the functions of the stream do.
-/
import Verif.Model.DtdFile
import Verif.Proofs.FileWhole

namespace Axl
namespace DtdFile
open Str Dtd
open FileStream (FS Source Got memUntil)
open Spec.FileStream (Plain pending unread)
open FileParse (Sim Reads Exact Multi Word ok_bind On left skip look eat peek untilOne)

/-- What the parser of a DTD asks of the stream, besides what `Reads` says. -/
structure More (strict : Prop) (R : List Char → FS Char → Prop) : Prop where
  reads  : Reads strict R
  multi  : Multi R
  ended  : ∀ {s} (chunk : List Char), R [] s → chunk ≠ [] → ∃ s', FileStream.inspect 0 s chunk true = .ok (.short, s') ∧ R [] s'
  space  : ∀ {l s} (chunks : List (List Char)) (accept : Bool), R l s → (∀ c ∈ chunks, c = [' '] ∨ c.length = 1 ∧ ∀ q ∈ c, isWhite q = false) →
    [' '] ∈ chunks → Exact R chunks accept l s ∨ (¬ strict ∧ ∃ f, Stream.getUntil chunks l = some f ∧
      f.chunk = chunks.idxOf [' '] ∧ Stream.skip f.at_ = [] ∧ f.after = [])
  expand : ∀ (d : Dtd) {l s}, R l s → Sim strict R (Dtd.expand d l) (expand d s)

section
variable {strict : Prop} {R : List Char → FS Char → Prop}

theorem eat_step (h : Reads strict R) {l : List Char} {s : FS Char} (hR : R l s) (chunk : List Char) (hc : Word chunk) :
    (∃ r s', Stream.eat l chunk = some r ∧ eat s chunk = .ok (true, s') ∧ R r s') ∨
    (∃ s', Stream.eat l chunk = none ∧ eat s chunk = .ok (false, s') ∧ R l s') := by
  obtain ⟨s', e, m, -⟩ := FileParse.eat_sim h hR chunk hc
  cases he : Stream.eat l chunk with
  | none => rw [he] at e m; exact .inr ⟨s', rfl, e, m⟩
  | some r => rw [he] at e m; exact .inl ⟨r, s', rfl, e, m⟩

theorem peek_step (h : Reads strict R) {l : List Char} {s : FS Char} (hR : R l s) (chunk : List Char) (hc : Word chunk) :
    ∃ s', peek s chunk = .ok (Stream.peek l chunk, s') ∧ R l s' := by
  obtain ⟨s', e, m, -⟩ := FileParse.peek_sim h hR chunk hc
  exact ⟨s', e, m⟩

theorem skip_step' (h : Reads strict R) {l : List Char} {s : FS Char} (hR : R l s) :
    ∃ s', skip s = .ok s' ∧ R (Stream.skip l) s' := by
  obtain ⟨s', e, m, -⟩ := h.skip hR
  exact ⟨s', e, m⟩

/-! ### Content models -/

theorem repetition_sim (h : More strict R) {l : List Char} {s : FS Char} (hR : R l s) :
    ∃ s', repetition s = .ok ((Dtd.repetition l).1, s') ∧ R (Dtd.repetition l).2 s' := by
  unfold repetition Dtd.repetition
  rcases eat_step h.reads hR c!"?" (by decide) with ⟨r, s1, e, f, m⟩ | ⟨s1, e, f, m⟩
  · simp only [e, f, ok_bind, if_true]
    exact ⟨_, rfl, m⟩
  · simp only [e, f, ok_bind, Bool.false_eq_true, if_false]
    rcases eat_step h.reads m c!"+" (by decide) with ⟨r, s2, e, f, m⟩ | ⟨s2, e, f, m⟩
    · simp only [e, f, ok_bind, if_true]
      exact ⟨_, rfl, m⟩
    · simp only [e, f, ok_bind, Bool.false_eq_true, if_false]
      rcases eat_step h.reads m c!"*" (by decide) with ⟨r, s3, e, f, m⟩ | ⟨s3, e, f, m⟩
      · simp only [e, f, ok_bind, if_true]
        exact ⟨_, rfl, m⟩
      · simp only [e, f, ok_bind, Bool.false_eq_true, if_false]
        exact ⟨_, rfl, m⟩

theorem separator_sim (h : More strict R) {l : List Char} {s : FS Char} (hR : R l s) :
    ∃ n s', separator s = .ok (n, s') ∧ match Dtd.separator l with
      | some (k, r) => n = k ∧ k ≠ 0 ∧ R r s'
      | none => n = 0 ∧ R (Stream.skip l) s' := by
  unfold separator Dtd.separator
  obtain ⟨s0, e0, m0⟩ := skip_step' h.reads hR
  rw [e0, ok_bind]
  rcases eat_step h.reads m0 c!"," (by decide) with ⟨r, s1, e, f, m⟩ | ⟨s1, e, f, m⟩
  · simp only [e, f, ok_bind, if_true]
    exact ⟨_, _, rfl, rfl, by decide, m⟩
  · simp only [e, f, ok_bind, Bool.false_eq_true, if_false]
    rcases eat_step h.reads m c!"|" (by decide) with ⟨r, s2, e, f, m⟩ | ⟨s2, e, f, m⟩
    · simp only [e, f, ok_bind, if_true]
      exact ⟨_, _, rfl, rfl, by decide, m⟩
    · simp only [e, f, ok_bind, Bool.false_eq_true, if_false]
      rcases eat_step h.reads m c!")" (by decide) with ⟨r, s3, e, f, m⟩ | ⟨s3, e, f, m⟩
      · simp only [e, f, ok_bind, if_true]
        exact ⟨_, _, rfl, rfl, by decide, m⟩
      · simp only [e, f, ok_bind, Bool.false_eq_true, if_false]
        exact ⟨_, _, rfl, rfl, m⟩

theorem afterSpace_sim (h : More strict R) {l : List Char} {s : FS Char} (hR : R l s) :
    ∃ s', afterSpace s = .ok ((Dtd.afterSpace l).1, s') ∧ R (Dtd.afterSpace l).2 s' := by
  unfold afterSpace Dtd.afterSpace
  obtain ⟨n, s0, e0, m0⟩ := separator_sim h hR
  rw [e0, ok_bind]
  cases hs : Dtd.separator l with
  | some p =>
    obtain ⟨k, r⟩ := p
    rw [hs] at m0
    obtain ⟨rfl, hk, m⟩ := m0
    simp only [hk, ne_eq, not_false_eq_true, if_true]
    exact ⟨_, rfl, m⟩
  | none =>
    rw [hs] at m0
    obtain ⟨rfl, m⟩ := m0
    simp only [ne_eq, not_true_eq_false, if_false]
    rcases eat_step h.reads m c!"+" (by decide) with ⟨r, s1, e, f, m⟩ | ⟨s1, e, f, m⟩
    · simp only [e, f, ok_bind, if_true]
      exact ⟨_, rfl, m⟩
    · simp only [e, f, ok_bind, Bool.false_eq_true, if_false]
      rcases eat_step h.reads m c!"*" (by decide) with ⟨r, s2, e, f, m⟩ | ⟨s2, e, f, m⟩
      · simp only [e, f, ok_bind, if_true]
        exact ⟨_, rfl, m⟩
      · simp only [e, f, ok_bind, Bool.false_eq_true, if_false]
        rcases eat_step h.reads m c!"?" (by decide) with ⟨r, s3, e, f, m⟩ | ⟨s3, e, f, m⟩
        · simp only [e, f, ok_bind, if_true]
          exact ⟨_, rfl, m⟩
        · simp only [e, f, ok_bind, Bool.false_eq_true, if_false]
          exact ⟨_, rfl, m⟩

theorem closeSep_sim (h : More strict R) (chunk : Nat) {l : List Char} {s : FS Char} (hR : R l s) :
    ∃ s', closeSep chunk s = .ok ((Dtd.closeSep chunk l).1, s') ∧ R (Dtd.closeSep chunk l).2 s' := by
  unfold closeSep Dtd.closeSep
  obtain ⟨s0, e0, m0⟩ := skip_step' h.reads hR
  rw [e0, ok_bind]
  rcases eat_step h.reads m0 c!"," (by decide) with ⟨r, s1, e, f, m⟩ | ⟨s1, e, f, m⟩
  · simp only [e, f, ok_bind, if_true]
    exact ⟨_, rfl, m⟩
  · simp only [e, f, ok_bind, Bool.false_eq_true, if_false]
    rcases eat_step h.reads m c!"|" (by decide) with ⟨r, s2, e, f, m⟩ | ⟨s2, e, f, m⟩
    · simp only [e, f, ok_bind, if_true]
      exact ⟨_, rfl, m⟩
    · simp only [e, f, ok_bind, Bool.false_eq_true, if_false]
      exact ⟨_, rfl, m⟩

theorem closeLoop_sim (h : More strict R) : ∀ (fuel : Nat) (r : Reading) (chunk : Nat) {l : List Char} {s : FS Char}, R l s →
    Sim strict (FileParse.On2 R) (Dtd.closeLoop fuel r chunk l) (closeLoop fuel r chunk s) := by
  intro fuel
  induction fuel with
  | zero => intro r chunk l s _; exact Sim.loop
  | succ fuel ih =>
    intro r chunk l s hR
    unfold closeLoop Dtd.closeLoop
    obtain ⟨s0, e0, m0⟩ := skip_step' h.reads hR
    obtain ⟨s1, e1, m1⟩ := repetition_sim h m0
    obtain ⟨s2, e2, m2⟩ := closeSep_sim h chunk m1
    obtain ⟨s3, e3, m3⟩ := skip_step' h.reads m2
    simp only [e0, e1, e2, e3, ok_bind]
    rcases eat_step h.reads m3 c!")" (by decide) with ⟨q, s4, e, f, m⟩ | ⟨s4, e, f, m⟩
    · simp only [e, f, ok_bind]
      cases hst : r.stack with
      | nil => exact Sim.ok ⟨rfl, rfl, m⟩
      | cons p ps => exact ih _ _ m
    · simp only [e, f, ok_bind]
      cases hst : r.stack with
      | nil => exact Sim.ok ⟨rfl, rfl, m⟩
      | cons p ps => exact Sim.ok ⟨rfl, rfl, m⟩

theorem specLoop_nil (fuel : Nat) (r : Reading) : ∀ x, Dtd.specLoop fuel r [] ≠ .ok x := by
  intro x
  cases fuel with
  | zero => simp [Dtd.specLoop]
  | succ fuel => simp [Dtd.specLoop, Stream.eat, Stream.inspect, Stream.skip, Stream.getUntil]

/-- Nothing is asked when there is no value. -/
theorem Sim.away {α β : Type} {P : α → β → Prop} {x : Res α} {y : Res β} (hs : ¬ strict) (hx : ∀ a, x ≠ .ok a) :
    Sim strict P x y := by
  cases x with
  | ok a => exact absurd rfl (hx a)
  | error => intro h; exact absurd h hs
  | ub => intro h; exact absurd h hs
  | loop => intro h; exact absurd h hs

theorem specLoop_sim (h : More strict R) : ∀ (fuel : Nat) (r : Reading) {l : List Char} {s : FS Char}, R l s →
    Sim strict (On R) (Dtd.specLoop fuel r l) (specLoop fuel r s) := by
  intro fuel
  induction fuel with
  | zero => intro r l s _; exact Sim.loop
  | succ fuel ih =>
    intro r l s hR
    unfold specLoop Dtd.specLoop
    obtain ⟨s0, e0, m0⟩ := skip_step' h.reads hR
    rw [e0, ok_bind]
    rcases eat_step h.reads m0 c!"(" (by decide) with ⟨q, s1, e, f, m⟩ | ⟨s1, e, f, m⟩
    · simp only [e, f, ok_bind, if_true]
      exact ih _ m
    · simp only [e, f, ok_bind, Bool.false_eq_true, if_false]
      rcases h.space delimiters true m (by decide) (by decide) with ⟨s2, e2, m2⟩ | ⟨hs, g, hg, hg1, -, hg3⟩
      · rw [e2, ok_bind]
        simp only [memUntil] at m2 ⊢
        cases hg : Stream.getUntil delimiters (Stream.skip l) with
        | none => exact Sim.error
        | some g =>
          simp only [hg, if_true] at m2 ⊢
          have hc : ∃ s3, chunkOf g.chunk s2 = .ok ((if g.chunk = 0 then Dtd.afterSpace g.after else (g.chunk, g.after)).1, s3) ∧
              R (if g.chunk = 0 then Dtd.afterSpace g.after else (g.chunk, g.after)).2 s3 := by
            unfold chunkOf
            split
            · exact afterSpace_sim h m2
            · exact ⟨_, rfl, m2⟩
          obtain ⟨s3, e3, m3⟩ := hc
          rw [e3, ok_bind]
          simp only
          generalize (if g.chunk = 0 then Dtd.afterSpace g.after else (g.chunk, g.after)) = p at m3 ⊢
          obtain ⟨chunk, l3⟩ := p
          simp only at m3 ⊢
          have hat : (∃ c4 l4 s4, (if (chunk = 4 || chunk = 5 || chunk = 6) = true then Dtd.separator l3 else some (chunk, l3)) = some (c4, l4) ∧
                afterTimes chunk s3 = .ok (c4, s4) ∧ R l4 s4) ∨
              ((if (chunk = 4 || chunk = 5 || chunk = 6) = true then Dtd.separator l3 else some (chunk, l3)) = none ∧ afterTimes chunk s3 = .error) := by
            unfold afterTimes
            split
            · obtain ⟨n, s4, e4, m4⟩ := separator_sim h m3
              rw [e4, ok_bind]
              cases hsp : Dtd.separator l3 with
              | none =>
                rw [hsp] at m4
                obtain ⟨rfl, -⟩ := m4
                exact .inr ⟨rfl, rfl⟩
              | some p =>
                obtain ⟨k, q⟩ := p
                rw [hsp] at m4
                obtain ⟨rfl, hk, m4⟩ := m4
                exact .inl ⟨n, q, s4, rfl, by simp [hk], m4⟩
            · exact .inl ⟨_, _, _, rfl, rfl, m3⟩
          rcases hat with ⟨c4, l4, s4, ha, hb, m4⟩ | ⟨ha, hb⟩
          · rw [ha, hb, ok_bind]
            simp only
            cases hk : kindAfter r.cur.kind c4 with
            | none => exact Sim.error
            | some kind =>
              simp only
              split
              · rw [h.reads.left m4]
                have hsim := closeLoop_sim h (l4.length + 1) { r with cur := { r.cur with kind := kind, items := r.cur.items ++ [.node (chunkTimes chunk) (toStr g.text)] }, sort := sortAfter r (toStr g.text) c4 (r.cur.items ++ [.node (chunkTimes chunk) (toStr g.text)]) } c4 m4
                revert hsim
                generalize Dtd.closeLoop (l4.length + 1) _ c4 l4 = x
                generalize closeLoop (l4.length + 1) _ c4 s4 = y
                intro hsim
                cases x with
                | ok a =>
                  obtain ⟨⟨r', c', s5⟩, rfl, ha1, ha2, ha3⟩ := hsim
                  obtain ⟨r5, c5, l5⟩ := a
                  simp only at ha1 ha2 ha3
                  subst ha1 ha2
                  rw [ok_bind]
                  simp only
                  split
                  · exact ih _ ha3
                  · exact Sim.ok ⟨rfl, ha3⟩
                | error => intro hs; rw [hsim hs]; rfl
                | ub => intro hs; rw [hsim hs]; rfl
                | loop => intro hs; rw [hsim hs]; rfl
              · exact ih _ m4
          · rw [ha, hb]
            exact Sim.error
      · refine Sim.away hs ?_
        intro x hx
        have h0 : g.chunk = 0 := hg1
        have ha : Dtd.afterSpace [] = (0, []) := rfl
        simp only [hg, h0, if_true, hg3, ha] at hx
        simp only [Nat.reduceEqDiff, decide_false, Bool.or_self, Bool.false_eq_true, if_false, kindAfter] at hx
        exact specLoop_nil _ _ _ hx

theorem readSpec_sim (h : More strict R) {l : List Char} {s : FS Char} (hR : R l s) :
    Sim strict (On R) (Dtd.readSpec l) (readSpec s) := by
  unfold readSpec Dtd.readSpec
  obtain ⟨s0, e0, m0⟩ := skip_step' h.reads hR
  obtain ⟨a, s1, e1, m1, -, hst⟩ := h.reads.look c!"(" true m0 (by decide)
  rw [e0, ok_bind]
  unfold look
  rw [e1, ok_bind]
  cases hi : Stream.inspect (Stream.skip l) c!"(" with
  | yes r =>
    have he : Stream.eat (Stream.skip l) c!"(" = some r := by simp [Stream.eat, hi]
    rw [he] at m1
    obtain ⟨⟨q, rfl⟩, m1⟩ := m1
    simp only [if_true] at m1 ⊢
    rw [h.reads.left m1]
    have hsim := specLoop_sim h (r.length + 1) ⟨⟨.undef, .one, []⟩, [], .children, false⟩ m1
    revert hsim
    generalize Dtd.specLoop (r.length + 1) _ r = x
    generalize specLoop (r.length + 1) _ s1 = y
    intro hsim
    cases x with
    | ok a =>
      obtain ⟨⟨r', s5⟩, rfl, ha1, ha2⟩ := hsim
      obtain ⟨r5, l5⟩ := a
      simp only at ha1 ha2
      subst ha1
      exact Sim.ok ⟨rfl, ha2⟩
    | error => intro hs; rw [hsim hs]; rfl
    | ub => intro hs; rw [hsim hs]; rfl
    | loop => intro hs; rw [hsim hs]; rfl
  | no =>
    have he : Stream.eat (Stream.skip l) c!"(" = none := by simp [Stream.eat, hi]
    rw [he] at m1
    intro hs
    rcases m1.1 with rfl | rfl
    · rfl
    · have := (hst hs).1 rfl
      rw [hi] at this
      simp at this
  | short =>
    have he : Stream.eat (Stream.skip l) c!"(" = none := by simp [Stream.eat, hi]
    rw [he] at m1
    intro hs
    have hn : Stream.skip l = [] := by
      unfold Stream.inspect at hi
      split at hi
      · rename_i hl
        simp only [List.length_cons, List.length_nil] at hl
        exact List.length_eq_zero_iff.1 (by omega)
      · split at hi <;> simp at hi
    have := (hst hs).2 hi
    subst this
    simp only
    have m2 := m1.2
    rw [hn] at m2
    rw [h.reads.left m2]
    have hsim := specLoop_sim h (([] : List Char).length + 1) ⟨⟨.undef, .one, []⟩, [], .children, false⟩ m2
    have hx : Dtd.specLoop (([] : List Char).length + 1) ⟨⟨.undef, .one, []⟩, [], .children, false⟩ [] = .error := rfl
    rw [hx] at hsim
    rw [hsim hs]
    rfl

theorem elementType_sim (h : More strict R) {l : List Char} {s : FS Char} (hR : R l s) :
    Sim strict (On R) (Dtd.elementType l) (elementType s) := by
  unfold elementType Dtd.elementType
  obtain ⟨s0, e0, m0⟩ := skip_step' h.reads hR
  rw [e0, ok_bind]
  rcases eat_step h.reads m0 c!"EMPTY" (by decide) with ⟨r, s1, e, f, m⟩ | ⟨s1, e, f, m⟩
  · simp only [e, f, ok_bind, if_true]
    exact Sim.ok ⟨rfl, m⟩
  · simp only [e, f, ok_bind, Bool.false_eq_true, if_false]
    rcases eat_step h.reads m c!"ANY" (by decide) with ⟨r, s2, e, f, m⟩ | ⟨s2, e, f, m⟩
    · simp only [e, f, ok_bind, if_true]
      exact Sim.ok ⟨rfl, m⟩
    · simp only [e, f, ok_bind, Bool.false_eq_true, if_false]
      exact readSpec_sim h m

theorem elementEnd_sim (h : More strict R) {l : List Char} {s : FS Char} (hR : R l s) :
    match Dtd.elementEnd l with
    | some r => ∃ s', elementEnd s = .ok s' ∧ R r s'
    | none => strict → elementEnd s = .error := by
  unfold elementEnd Dtd.elementEnd
  obtain ⟨s0, e0, m0⟩ := skip_step' h.reads hR
  rw [e0, ok_bind]
  unfold look
  cases hi : Stream.inspect (Stream.skip l) c!">" with
  | yes r =>
    obtain ⟨a, s1, e1, m1, -, hst⟩ := h.reads.look c!">" true m0 (by decide)
    have he : Stream.eat (Stream.skip l) c!">" = some r := by simp [Stream.eat, hi]
    rw [he] at m1
    obtain ⟨⟨q, rfl⟩, m1⟩ := m1
    rw [e1, ok_bind]
    exact ⟨_, rfl, m1⟩
  | no =>
    obtain ⟨a, s1, e1, m1, -, hst⟩ := h.reads.look c!">" true m0 (by decide)
    have he : Stream.eat (Stream.skip l) c!">" = none := by simp [Stream.eat, hi]
    rw [he] at m1
    intro hs
    rw [e1, ok_bind]
    rcases m1.1 with rfl | rfl
    · rfl
    · have := (hst hs).1 rfl
      rw [hi] at this
      simp at this
  | short =>
    have hn : Stream.skip l = [] := by
      unfold Stream.inspect at hi
      split at hi
      · rename_i hl
        simp only [List.length_cons, List.length_nil] at hl
        exact List.length_eq_zero_iff.1 (by omega)
      · split at hi <;> simp at hi
    rw [hn] at m0
    obtain ⟨s1, e1, m1⟩ := h.ended c!">" m0 (by decide)
    rw [e1, ok_bind, hn]
    exact ⟨_, rfl, m1⟩

theorem parseElement_sim (h : More strict R) (d : Dtd) {l : List Char} {s : FS Char} (hR : R l s) :
    Sim strict (On R) (Dtd.parseElement d l) (parseElement d s) := by
  unfold parseElement Dtd.parseElement
  obtain ⟨s0, e0, m0⟩ := skip_step' h.reads hR
  rw [e0, ok_bind]
  rcases eat_step h.reads m0 c!"<!ELEMENT" (by decide) with ⟨r, s1, e, f, m⟩ | ⟨s1, e, f, m⟩
  · simp only [e, f, ok_bind, if_true]
    obtain ⟨s2, e2, m2⟩ := skip_step' h.reads m
    rw [e2, ok_bind]
    rcases h.space [c!">", c!"(", c!" "] false m2 (by decide) (by decide) with ⟨s3, e3, m3⟩ | ⟨hs, g, hg, hg1, hg2, -⟩
    · rw [e3, ok_bind]
      simp only [memUntil] at m3 ⊢
      cases hg : Stream.getUntil [c!">", c!"(", c!" "] (Stream.skip r) with
      | none => exact Sim.error
      | some g =>
        simp only [hg, Bool.false_eq_true, if_false] at m3 ⊢
        split
        · exact Sim.error
        · have hsim := elementType_sim h m3
          revert hsim
          generalize Dtd.elementType g.at_ = x
          generalize elementType s3 = y
          intro hsim
          cases x with
          | ok a =>
            obtain ⟨⟨t', s5⟩, rfl, ha1, ha2⟩ := hsim
            obtain ⟨t, l5⟩ := a
            simp only at ha1 ha2
            subst ha1
            rw [ok_bind]
            simp only
            split
            · exact Sim.error
            · have hend := elementEnd_sim h ha2
              cases he : Dtd.elementEnd l5 with
              | none =>
                rw [he] at hend
                intro hs
                rw [hend hs]
                rfl
              | some q =>
                rw [he] at hend
                obtain ⟨s6, e6, m6⟩ := hend
                rw [e6]
                exact Sim.ok ⟨rfl, m6⟩
          | error => intro hs; rw [hsim hs]; rfl
          | ub => intro hs; rw [hsim hs]; rfl
          | loop => intro hs; rw [hsim hs]; rfl
    · refine Sim.away hs ?_
      intro x hx
      have h0 : g.chunk = 2 := hg1
      have ht : Dtd.elementType g.at_ = .error := by
        unfold Dtd.elementType
        rw [hg2]
        rfl
      simp [hg, h0, ht] at hx
  · simp only [e, f, ok_bind, Bool.false_eq_true, if_false]
    exact Sim.error

/-! ### Attributes -/

theorem word_sim (h : More strict R) : ∀ (ws : List (List Char × AttType)), (∀ w ∈ ws, Word w.1) → ∀ {l : List Char} {s : FS Char}, R l s →
    match Dtd.word l ws with
    | some (t, r) => ∃ s', word s ws = .ok (t, s') ∧ R r s'
    | none => word s ws = .error := by
  intro ws
  induction ws with
  | nil => intro _ l s _; rfl
  | cons w ws ih =>
    intro hw l s hR
    obtain ⟨w, t⟩ := w
    unfold word Dtd.word
    rcases eat_step h.reads hR w (hw _ List.mem_cons_self) with ⟨r, s1, e, f, m⟩ | ⟨s1, e, f, m⟩
    · simp only [e, f, ok_bind, if_true]
      exact ⟨_, rfl, m⟩
    · simp only [e, f, ok_bind, Bool.false_eq_true, if_false]
      exact ih (fun x hx => hw x (List.mem_cons_of_mem _ hx)) m

theorem attType_sim (h : More strict R) {l : List Char} {s : FS Char} (hR : R l s) :
    Sim strict (On R) (Dtd.attType l) (attType s) := by
  unfold attType Dtd.attType
  rcases eat_step h.reads hR c!"NOTATION" (by decide) with ⟨r, s1, e, f, m⟩ | ⟨s1, e, f, m⟩
  · simp only [e, f, ok_bind, if_true]
    exact Sim.ok ⟨rfl, m⟩
  · simp only [e, f, ok_bind, Bool.false_eq_true, if_false]
    rcases eat_step h.reads m c!"(" (by decide) with ⟨r, s2, e, f, m⟩ | ⟨s2, e, f, m⟩
    · simp only [e, f, ok_bind, if_true]
      obtain ⟨s3, e3, m3⟩ := h.reads.single [c!")"] true m (by simp; decide)
      rw [e3, ok_bind]
      simp only [memUntil] at m3 ⊢
      cases hg : Stream.getUntil [c!")"] r with
      | none => exact Sim.error
      | some g =>
        simp only [hg, if_true] at m3 ⊢
        cases enumValues (toStr g.text) with
        | none => exact Sim.ub
        | some vs => exact Sim.ok ⟨rfl, m3⟩
    · simp only [e, f, ok_bind, Bool.false_eq_true, if_false]
      have hw := word_sim h typeWords (by decide) m
      cases hx : Dtd.word l typeWords with
      | none => rw [hx] at hw; rw [hw]; exact Sim.error
      | some p =>
        obtain ⟨t, q⟩ := p
        rw [hx] at hw
        obtain ⟨s3, e3, m3⟩ := hw
        rw [e3]
        exact Sim.ok ⟨rfl, m3⟩

theorem attFixed_sim (h : More strict R) {l : List Char} {s : FS Char} (hR : R l s) :
    ∃ s', attFixed s = .ok ((Dtd.attFixed l).1, s') ∧ R (Dtd.attFixed l).2 s' := by
  unfold attFixed Dtd.attFixed
  rcases eat_step h.reads hR c!"#FIXED" (by decide) with ⟨r, s1, e, f, m⟩ | ⟨s1, e, f, m⟩
  · simp only [e, f, ok_bind, if_true]
    obtain ⟨s2, e2, m2⟩ := skip_step' h.reads m
    rw [e2]
    exact ⟨_, rfl, m2⟩
  · simp only [e, f, ok_bind, Bool.false_eq_true, if_false]
    exact ⟨_, rfl, m⟩

theorem quoted_sim (h : More strict R) {l : List Char} {s : FS Char} (hR : R l s) :
    ∃ s', quoted s = .ok (Stream.peek l c!"\"" || Stream.peek l c!"'", s') ∧ R l s' := by
  obtain ⟨s1, e1, m1⟩ := peek_step h.reads hR c!"\"" (by decide)
  obtain ⟨s2, e2, m2⟩ := peek_step h.reads m1 c!"'" (by decide)
  unfold quoted
  rw [e1, ok_bind]
  simp only
  cases Stream.peek l c!"\"" with
  | true => exact ⟨_, rfl, m1⟩
  | false => exact ⟨_, e2, m2⟩

theorem attDefault_sim (h : More strict R) {l : List Char} {s : FS Char} (hR : R l s) :
    match Dtd.attDefault l with
    | some (t, r) => ∃ s', attDefault s = .ok (t, s') ∧ R r s'
    | none => attDefault s = .error := by
  unfold attDefault Dtd.attDefault
  rcases eat_step h.reads hR c!"#REQUIRED" (by decide) with ⟨r, s1, e, f, m⟩ | ⟨s1, e, f, m⟩
  · simp only [e, f, ok_bind, if_true]
    exact ⟨_, rfl, m⟩
  · simp only [e, f, ok_bind, Bool.false_eq_true, if_false]
    rcases eat_step h.reads m c!"#IMPLIED" (by decide) with ⟨r, s2, e, f, m⟩ | ⟨s2, e, f, m⟩
    · simp only [e, f, ok_bind, if_true]
      exact ⟨_, rfl, m⟩
    · simp only [e, f, ok_bind, Bool.false_eq_true, if_false]
      obtain ⟨s3, e3, m3⟩ := attFixed_sim h m
      obtain ⟨s4, e4, m4⟩ := quoted_sim h m3
      rw [e3, ok_bind]
      simp only
      rw [e4, ok_bind]
      simp only
      split
      · rename_i t r hx
        split at hx
        · rename_i hq
          simp only [Option.some.injEq, Prod.mk.injEq] at hx
          rw [if_pos hq, ← hx.1, ← hx.2]
          exact ⟨_, rfl, m4⟩
        · simp at hx
      · rename_i hx
        split at hx
        · simp at hx
        · rename_i hq
          rw [if_neg hq]

theorem attValue_sim (h : More strict R) {l : List Char} {s : FS Char} (hR : R l s) :
    ∃ s', attValue s = .ok ((Dtd.attValue l).1, s') ∧ R (Dtd.attValue l).2 s' := by
  obtain ⟨s1, e1, m1, hq⟩ := FileParse.quote_sim h.reads hR
  unfold attValue Dtd.attValue
  rw [e1, ok_bind]
  cases hx : Parse.quote l with
  | none =>
    rw [hx] at m1
    exact ⟨_, rfl, m1⟩
  | some p =>
    obtain ⟨q, r⟩ := p
    rw [hx] at m1
    obtain ⟨s2, e2, m2⟩ := FileParse.attrValue_sim h.reads m1 (hq q r hx)
    exact ⟨s2, e2, m2⟩

theorem attType_nil : Dtd.attType [] = .error := rfl

theorem attlistLoop_sim (h : More strict R) : ∀ (fuel : Nat) (d : Dtd) (decls : List AttDecl) {l : List Char} {s : FS Char}, R l s →
    Sim strict (FileParse.On2 R) (Dtd.attlistLoop fuel d decls l) (attlistLoop fuel d decls s) := by
  intro fuel
  induction fuel with
  | zero => intro d decls l s _; exact Sim.loop
  | succ fuel ih =>
    intro d decls l s hR
    unfold attlistLoop Dtd.attlistLoop
    obtain ⟨s0, e0, m0⟩ := skip_step' h.reads hR
    rw [e0, ok_bind]
    rcases eat_step h.reads m0 c!">" (by decide) with ⟨r, s1, e, f, m⟩ | ⟨s1, e, f, m⟩
    · simp only [e, f, ok_bind, if_true]
      exact Sim.ok ⟨rfl, rfl, m⟩
    · simp only [e, f, ok_bind, Bool.false_eq_true, if_false]
      rcases h.space [c!" "] false m (by decide) (by decide) with ⟨s2, e2, m2⟩ | ⟨hs, g, hg, hg1, hg2, -⟩
      · rw [e2, ok_bind]
        simp only [memUntil] at m2 ⊢
        cases hg : Stream.getUntil [c!" "] (Stream.skip l) with
        | none => exact Sim.error
        | some g =>
          simp only [hg, Bool.false_eq_true, if_false] at m2 ⊢
          obtain ⟨s3, e3, m3⟩ := skip_step' h.reads m2
          rw [e3, ok_bind]
          have hx := h.expand d m3
          revert hx
          generalize Dtd.expand d (Stream.skip g.at_) = x
          generalize expand d s3 = y
          intro hx
          cases x with
          | ok l4 =>
            obtain ⟨s4, rfl, m4⟩ := hx
            rw [ok_bind]
            simp only
            have ht := attType_sim h m4
            revert ht
            generalize Dtd.attType l4 = x
            generalize attType s4 = y
            intro ht
            cases x with
            | ok a =>
              obtain ⟨⟨t', s5⟩, rfl, ha1, ha2⟩ := ht
              obtain ⟨t, l5⟩ := a
              simp only at ha1 ha2
              subst ha1
              rw [ok_bind]
              simp only
              obtain ⟨s6, e6, m6⟩ := skip_step' h.reads ha2
              rw [e6, ok_bind]
              have hd := attDefault_sim h m6
              cases hdd : Dtd.attDefault (Stream.skip l5) with
              | none => rw [hdd] at hd; rw [hd]; exact Sim.error
              | some p =>
                obtain ⟨df, l7⟩ := p
                rw [hdd] at hd
                obtain ⟨s7, e7, m7⟩ := hd
                rw [e7, ok_bind]
                simp only
                obtain ⟨s8, e8, m8⟩ := skip_step' h.reads m7
                obtain ⟨s9, e9, m9⟩ := attValue_sim h m8
                rw [e8, ok_bind, e9, ok_bind]
                simp only
                split
                · exact Sim.error
                · split
                  · exact Sim.error
                  · exact ih _ _ m9
            | error => intro hs; rw [ht hs]; rfl
            | ub => intro hs; rw [ht hs]; rfl
            | loop => intro hs; rw [ht hs]; rfl
          | error => intro hs; rw [hx hs]; rfl
          | ub => intro hs; rw [hx hs]; rfl
          | loop => intro hs; rw [hx hs]; rfl
      · refine Sim.away hs ?_
        intro x hx
        have hex : Dtd.expand d [] = .ok [] := rfl
        simp [hg, hg2, hex, attType_nil] at hx

theorem parseAttlist_sim (h : More strict R) (fuel : Nat) (d : Dtd) {l : List Char} {s : FS Char} (hR : R l s) :
    Sim strict (On R) (Dtd.parseAttlist fuel d l) (parseAttlist fuel d s) := by
  unfold parseAttlist Dtd.parseAttlist
  obtain ⟨s0, e0, m0⟩ := skip_step' h.reads hR
  rw [e0, ok_bind]
  rcases h.space [c!" "] false m0 (by decide) (by decide) with ⟨s2, e2, m2⟩ | ⟨hs, g, hg, hg1, hg2, -⟩
  · rw [e2, ok_bind]
    simp only [memUntil] at m2 ⊢
    cases hg : Stream.getUntil [c!" "] (Stream.skip l) with
    | none => exact Sim.error
    | some g =>
      simp only [hg, Bool.false_eq_true, if_false] at m2 ⊢
      have hsim := attlistLoop_sim h fuel d (d.declsOf (toStr g.text)) m2
      revert hsim
      generalize Dtd.attlistLoop fuel d _ g.at_ = x
      generalize attlistLoop fuel d _ s2 = y
      intro hsim
      cases x with
      | ok a =>
        obtain ⟨⟨d', c', s5⟩, rfl, ha1, ha2, ha3⟩ := hsim
        obtain ⟨d5, c5, l5⟩ := a
        simp only at ha1 ha2 ha3
        subst ha1 ha2
        exact Sim.ok ⟨rfl, ha3⟩
      | error => intro hs; rw [hsim hs]; rfl
      | ub => intro hs; rw [hsim hs]; rfl
      | loop => intro hs; rw [hsim hs]; rfl
  · refine Sim.away hs ?_
    intro x hx
    simp only [hg] at hx
    have : ∀ y, Dtd.attlistLoop fuel d (d.declsOf (toStr g.text)) g.at_ ≠ .ok y := by
      intro y hy
      cases fuel with
      | zero => simp [Dtd.attlistLoop] at hy
      | succ fuel =>
        unfold Dtd.attlistLoop at hy
        rw [hg2] at hy
        simp [Stream.eat, Stream.inspect, Stream.getUntil] at hy
    split at hx
    · rename_i hy
      exact this _ hy
    · simp at hx
    · simp at hx
    · simp at hx

/-! ### Entities -/

theorem entityContent_sim (h : More strict R) {l : List Char} {s : FS Char} (hR : R l s) :
    match Dtd.entityContent l with
    | some (t, r) => ∃ s', entityContent s = .ok (t, s') ∧ R r s'
    | none => entityContent s = .error := by
  unfold entityContent Dtd.entityContent
  rcases eat_step h.reads hR c!"PUBLIC" (by decide) with ⟨r, s1, e, f, m⟩ | ⟨s1, e, f, m⟩
  · simp only [e, f, ok_bind, if_true]
    exact ⟨_, rfl, m⟩
  · simp only [e, f, ok_bind, Bool.false_eq_true, if_false]
    rcases eat_step h.reads m c!"SYSTEM" (by decide) with ⟨r, s2, e, f, m⟩ | ⟨s2, e, f, m⟩
    · simp only [e, f, ok_bind, if_true]
      exact ⟨_, rfl, m⟩
    · simp only [e, f, ok_bind, Bool.false_eq_true, if_false]
      obtain ⟨s3, e3, m3, hq⟩ := FileParse.quote_sim h.reads m
      rw [e3, ok_bind]
      cases hx : Parse.quote l with
      | none => rfl
      | some p =>
        obtain ⟨q, r⟩ := p
        rw [hx] at m3
        obtain ⟨s4, e4, m4⟩ := FileParse.attrValue_sim h.reads m3 (hq q r hx)
        exact ⟨s4, e4, m4⟩

theorem entityType_sim (h : More strict R) {l : List Char} {s : FS Char} (hR : R l s) :
    ∃ s', entityType s = .ok ((Dtd.entityType l).1, s') ∧ R (Dtd.entityType l).2 s' := by
  unfold entityType Dtd.entityType
  obtain ⟨s0, e0, m0⟩ := skip_step' h.reads hR
  rw [e0, ok_bind]
  rcases eat_step h.reads m0 c!"%" (by decide) with ⟨r, s1, e, f, m⟩ | ⟨s1, e, f, m⟩
  · simp only [e, f, ok_bind, if_true]
    obtain ⟨s2, e2, m2⟩ := skip_step' h.reads m
    rw [e2]
    exact ⟨_, rfl, m2⟩
  · simp only [e, f, ok_bind, Bool.false_eq_true, if_false]
    exact ⟨_, rfl, m⟩

theorem parseEntity_sim (h : More strict R) (d : Dtd) {l : List Char} {s : FS Char} (hR : R l s) :
    Sim strict (On R) (Dtd.parseEntity d l) (parseEntity d s) := by
  unfold parseEntity Dtd.parseEntity
  obtain ⟨s0, e0, m0⟩ := skip_step' h.reads hR
  rw [e0, ok_bind]
  rcases eat_step h.reads m0 c!"<!ENTITY" (by decide) with ⟨r, s1, e, f, m⟩ | ⟨s1, e, f, m⟩
  · simp only [e, f, ok_bind, if_true]
    obtain ⟨s2, e2, m2⟩ := entityType_sim h m
    rw [e2, ok_bind]
    simp only
    rcases h.space [c!" "] false m2 (by decide) (by decide) with ⟨s3, e3, m3⟩ | ⟨hs, g, hg, hg1, hg2, -⟩
    · rw [e3, ok_bind]
      simp only [memUntil] at m3 ⊢
      cases hg : Stream.getUntil [c!" "] (Dtd.entityType r).2 with
      | none => exact Sim.error
      | some g =>
        simp only [hg, Bool.false_eq_true, if_false] at m3 ⊢
        obtain ⟨s4, e4, m4⟩ := skip_step' h.reads m3
        rw [e4, ok_bind]
        have hc := entityContent_sim h m4
        cases hx : Dtd.entityContent (Stream.skip g.at_) with
        | none => rw [hx] at hc; rw [hc]; exact Sim.error
        | some p =>
          obtain ⟨c, q⟩ := p
          rw [hx] at hc
          obtain ⟨s5, e5, m5⟩ := hc
          rw [e5, ok_bind]
          simp only
          obtain ⟨s6, e6, m6⟩ := skip_step' h.reads m5
          rw [e6, ok_bind]
          rcases eat_step h.reads m6 c!">" (by decide) with ⟨r, s7, e, f, m⟩ | ⟨s7, e, f, m⟩
          · simp only [e, f, ok_bind, if_true]
            exact Sim.ok ⟨rfl, m⟩
          · simp only [e, f, ok_bind, Bool.false_eq_true, if_false]
            exact Sim.error
    · refine Sim.away hs ?_
      intro x hx
      have hex : Dtd.entityContent [] = none := rfl
      simp [hg, hg2, hex] at hx
  · simp only [e, f, ok_bind, Bool.false_eq_true, if_false]
    exact Sim.error

/-! ### The whole -/

theorem dtdComments_sim (h : More strict R) {l : List Char} {s : FS Char} (hR : R l s) :
    Sim strict R (Dtd.dtdComments l) (dtdComments s) := by
  unfold dtdComments Dtd.dtdComments
  rw [h.reads.left hR]
  have hsim := FileParse.comments_sim h.reads h.multi false (l.length + 1) ⟨[], none, [], [], []⟩ hR
  revert hsim
  generalize Parse.comments false (l.length + 1) _ l = x
  generalize FileParse.comments false (l.length + 1) _ s = y
  intro hsim
  cases x with
  | ok a =>
    obtain ⟨⟨st, s5⟩, rfl, ha1, ha2⟩ := hsim
    exact Sim.ok ha2
  | error => intro hs; rw [hsim hs]; rfl
  | ub => intro hs; rw [hsim hs]; rfl
  | loop => intro hs; rw [hsim hs]; rfl

theorem declaration_sim (h : More strict R) (fuel : Nat) (d : Dtd) {l : List Char} {s : FS Char} (hR : R l s) :
    match Dtd.declaration fuel d l with
    | none => ∃ s', declaration fuel d s = .ok (none, s') ∧ R l s'
    | some x => Sim strict (fun a b => b.1 = some a.1 ∧ R a.2 b.2) x (declaration fuel d s) := by
  have wrap : ∀ {x : Res (Dtd × List Char)} {y : Res (Dtd × FS Char)}, Sim strict (On R) x y →
      Sim strict (fun a b => b.1 = some a.1 ∧ R a.2 b.2) x (y >>= fun p => .ok (some p.1, p.2)) := by
    intro x y hsim
    cases x with
    | ok a =>
      obtain ⟨⟨d', s5⟩, rfl, ha1, ha2⟩ := hsim
      exact Sim.ok ⟨by simp only at ha1 ⊢; rw [ha1], ha2⟩
    | error => intro hs; rw [hsim hs]; rfl
    | ub => intro hs; rw [hsim hs]; rfl
    | loop => intro hs; rw [hsim hs]; rfl
  unfold declaration Dtd.declaration
  obtain ⟨s0, e0, m0⟩ := peek_step h.reads hR c!"<!ELEMENT" (by decide)
  rw [e0, ok_bind]
  simp only
  by_cases hp : Stream.peek l c!"<!ELEMENT" = true
  · rw [if_pos hp, if_pos hp]
    exact wrap (parseElement_sim h d m0)
  · rw [if_neg hp, if_neg hp]
    rcases eat_step h.reads m0 c!"<!ATTLIST" (by decide) with ⟨r, s1, e, f, m⟩ | ⟨s1, e, f, m⟩
    · simp only [e, f, ok_bind, if_true]
      exact wrap (parseAttlist_sim h fuel d m)
    · simp only [e, f, ok_bind, Bool.false_eq_true, if_false]
      obtain ⟨s2, e2, m2⟩ := peek_step h.reads m c!"<!ENTITY" (by decide)
      rw [e2, ok_bind]
      simp only
      by_cases hp : Stream.peek l c!"<!ENTITY" = true
      · rw [if_pos hp, if_pos hp]
        exact wrap (parseEntity_sim h d m2)
      · rw [if_neg hp, if_neg hp]
        exact ⟨_, rfl, m2⟩

theorem parseLoop_sim (h : More strict R) (fuel : Nat) : ∀ (k iterator : Nat) (d : Dtd) {l : List Char} {s : FS Char}, R l s →
    Sim strict Eq (Dtd.parseLoop fuel k iterator d l) (parseLoop fuel k iterator d s) := by
  intro k
  induction k with
  | zero => intro iterator d l s _; exact Sim.loop
  | succ k ih =>
    intro iterator d l s hR
    unfold parseLoop Dtd.parseLoop
    obtain ⟨s0, e0, m0⟩ := h.reads.remains hR
    rw [e0, ok_bind]
    cases l with
    | nil => exact Sim.ok rfl
    | cons c l =>
      simp only [List.isEmpty_cons, Bool.false_eq_true, if_false, ne_eq, reduceCtorEq, not_false_eq_true, decide_true, if_true]
      have hc := dtdComments_sim h m0
      revert hc
      generalize Dtd.dtdComments (c :: l) = x
      generalize dtdComments s0 = y
      intro hc
      cases x with
      | ok l1 =>
        obtain ⟨s1, rfl, m1⟩ := hc
        rw [ok_bind]
        simp only
        have hd := declaration_sim h fuel d m1
        cases hx : Dtd.declaration fuel d l1 with
        | none =>
          rw [hx] at hd
          obtain ⟨s2, e2, m2⟩ := hd
          rw [e2, ok_bind]
          simp only
          split
          · exact Sim.error
          · exact ih _ _ m2
        | some x =>
          rw [hx] at hd
          simp only at hd
          revert hd
          generalize declaration fuel d s1 = y
          intro hd
          cases x with
          | ok a =>
            obtain ⟨⟨nd, s2⟩, rfl, ha1, ha2⟩ := hd
            obtain ⟨d2, l2⟩ := a
            simp only at ha1 ha2
            subst ha1
            rw [ok_bind]
            exact ih _ _ ha2
          | error => intro hs; rw [hd hs]; rfl
          | ub => intro hs; rw [hd hs]; rfl
          | loop => intro hs; rw [hd hs]; rfl
      | error => intro hs; rw [hc hs]; rfl
      | ub => intro hs; rw [hc hs]; rfl
      | loop => intro hs; rw [hc hs]; rfl

theorem parse_sim (h : More strict R) (fuel : Nat) {l : List Char} {s : FS Char} (hR : R l s) :
    Sim strict Eq (Dtd.parse fuel l) (parseStream fuel s) := by
  unfold parseStream Dtd.parse Dtd.declarations
  have hc := parseLoop_sim h fuel (fuel + 5) 0 Dtd.new hR
  revert hc
  generalize Dtd.parseLoop fuel (fuel + 5) 0 Dtd.new l = x
  generalize parseLoop fuel (fuel + 5) 0 Dtd.new s = y
  intro hc
  cases x with
  | ok d =>
    obtain ⟨d', rfl, hd⟩ := hc
    subst hd
    rw [ok_bind]
    simp only
    cases conclude fuel d with
    | ok d => exact Sim.ok rfl
    | error => exact Sim.error
    | ub => exact Sim.ub
    | loop => exact Sim.loop
  | error => intro hs; rw [hc hs]; rfl
  | ub => intro hs; rw [hc hs]; rfl
  | loop => intro hs; rw [hc hs]; rfl

end

end DtdFile
end Axl
