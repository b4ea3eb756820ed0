/-
Proofs about a document read from a file: each function of the parser over a stream of a file does what the one
over memory does, if the functions of the stream do.
-/
import Verif.Model.FileParse
import Verif.Proofs.FileStep

namespace Axl
namespace FileParse
open Str Parse FileStream Spec.FileStream

/-! ### Two parsers side by side -/

/-- What the second one gives is what the first one gives; with `strict` false, only when the first one gives a
value. -/
def Sim {α β : Type} (strict : Prop) (P : α → β → Prop) (x : Res α) (y : Res β) : Prop :=
  match x with
  | .ok a => ∃ b, y = .ok b ∧ P a b
  | .error => strict → y = .error
  | .ub => strict → y = .ub
  | .loop => strict → y = .loop

theorem Sim.ok {α β : Type} {strict : Prop} {P : α → β → Prop} {a : α} {b : β} (h : P a b) :
    Sim strict P (.ok a) (.ok b) := ⟨b, rfl, h⟩

theorem Sim.error {α β : Type} {strict : Prop} {P : α → β → Prop} : Sim strict P (.error : Res α) (.error : Res β) :=
  fun _ => rfl

theorem Sim.ub {α β : Type} {strict : Prop} {P : α → β → Prop} : Sim strict P (.ub : Res α) (.ub : Res β) :=
  fun _ => rfl

theorem Sim.loop {α β : Type} {strict : Prop} {P : α → β → Prop} : Sim strict P (.loop : Res α) (.loop : Res β) :=
  fun _ => rfl

theorem ok_bind {α β : Type} (a : α) (f : α → Res β) : (Res.ok a >>= f) = f a := rfl

theorem Sim.bind {α β γ δ : Type} {strict : Prop} {P : α → β → Prop} {Q : γ → δ → Prop} {x : Res α} {y : Res β}
    {f : α → Res γ} {g : β → Res δ} (h : Sim strict P x y) (hf : ∀ a b, P a b → Sim strict Q (f a) (g b)) :
    Sim strict Q (x >>= f) (y >>= g) := by
  cases x with
  | ok a =>
    obtain ⟨b, rfl, hp⟩ := h
    exact hf a b hp
  | error => intro hs; rw [h hs]; rfl
  | ub => intro hs; rw [h hs]; rfl
  | loop => intro hs; rw [h hs]; rfl

/-- The same step, without the stream, in both. -/
theorem Sim.same {α γ δ : Type} {strict : Prop} {Q : γ → δ → Prop} {x : Res α}
    {f : α → Res γ} {g : α → Res δ} (hf : ∀ a, Sim strict Q (f a) (g a)) : Sim strict Q (x >>= f) (x >>= g) := by
  cases x with
  | ok a => exact hf a
  | error => intro _; rfl
  | ub => intro _; rfl
  | loop => intro _; rfl

/-- The words that the parser looks for. -/
def Word (chunk : List Char) : Prop := chunk ≠ [] ∧ chunk.length ≤ 12 ∧ ∀ c ∈ chunk, isWhite c = false

instance (chunk : List Char) : Decidable (Word chunk) := by unfold Word; infer_instance

/-- Reading up to some chunks is as over memory. -/
def Exact (R : List Char → FS Char → Prop) (chunks : List (List Char)) (accept : Bool) (l : List Char) (s : FS Char) : Prop :=
  ∃ s', untilOne chunks accept s = .ok ((memUntil chunks accept l).1, s') ∧ R (memUntil chunks accept l).2 s'

/-- The functions of the stream, each one as over memory: `R` relates the text left and the stream. -/
structure Reads (strict : Prop) (R : List Char → FS Char → Prop) : Prop where
  left : ∀ {l s}, R l s → FileParse.left s = l.length
  skip : ∀ {l s}, R l s → ∃ s', FileParse.skip s = .ok s' ∧ R (Stream.skip l) s' ∧
    (Stream.skip l = l → s'.index ≤ s.index)
  look : ∀ {l s} (chunk : List Char) (accept : Bool), R l s → Word chunk →
    ∃ a s', FileStream.inspect 0 s chunk accept = .ok (a, s') ∧
      (match Stream.eat l chunk with
        | some rest => (∃ r, a = .yes r) ∧ R (if accept then rest else l) s'
        | none => (a = .no ∨ a = .short) ∧ R l s') ∧
      ((Stream.eat l chunk = none ∨ accept = false) → s'.index ≤ s.index) ∧
      (strict → (a = .short ↔ Stream.inspect l chunk = .short))
  remains : ∀ {l s}, R l s → ∃ s', FileStream.remains 0 s = .ok (decide (l ≠ []), s') ∧ R l s'
  single : ∀ {l s} (chunks : List (List Char)) (accept : Bool), R l s →
    (∀ c ∈ chunks, ∃ q, c = [q] ∧ isWhite q = false) → Exact R chunks accept l s
  name : ∀ {l s}, R l s → Exact R [c!">", c!" "] true l s ∨
    (¬ strict ∧ ∃ f, Stream.getUntil [c!">", c!" "] l = some f ∧ f.chunk = 1 ∧ f.after = [])

/-- Chunks of several characters: either they are found as over memory, or nothing in the text asks for
them. -/
def Multi (R : List Char → FS Char → Prop) : Prop :=
  (∀ l s chunks accept, R l s → Exact R chunks accept l s) ∨
  (∀ l s, R l s → Stream.eat l c!"<!--" = none ∧ Stream.eat l c!"<?" = none ∧ Stream.eat l c!"<![CDATA[" = none)

section
variable {strict : Prop} {R : List Char → FS Char → Prop}

theorem eat_sim (h : Reads strict R) {l : List Char} {s : FS Char} (hR : R l s) (chunk : List Char) (hc : Word chunk) :
    ∃ s', eat s chunk = .ok ((Stream.eat l chunk).isSome, s') ∧ R ((Stream.eat l chunk).getD l) s' ∧
      (Stream.eat l chunk = none → s'.index ≤ s.index) := by
  obtain ⟨a, s', e, m, i, -⟩ := h.look chunk true hR hc
  refine ⟨s', ?_, ?_, fun x => i (.inl x)⟩
  · unfold eat look
    rw [e, ok_bind]
    cases he : Stream.eat l chunk with
    | some rest =>
      rw [he] at m
      obtain ⟨⟨r, rfl⟩, -⟩ := m
      rfl
    | none =>
      rw [he] at m
      rcases m with ⟨rfl | rfl, -⟩ <;> rfl
  · cases he : Stream.eat l chunk with
    | some rest => rw [he] at m; exact m.2
    | none => rw [he] at m; exact m.2

theorem peek_sim (h : Reads strict R) {l : List Char} {s : FS Char} (hR : R l s) (chunk : List Char) (hc : Word chunk) :
    ∃ s', peek s chunk = .ok (Stream.peek l chunk, s') ∧ R l s' ∧ s'.index ≤ s.index := by
  obtain ⟨a, s', e, m, i, -⟩ := h.look chunk false hR hc
  refine ⟨s', ?_, ?_, i (.inr rfl)⟩
  · unfold peek Stream.peek
    rw [e, ok_bind]
    cases he : Stream.eat l chunk with
    | some rest =>
      rw [he] at m
      obtain ⟨⟨r, rfl⟩, -⟩ := m
      rfl
    | none =>
      rw [he] at m
      rcases m with ⟨rfl | rfl, -⟩ <;> rfl
  · cases he : Stream.eat l chunk with
    | some rest => rw [he] at m; exact m.2
    | none => rw [he] at m; exact m.2

/-- What reading by reference gives over memory. -/
theorem untilRef_sim {l : List Char} {s : FS Char} {chunks : List (List Char)} (h : Exact R chunks true l s) :
    ∃ s', untilRef chunks s = .ok ((Stream.getUntilRef chunks l).1, s') ∧ R (Stream.getUntilRef chunks l).2 s' := by
  obtain ⟨s', e, m⟩ := h
  refine ⟨s', ?_, ?_⟩
  · unfold untilRef Stream.getUntilRef
    rw [e, ok_bind]
    simp only [memUntil]
    cases Stream.getUntil chunks l with
    | none => rfl
    | some f =>
      simp only
      split <;> rfl
  · unfold Stream.getUntilRef
    simp only [memUntil] at m
    cases hg : Stream.getUntil chunks l with
    | none => rw [hg] at m; exact m
    | some f =>
      rw [hg] at m
      simp only
      split <;> exact m

/-- The two states, and the text and the stream. -/
def On {α : Type} (R : List Char → FS Char → Prop) (a : α × List Char) (b : α × FS Char) : Prop :=
  a.1 = b.1 ∧ R a.2 b.2

def On2 {α β : Type} (R : List Char → FS Char → Prop) (a : α × β × List Char) (b : α × β × FS Char) : Prop :=
  a.1 = b.1 ∧ a.2.1 = b.2.1 ∧ R a.2.2 b.2.2

def Mid {α β : Type} (R : List Char → FS Char → Prop) (a : α × List Char × β) (b : α × FS Char × β) : Prop :=
  a.1 = b.1 ∧ R a.2.1 b.2.1 ∧ a.2.2 = b.2.2

def On3 {α β γ : Type} (R : List Char → FS Char → Prop) (a : α × β × γ × List Char) (b : α × β × γ × FS Char) : Prop :=
  a.1 = b.1 ∧ a.2.1 = b.2.1 ∧ a.2.2.1 = b.2.2.1 ∧ R a.2.2.2 b.2.2.2

/-! ### Comments and instructions -/

theorem consumePi_sim (h : Reads strict R) (hm : Multi R) (st : St) {l : List Char} {s : FS Char} (hR : R l s) :
    Sim strict (On R) (Parse.consumePi st l) (consumePi st s) := by
  obtain ⟨s1, e1, m1, -⟩ := eat_sim h hR c!"<?" (by decide)
  unfold Parse.consumePi consumePi
  rw [e1, ok_bind]
  cases he : Stream.eat l c!"<?" with
  | none =>
    rw [he] at m1
    exact Sim.ok ⟨rfl, m1⟩
  | some r =>
    rw [he] at m1
    rcases hm with hm | hm
    · obtain ⟨s2, e2, m2⟩ := hm _ _ [c!" ?>", c!"?>", c!" "] true m1
      simp only [Option.isSome_some, if_true]
      rw [e2, ok_bind]
      simp only [memUntil, Option.getD_some] at m2 ⊢
      cases hg : Stream.getUntil [c!" ?>", c!"?>", c!" "] r with
      | none => exact Sim.error
      | some f =>
        simp only [hg, if_true] at m2 ⊢
        split
        · exact Sim.error
        · split
          · exact Sim.ok ⟨rfl, m2⟩
          · obtain ⟨s3, e3, m3⟩ := hm _ _ [c!" ?>", c!"?>"] true m2
            rw [e3, ok_bind]
            simp only [memUntil] at m3 ⊢
            cases hg2 : Stream.getUntil [c!" ?>", c!"?>"] f.after with
            | none => exact Sim.error
            | some g =>
              simp only [hg2, if_true] at m3 ⊢
              exact Sim.ok ⟨rfl, m3⟩
    · rw [(hm _ _ hR).2.1] at he
      simp at he

theorem comment_sim (h : Reads strict R) (hm : Multi R) (st : St) {l : List Char} {s : FS Char} (hR : R l s) :
    Sim strict (On2 R) (Parse.comment st l) (comment st s) := by
  obtain ⟨s0, e0, m0, -⟩ := h.skip hR
  obtain ⟨s1, e1, m1, -⟩ := eat_sim h m0 c!"<!--" (by decide)
  unfold Parse.comment comment
  rw [e0, ok_bind, e1, ok_bind]
  cases he : Stream.eat (Stream.skip l) c!"<!--" with
  | none =>
    rw [he] at m1
    exact Sim.ok ⟨rfl, rfl, m1⟩
  | some r =>
    rw [he] at m1
    rcases hm with hm | hm
    · obtain ⟨s2, e2, m2⟩ := untilRef_sim (hm _ _ [c!"-->"] true m1)
      simp only [Option.isSome_some, if_true, Option.getD_some] at e2 m2 ⊢
      rw [e2, ok_bind]
      cases hg : Stream.getUntilRef [c!"-->"] r with
      | mk text rest =>
        rw [hg] at m2
        cases text with
        | none => exact Sim.error
        | some text => exact Sim.ok ⟨rfl, rfl, m2⟩
    · rw [(hm _ _ m0).1] at he
      simp at he

theorem instruction_sim (h : Reads strict R) (hm : Multi R) (header : Bool) (st : St) {l : List Char} {s : FS Char}
    (hR : R l s) : Sim strict (On2 R) (Parse.instruction header st l) (instruction header st s) := by
  obtain ⟨s0, e0, m0, -⟩ := h.skip hR
  obtain ⟨s1, e1, m1, -⟩ := peek_sim h m0 c!"<?" (by decide)
  unfold Parse.instruction instruction
  rw [e0, ok_bind]
  cases header with
  | false =>
    simp only [Bool.false_and, Bool.false_eq_true, if_false]
    exact Sim.ok ⟨rfl, rfl, m0⟩
  | true =>
    simp only [Bool.true_and, if_true]
    rw [e1, ok_bind]
    split
    · refine Sim.bind (consumePi_sim h hm st m1) ?_
      intro a b hab
      obtain ⟨ast, al⟩ := a
      obtain ⟨bst, bs⟩ := b
      obtain ⟨rfl, hab⟩ := hab
      exact Sim.ok ⟨rfl, rfl, hab⟩
    · exact Sim.ok ⟨rfl, rfl, m1⟩

theorem comments_sim (h : Reads strict R) (hm : Multi R) (header : Bool) : ∀ (fuel : Nat) (st : St) {l : List Char}
    {s : FS Char}, R l s → Sim strict (On R) (Parse.comments header fuel st l) (comments header fuel st s) := by
  intro fuel
  induction fuel with
  | zero => intro st l s _; exact Sim.loop
  | succ fuel ih =>
    intro st l s hR
    unfold Parse.comments comments
    refine Sim.bind (comment_sim h hm st hR) ?_
    rintro ⟨f1, st1, l1⟩ ⟨f1', st1', s1⟩ ⟨rfl, rfl, hR1⟩
    refine Sim.bind (instruction_sim h hm header st1 hR1) ?_
    rintro ⟨f2, st2, l2⟩ ⟨f2', st2', s2⟩ ⟨rfl, rfl, hR2⟩
    simp only
    split
    · exact ih st2 hR2
    · obtain ⟨s3, e3, m3, -⟩ := h.skip hR2
      rw [e3, ok_bind]
      exact Sim.ok ⟨rfl, m3⟩

/-! ### Tags -/

theorem quote_sim (h : Reads strict R) {l : List Char} {s : FS Char} (hR : R l s) :
    ∃ s', quote s = .ok ((Parse.quote l).map Prod.fst, s') ∧ R (((Parse.quote l).map Prod.snd).getD l) s' ∧
      (∀ q r, Parse.quote l = some (q, r) → isWhite q = false) := by
  obtain ⟨s1, e1, m1, -⟩ := eat_sim h hR c!"\"" (by decide)
  unfold quote Parse.quote
  rw [e1, ok_bind]
  cases he : Stream.eat l c!"\"" with
  | some r =>
    rw [he] at m1
    refine ⟨s1, rfl, m1, ?_⟩
    intro q r' hq
    simp only [Option.some.injEq, Prod.mk.injEq] at hq
    rw [← hq.1]
    decide
  | none =>
    rw [he] at m1
    obtain ⟨s2, e2, m2, -⟩ := eat_sim h m1 c!"'" (by decide)
    simp only [Option.isSome_none, Bool.false_eq_true, if_false, Option.getD_none] at e2 m2 ⊢
    rw [e2, ok_bind]
    cases he2 : Stream.eat l c!"'" with
    | some r =>
      rw [he2] at m2
      refine ⟨s2, rfl, m2, ?_⟩
      intro q r' hq
      simp only [Option.some.injEq, Prod.mk.injEq] at hq
      rw [← hq.1]
      decide
    | none =>
      rw [he2] at m2
      exact ⟨s2, rfl, m2, by simp⟩

theorem attrValue_sim (h : Reads strict R) {l : List Char} {s : FS Char} (hR : R l s) {q : Char} (hq : isWhite q = false) :
    ∃ s', attrValue q s = .ok ((Parse.attrValue q l).1, s') ∧ R (Parse.attrValue q l).2 s' := by
  obtain ⟨s1, e1, m1⟩ := h.single [[q]] true hR (by simp [hq])
  unfold attrValue Parse.attrValue
  refine ⟨s1, ?_, ?_⟩
  · rw [e1, ok_bind]
    simp only [memUntil]
    cases Stream.getUntil [[q]] l <;> rfl
  · simp only [memUntil] at m1
    cases hg : Stream.getUntil [[q]] l <;> rw [hg] at m1 <;> exact m1

theorem attrib_sim (h : Reads strict R) (st : St) {l : List Char} {s : FS Char} (hR : R l s) :
    Sim strict (On R) (Parse.attrib st l) (attrib st s) := by
  obtain ⟨s0, e0, m0, -⟩ := h.skip hR
  obtain ⟨s1, e1, m1⟩ := h.single [c!"="] true m0 (by simp; decide)
  unfold Parse.attrib attrib
  rw [e0, ok_bind, e1, ok_bind]
  simp only [memUntil] at m1 ⊢
  cases hg : Stream.getUntil [c!"="] (Stream.skip l) with
  | none => exact Sim.error
  | some f =>
    simp only [hg, if_true] at m1 ⊢
    split
    · exact Sim.error
    · obtain ⟨s2, e2, m2, hq⟩ := quote_sim h m1
      rw [e2, ok_bind]
      cases hqt : Parse.quote f.after with
      | none => exact Sim.error
      | some p =>
        obtain ⟨q, r⟩ := p
        rw [hqt] at m2
        obtain ⟨s3, e3, m3⟩ := attrValue_sim h m2 (hq q r hqt)
        simp only [Option.map_some, Option.getD_some] at e3 m3 ⊢
        rw [e3, ok_bind]
        cases st.opened with
        | nil => exact Sim.ub
        | cons o os =>
          simp only
          refine Sim.same fun has => ?_
          split
          · exact Sim.error
          · refine Sim.same fun o' => Sim.same fun st' => ?_
            obtain ⟨s4, e4, m4, -⟩ := h.skip m3
            rw [e4, ok_bind]
            exact Sim.ok ⟨rfl, m4⟩

theorem attrLoop_sim (h : Reads strict R) : ∀ (fuel : Nat) (st : St) {l : List Char} {s : FS Char}, R l s →
    Sim strict (Mid R) (Parse.attrLoop fuel st l) (attrLoop fuel st s) := by
  intro fuel
  induction fuel with
  | zero => intro st l s _; exact Sim.loop
  | succ fuel ih =>
    intro st l s hR
    obtain ⟨s1, e1, m1, -⟩ := eat_sim h hR c!"/>" (by decide)
    unfold Parse.attrLoop attrLoop
    rw [e1, ok_bind]
    cases he : Stream.eat l c!"/>" with
    | some r =>
      rw [he] at m1
      exact Sim.ok ⟨rfl, m1, rfl⟩
    | none =>
      rw [he] at m1
      obtain ⟨s2, e2, m2, -⟩ := eat_sim h m1 c!">" (by decide)
      simp only [Option.isSome_none, Bool.false_eq_true, if_false, Option.getD_none] at e2 m2 ⊢
      rw [e2, ok_bind]
      cases he2 : Stream.eat l c!">" with
      | some r =>
        rw [he2] at m2
        exact Sim.ok ⟨rfl, m2, rfl⟩
      | none =>
        rw [he2] at m2
        simp only [Option.isSome_none, Bool.false_eq_true, if_false, Option.getD_none] at m2 ⊢
        refine Sim.bind (attrib_sim h st m2) ?_
        rintro ⟨st1, l1⟩ ⟨st1', s3⟩ ⟨rfl, hR1⟩
        exact ih st1 hR1

theorem openAngle_sim (h : Reads strict R) {l : List Char} {s : FS Char} (hR : R l s) :
    ∃ s', openAngle s = .ok ((Parse.openAngle l).isSome, s') ∧ R ((Parse.openAngle l).getD l) s' := by
  obtain ⟨s1, e1, m1, -⟩ := eat_sim h hR c!"<" (by decide)
  unfold openAngle Parse.openAngle
  rw [e1, ok_bind]
  cases he : Stream.eat l c!"<" with
  | some r =>
    rw [he] at m1
    exact ⟨s1, rfl, m1⟩
  | none =>
    rw [he] at m1
    obtain ⟨s2, e2, m2⟩ := h.remains m1
    simp only [Option.isSome_none, Bool.false_eq_true, if_false, Option.getD_none] at e2 m2 ⊢
    refine ⟨s2, ?_, ?_⟩
    · rw [e2]
      by_cases hl : l = [] <;> simp [hl]
    · by_cases hl : l = [] <;> simpa [hl] using m2

theorem endOfName_sim (h : Reads strict R) (st : St) {l : List Char} {s : FS Char} (hR : R l s) :
    Sim strict (Mid R) (Res.ok (Parse.endOfName st l)) (endOfName st s) := by
  obtain ⟨s1, e1, m1, -⟩ := eat_sim h hR c!"/>" (by decide)
  unfold endOfName Parse.endOfName
  rw [e1, ok_bind]
  cases he : Stream.eat l c!"/>" with
  | some r =>
    rw [he] at m1
    exact Sim.ok ⟨rfl, m1, rfl⟩
  | none =>
    rw [he] at m1
    exact Sim.ok ⟨rfl, m1, rfl⟩

/-- Nothing is left inside of a tag. -/
theorem attrLoop_nil (fuel : Nat) (st : St) : ∀ x, Parse.attrLoop fuel st [] ≠ .ok x := by
  intro x
  cases fuel with
  | zero => simp [Parse.attrLoop]
  | succ fuel => simp [Parse.attrLoop, Stream.eat, Stream.inspect, Parse.attrib, Stream.skip, Stream.getUntil, bind, Res.bind]

theorem parseTag_sim (h : Reads strict R) (st : St) {l : List Char} {s : FS Char} (hR : R l s) :
    Sim strict (Mid R) (Parse.parseTag st l) (parseTag st s) := by
  unfold Parse.parseTag parseTag
  rcases h.name hR with ⟨s1, e1, m1⟩ | ⟨hs, f, hf, hf1, hf2⟩
  · rw [e1, ok_bind]
    simp only [memUntil] at m1 ⊢
    cases hg : Stream.getUntil [c!">", c!" "] l with
    | none => exact Sim.error
    | some f =>
      simp only [hg, if_true] at m1 ⊢
      split
      · exact Sim.error
      · split
        · obtain ⟨s2, e2, m2, -⟩ := h.skip m1
          rw [e2, ok_bind, h.left m2]
          exact attrLoop_sim h _ _ m2
        · split
          · exact Sim.ok ⟨rfl, m1, rfl⟩
          · exact endOfName_sim h _ m1
  · rw [hf]
    simp only [hf1, if_true]
    split
    · intro x; exact absurd x hs
    · rw [hf2]
      have e : Stream.skip [] = [] := rfl
      rw [e]
      cases hx : Parse.attrLoop (([] : List Char).length + 1) (st.push (toStr f.text)) [] with
      | ok x => exact absurd hx (attrLoop_nil _ _ x)
      | error => intro x; exact absurd x hs
      | ub => intro x; exact absurd x hs
      | loop => intro x; exact absurd x hs

theorem parseNode_sim (h : Reads strict R) (hm : Multi R) (st : St) {l : List Char} {s : FS Char} (hR : R l s) :
    Sim strict (Mid R) (Parse.parseNode st l) (parseNode st s) := by
  unfold Parse.parseNode parseNode
  rw [h.left hR]
  refine Sim.bind (comments_sim h hm true _ st hR) ?_
  rintro ⟨st1, l1⟩ ⟨st1', s1⟩ ⟨rfl, hR1⟩
  obtain ⟨s2, e2, m2⟩ := openAngle_sim h hR1
  simp only
  rw [e2, ok_bind]
  cases ho : Parse.openAngle l1 with
  | none => exact Sim.error
  | some r =>
    rw [ho] at m2
    exact parseTag_sim h st1 m2

theorem closeNode_sim (h : Reads strict R) (st : St) {l : List Char} {s : FS Char} (hR : R l s) :
    Sim strict (On R) (Parse.closeNode st l) (closeNode st s) := by
  obtain ⟨s1, e1, m1⟩ := untilRef_sim (h.single [c!">"] true hR (by simp; decide))
  unfold Parse.closeNode closeNode
  rw [e1, ok_bind]
  cases hg : Stream.getUntilRef [c!">"] l with
  | mk text rest =>
    rw [hg] at m1
    cases text with
    | none => exact Sim.error
    | some text =>
      simp only
      cases st.opened with
      | nil => exact Sim.error
      | cons o os =>
        simp only
        split
        · exact Sim.ok ⟨rfl, m1⟩
        · exact Sim.error

theorem cdata_sim (hm : ∀ l s chunks accept, R l s → Exact R chunks accept l s) (st : St) {l : List Char} {s : FS Char}
    (hR : R l s) : Sim strict (On R) (Parse.cdata st l) (cdata st s) := by
  obtain ⟨s1, e1, m1⟩ := hm _ _ [c!"]]>"] true hR
  unfold Parse.cdata cdata
  rw [e1, ok_bind]
  simp only [memUntil] at m1 ⊢
  cases hg : Stream.getUntil [c!"]]>"] l with
  | none => exact Sim.error
  | some f =>
    simp only [hg, if_true] at m1 ⊢
    exact Sim.ok ⟨rfl, m1⟩

theorem content_sim (h : Reads strict R) (st : St) {l : List Char} {s : FS Char} (hR : R l s) :
    Sim strict (On R) (Parse.content st l) (content st s) := by
  obtain ⟨s1, e1, m1⟩ := h.single [c!"<"] false hR (by simp; decide)
  unfold Parse.content content
  rw [e1, ok_bind]
  simp only [memUntil] at m1 ⊢
  cases hg : Stream.getUntil [c!"<"] l with
  | none => exact Sim.error
  | some f =>
    simp only [hg] at m1 ⊢
    exact Sim.ok ⟨rfl, m1⟩

end

end FileParse
end Axl
