/-
Proofs about a document read from a file: the loop of the parser, the header and the whole document.
-/
import Verif.Proofs.FileParse
import Verif.Proofs.FileEnds
import Verif.Spec.FileParse

namespace Axl
namespace FileParse
open Str Parse FileStream Spec.FileStream

section
variable {strict : Prop} {R : List Char → FS Char → Prop} {far : List Char → Prop}

theorem peekTwo_sim (h : Reads strict R) {l : List Char} {s : FS Char} (hR : R l s) :
    ∃ s', peekTwo s = .ok (Stream.peek l c!"<?" || Stream.peek l c!"<!--", s') ∧ R l s' ∧ s'.index ≤ s.index := by
  obtain ⟨s1, e1, m1, i1⟩ := peek_sim h hR c!"<?" (by decide)
  obtain ⟨s2, e2, m2, i2⟩ := peek_sim h m1 c!"<!--" (by decide)
  unfold peekTwo
  rw [e1, ok_bind]
  cases hp : Stream.peek l c!"<?" with
  | true => exact ⟨s1, rfl, m1, i1⟩
  | false => exact ⟨s2, e2, m2, Nat.le_trans i2 i1⟩

/-- A text begins with white space only if what follows it is `far`. -/
def LeadBut (far : List Char → Prop) (text : List Char) : Prop :=
  ∀ pre w c rest, text = pre ++ '>' :: (w ++ c :: rest) → (∀ x ∈ w, Spec.Xml.White x) → ¬ Spec.Xml.White c → c ≠ '<' →
    w = [] ∨ far (c :: rest)

/-- What the parser is at when a pass begins. -/
def Ready (far : List Char → Prop) (st : St) (l : List Char) : Prop :=
  st.preserves = true ∨ Stream.skip l = l ∨ Stream.skip l = [] ∨ (∃ r, Stream.skip l = '<' :: r) ∨
    ∃ c r, Stream.skip l = c :: r ∧ c ≠ '<' ∧ far (c :: r)

/-- A text that begins with white space is read with it. -/
def Back (far : List Char → Prop) (strict : Prop) (R : List Char → FS Char → Prop) : Prop :=
  ∀ (st : St) l s c r, R l s → st.preserves = false → Stream.skip l = c :: r → c ≠ '<' → far (c :: r) →
    Sim strict (Mid R) (Parse.pass st l) (pass st s)

/-- White space up to the end of the text, in a node. -/
def BlankEnd (strict : Prop) (R : List Char → FS Char → Prop) : Prop :=
  strict → ∀ (st : St) l s, R l s → l ≠ [] → Stream.skip l = [] → st.preserves = false → pass st s = .error

theorem content_blank {l : List Char} (hl : Stream.skip l = []) (st : St) : Parse.content st l = .error := by
  have hlt : '<' ∉ l := by
    intro hm
    obtain ⟨b, hb, e, -⟩ := Stream.skip_spec l
    rw [hl, List.append_nil] at e
    rw [e] at hm
    have := hb _ hm
    simp [Spec.Xml.White] at this
  unfold Parse.content
  cases hg : Stream.getUntil [c!"<"] l with
  | none => rfl
  | some f =>
    obtain ⟨hs, -⟩ := Stream.getUntil_single (mark := c!"<") (by simp) (by simp) hg
    exact absurd (by rw [hs]; simp) hlt

theorem restore_le {i : Nat} {s : FS Char} (h : s.index ≤ i) : restore i s = s := by
  unfold restore
  rw [if_neg (by omega)]

/-- A pass from the place after the white space. -/
theorem pass_from (h : Reads strict R) (hm : Multi R) (st : St) {l l1 : List Char} {s0 s : FS Char} (hR : R l1 s)
    (hc : (∀ r, Stream.eat l1 c!"<" ≠ some r) → ∀ s', s'.index ≤ s.index → R l1 s' → Sim strict (Mid R)
      ((do let (st, r) ← Parse.content st l; .ok (st, r, true)) : Res (St × List Char × Bool))
      ((do let (st, s) ← content st (restore s0.index s'); .ok (st, s, true)) : Res (St × FS Char × Bool))) :
    Sim strict (Mid R)
      (if Stream.peek l1 c!"<?" || Stream.peek l1 c!"<!--" then do
        let (st, s) ← Parse.comments true (l1.length + 1) st l1
        .ok (st, s, true)
      else
        match Stream.eat l1 c!"</" with
        | some r => do
          let (st, r) ← Parse.closeNode st r
          .ok (st, r, !st.opened.isEmpty)
        | none =>
          match Stream.eat l1 c!"<![CDATA[" with
          | some r => do
            let (st, r) ← Parse.cdata st r
            .ok (st, r, true)
          | none =>
            match Stream.eat l1 c!"<" with
            | some r => do
              let (st, r, _) ← Parse.parseNode st r
              .ok (st, r, true)
            | none => do
              let (st, r) ← Parse.content st l
              .ok (st, r, true))
      (do
        let (found, s) ← peekTwo s
        if found then do
          let (st, s) ← comments true (left s + 1) st s
          .ok (st, s, true)
        else do
          let (found, s) ← eat s c!"</"
          if found then do
            let (st, s) ← closeNode st s
            .ok (st, s, !st.opened.isEmpty)
          else do
            let (found, s) ← eat s c!"<![CDATA["
            if found then do
              let (st, s) ← cdata st s
              .ok (st, s, true)
            else do
              let (found, s) ← eat s c!"<"
              if found then do
                let (st, s, _) ← parseNode st s
                .ok (st, s, true)
              else do
                let (st, s) ← content st (restore s0.index s)
                .ok (st, s, true)) := by
  obtain ⟨s1, e1, m1, i1⟩ := peekTwo_sim h hR
  rw [e1, ok_bind]
  simp only
  split
  · rw [h.left m1]
    refine Sim.bind (comments_sim h hm true _ st m1) ?_
    rintro ⟨st1, l2⟩ ⟨st1', s2⟩ ⟨rfl, hR2⟩
    exact Sim.ok ⟨rfl, hR2, rfl⟩
  · obtain ⟨s2, e2, m2, i2⟩ := eat_sim h m1 c!"</" (by decide)
    rw [e2, ok_bind]
    cases he2 : Stream.eat l1 c!"</" with
    | some r =>
      rw [he2] at m2
      simp only [Option.isSome_some, if_true]
      refine Sim.bind (closeNode_sim h st m2) ?_
      rintro ⟨st1, l2⟩ ⟨st1', s3⟩ ⟨rfl, hR2⟩
      exact Sim.ok ⟨rfl, hR2, rfl⟩
    | none =>
      rw [he2] at m2
      simp only [Option.isSome_none, Bool.false_eq_true, if_false, Option.getD_none] at m2 ⊢
      obtain ⟨s3, e3, m3, i3⟩ := eat_sim h m2 c!"<![CDATA[" (by decide)
      rw [e3, ok_bind]
      cases he3 : Stream.eat l1 c!"<![CDATA[" with
      | some r =>
        rw [he3] at m3
        simp only [Option.isSome_some, if_true, Option.getD_some] at m3 ⊢
        rcases hm with hm | hm
        · refine Sim.bind (cdata_sim hm st m3) ?_
          rintro ⟨st1, l2⟩ ⟨st1', s4⟩ ⟨rfl, hR2⟩
          exact Sim.ok ⟨rfl, hR2, rfl⟩
        · rw [(hm _ _ hR).2.2] at he3
          simp at he3
      | none =>
        rw [he3] at m3
        simp only [Option.isSome_none, Bool.false_eq_true, if_false, Option.getD_none] at m3 ⊢
        obtain ⟨s4, e4, m4, i4⟩ := eat_sim h m3 c!"<" (by decide)
        rw [e4, ok_bind]
        cases he4 : Stream.eat l1 c!"<" with
        | some r =>
          rw [he4] at m4
          simp only [Option.isSome_some, if_true, Option.getD_some] at m4 ⊢
          refine Sim.bind (parseNode_sim h hm st m4) ?_
          rintro ⟨st1, l2, b⟩ ⟨st1', s5, b'⟩ ⟨rfl, hR2, -⟩
          exact Sim.ok ⟨rfl, hR2, rfl⟩
        | none =>
          rw [he4] at m4
          simp only [Option.isSome_none, Bool.false_eq_true, if_false, Option.getD_none] at m4 ⊢
          refine hc (fun r hr => by rw [he4] at hr; simp at hr) s4 ?_ m4
          exact Nat.le_trans (i4 he4) (Nat.le_trans (i3 he3) (Nat.le_trans (i2 he2) i1))

theorem pass_sim (h : Reads strict R) (hm : Multi R) (hb : BlankEnd strict R) (hk : Back far strict R) (st : St) {l : List Char} {s : FS Char}
    (hl : l ≠ []) (hready : Ready far st l) (hR : R l s) : Sim strict (Mid R) (Parse.pass st l) (pass st s) := by
  have cont : ∀ s', s'.index ≤ s.index → R l s' → Sim strict (Mid R)
      ((do let (st, r) ← Parse.content st l; .ok (st, r, true)) : Res (St × List Char × Bool))
      ((do let (st, s) ← content st (restore s.index s'); .ok (st, s, true)) : Res (St × FS Char × Bool)) := by
    intro s' hi hR'
    rw [restore_le hi]
    refine Sim.bind (content_sim h st hR') ?_
    rintro ⟨st1, l2⟩ ⟨st1', s5⟩ ⟨rfl, hR2⟩
    exact Sim.ok ⟨rfl, hR2, rfl⟩
  cases hp : st.preserves with
  | true =>
    unfold Parse.pass pass skipUnless
    simp only [hp, if_true]
    rw [ok_bind]
    exact pass_from h hm st hR fun _ s' hi hR' => cont s' hi hR'
  | false =>
    by_cases hnil : Stream.skip l = []
    · -- only white space is left
      have hx : Parse.pass st l = .error := by
        unfold Parse.pass
        simp only [hp, Bool.false_eq_true, if_false, hnil, content_blank hnil st]
        rfl
      rw [hx]
      exact fun hs => hb hs st l s hR hl hnil hp
    · by_cases hfar : ∃ c r, Stream.skip l = c :: r ∧ c ≠ '<' ∧ far (c :: r)
      · obtain ⟨c, r, h1, h2, h3⟩ := hfar
        exact hk st l s c r hR hp h1 h2 h3
      obtain ⟨s1, e1, m1, i1⟩ := h.skip hR
      unfold Parse.pass pass skipUnless
      simp only [hp, Bool.false_eq_true, if_false]
      rw [e1, ok_bind]
      refine pass_from h hm st m1 fun hno s' hi hR' => ?_
      rcases hready with hr | hr | hr | ⟨r, hr⟩ | hr
      · rw [hp] at hr; simp at hr
      · rw [hr] at hR'
        exact cont s' (Nat.le_trans hi (i1 hr)) hR'
      · exact absurd hr hnil
      · exact absurd (Stream.eat_some.2 (by rw [hr]; rfl)) (hno r)
      · exact absurd hr hfar

/-- The place of a pass in the whole text. -/
def Place (text l : List Char) : Prop := Ends text l ∨ (l <:+ text ∧ Stream.skip l = l)

theorem place_ready {text l : List Char} (ht : LeadBut far text) (h : Place text l) (st : St) : Ready far st l := by
  rcases h with ⟨pre, hpre⟩ | ⟨-, hs⟩
  · obtain ⟨b, hb, e, hnw⟩ := Stream.skip_spec l
    cases hs : Stream.skip l with
    | nil => exact .inr (.inr (.inl hs))
    | cons c r =>
      rw [hs] at e hnw
      by_cases hc : c = '<'
      · subst hc
        exact .inr (.inr (.inr (.inl ⟨r, hs⟩)))
      · rcases ht pre b c r (by rw [hpre, ← e]) hb (hnw c r rfl) hc with this | this
        · subst this
          exact .inr (.inl (by rw [hs]; exact e.symm))
        · exact .inr (.inr (.inr (.inr ⟨c, r, hs, hc, this⟩)))
  · exact .inr (.inl hs)

theorem place_next {text l r : List Char} (h : Place text l) (h' : Ends l r ∨ (r <:+ l ∧ Stream.skip r = r)) : Place text r := by
  have hsuf : l <:+ text := by
    rcases h with h | h
    · exact h.suffix
    · exact h.1
  rcases h' with h' | ⟨h1, h2⟩
  · exact .inl (h'.of hsuf)
  · exact .inr ⟨h1.trans hsuf, h2⟩

theorem mainLoop_sim (h : Reads strict R) (hm : Multi R) (hb : BlankEnd strict R) (hk : Back far strict R) {text : List Char}
    (ht : LeadBut far text) : ∀ (fuel : Nat) (st : St) {l : List Char} {s : FS Char}, Place text l → R l s →
      Sim strict Eq (Parse.mainLoop fuel st l) (mainLoop fuel st s) := by
  intro fuel
  induction fuel with
  | zero => intro st l s _ _; exact Sim.loop
  | succ fuel ih =>
    intro st l s hp hR
    obtain ⟨s1, e1, m1⟩ := h.remains hR
    unfold mainLoop
    rw [e1, ok_bind]
    cases l with
    | nil =>
      simp only [Parse.mainLoop]
      exact Sim.ok rfl
    | cons c l =>
      simp only [Parse.mainLoop]
      rw [if_pos (by simp)]
      have hsim := pass_sim h hm hb hk st (by simp) (place_ready ht hp st) m1
      cases hx : Parse.pass st (c :: l) with
      | ok x =>
        obtain ⟨st1, l1, b⟩ := x
        have hpl := place_next hp (pass_ends hx)
        rw [hx] at hsim
        obtain ⟨⟨st1', s2, b'⟩, e2, rfl, m2, rfl⟩ := hsim
        rw [e2]
        simp only [ok_bind]
        split
        · exact ih st1 hpl m2
        · exact Sim.ok rfl
      | error => rw [hx] at hsim; intro hs; rw [hsim hs]; rfl
      | ub => rw [hx] at hsim; intro hs; rw [hsim hs]; rfl
      | loop => rw [hx] at hsim; intro hs; rw [hsim hs]; rfl

theorem body_sim (h : Reads strict R) (hm : Multi R) (hb : BlankEnd strict R) (hk : Back far strict R) {text : List Char}
    (ht : LeadBut far text) (st : St) {l : List Char} {s : FS Char} (hl : l <:+ text) (hR : R l s) :
    Sim strict Eq (Parse.body st l) (body st s) := by
  unfold Parse.body body
  have hsim := parseNode_sim h hm st hR
  cases hx : Parse.parseNode st l with
  | ok x =>
    obtain ⟨st1, l1, b⟩ := x
    rw [hx] at hsim
    obtain ⟨⟨st1', s2, b'⟩, e2, rfl, m2, rfl⟩ := hsim
    rw [e2]
    simp only [ok_bind]
    split
    · exact Sim.ok rfl
    · rw [h.left m2]
      exact mainLoop_sim h hm hb hk ht _ st1 (.inl ((parseNode_ends hx).of hl)) m2
  | error => rw [hx] at hsim; intro hs; rw [hsim hs]; rfl
  | ub => rw [hx] at hsim; intro hs; rw [hsim hs]; rfl
  | loop => rw [hx] at hsim; intro hs; rw [hsim hs]; rfl

/-! ### The header -/

theorem headerValue_sim (h : Reads strict R) {l : List Char} {s : FS Char} (hR : R l s) :
    Sim strict (On R) (match Parse.headerValue l with | none => .error | some x => .ok x) (headerValue s) := by
  obtain ⟨s1, e1, m1⟩ := h.single [c!"'", c!"\""] true hR (by simp; decide)
  unfold Parse.headerValue headerValue
  rw [e1, ok_bind]
  simp only [memUntil] at m1 ⊢
  cases hg : Stream.getUntil [c!"'", c!"\""] l with
  | none => exact Sim.error
  | some f =>
    simp only [hg, if_true] at m1 ⊢
    exact Sim.ok ⟨rfl, m1⟩

/-- The answer of two looks: whether there is one of the words, and what is left. -/
theorem lookTwo_sim (h : Reads strict R) {l : List Char} {s : FS Char} (hR : R l s) (a b : List Char) (ha : Word a)
    (hb : Word b) (hlen : a.length = b.length) : ∃ k s', lookTwo s a b = .ok (k, s') ∧
      (match Stream.inspectTwo l a b with
        | .yes rest => (∃ r, k = .yes r) ∧ R rest s'
        | _ => (k = .no ∨ k = .short) ∧ R l s') ∧
      (strict → (k = .short ↔ Stream.inspectTwo l a b = .short)) := by
  obtain ⟨k1, s1, e1, m1, -, x1⟩ := h.look a true hR ha
  unfold lookTwo look
  rw [e1, ok_bind]
  cases hi : Stream.inspect l a with
  | yes rest =>
    have he : Stream.eat l a = some rest := by simp [Stream.eat, hi]
    rw [he] at m1
    obtain ⟨⟨r, rfl⟩, m1⟩ := m1
    refine ⟨_, s1, rfl, ?_, ?_⟩
    · simp only [Stream.inspectTwo, hi]
      exact ⟨⟨r, rfl⟩, m1⟩
    · simp [Stream.inspectTwo, hi]
  | short =>
    have he : Stream.eat l a = none := by simp [Stream.eat, hi]
    have hib : Stream.inspect l b = .short := by
      have : l.length < a.length := by
        unfold Stream.inspect at hi
        split at hi
        · assumption
        · split at hi <;> simp at hi
      unfold Stream.inspect
      rw [if_pos (by omega)]
    have heb : Stream.eat l b = none := by simp [Stream.eat, hib]
    rw [he] at m1
    obtain ⟨hk, m1⟩ := m1
    obtain ⟨k2, s2, e2, m2, -, x2⟩ := h.look b true m1 hb
    rw [heb] at m2
    obtain ⟨hk2, m2⟩ := m2
    have hmatch : Stream.inspectTwo l a b = .short := by simp [Stream.inspectTwo, hi]
    rw [hmatch]
    rcases hk with rfl | rfl
    · refine ⟨k2, s2, e2, ⟨hk2, m2⟩, fun hs => ?_⟩
      have := (x1 hs).2 hi
      simp at this
    · simp only
      rw [e2, ok_bind]
      rcases hk2 with rfl | rfl
      · exact ⟨_, s2, rfl, ⟨.inr rfl, m2⟩, fun _ => by simp⟩
      · exact ⟨_, s2, rfl, ⟨.inr rfl, m2⟩, fun _ => by simp⟩
  | no =>
    have he : Stream.eat l a = none := by simp [Stream.eat, hi]
    rw [he] at m1
    obtain ⟨hk, m1⟩ := m1
    obtain ⟨k2, s2, e2, m2, -, x2⟩ := h.look b true m1 hb
    have hmatch : Stream.inspectTwo l a b = Stream.inspect l b := by simp [Stream.inspectTwo, hi]
    rw [hmatch]
    have hres : (match Stream.inspect l b with
        | .yes rest => (∃ r, k2 = .yes r) ∧ R rest s2
        | _ => (k2 = .no ∨ k2 = .short) ∧ R l s2) := by
      cases hib : Stream.inspect l b with
      | yes rest =>
        have heb : Stream.eat l b = some rest := by simp [Stream.eat, hib]
        rw [heb] at m2
        exact m2
      | short =>
        have heb : Stream.eat l b = none := by simp [Stream.eat, hib]
        rw [heb] at m2
        exact m2
      | no =>
        have heb : Stream.eat l b = none := by simp [Stream.eat, hib]
        rw [heb] at m2
        exact m2
    rcases hk with rfl | rfl
    · exact ⟨k2, s2, e2, hres, x2⟩
    · simp only
      rw [e2, ok_bind]
      cases k2 with
      | yes r => exact ⟨_, s2, rfl, hres, x2⟩
      | short => exact ⟨_, s2, rfl, hres, x2⟩
      | no =>
        refine ⟨_, s2, rfl, ?_, fun hs => ?_⟩
        · cases hib : Stream.inspect l b with
          | yes rest => rw [hib] at hres; simp at hres
          | short => rw [hib] at hres; exact ⟨.inr rfl, hres.2⟩
          | no => rw [hib] at hres; exact ⟨.inr rfl, hres.2⟩
        · have := (x1 hs).1 rfl
          rw [hi] at this
          simp at this

theorem encoding_sim (h : Reads strict R) {l : List Char} {s : FS Char} (hR : R l s) :
    Sim strict (On R) (Parse.encoding l) (encoding s) := by
  obtain ⟨k, s1, e1, m1, -⟩ := lookTwo_sim h hR c!"encoding=\"" c!"encoding='" (by decide) (by decide) rfl
  unfold Parse.encoding encoding
  rw [e1, ok_bind]
  cases hi : Stream.inspectTwo l c!"encoding=\"" c!"encoding='" with
  | yes rest =>
    rw [hi] at m1
    obtain ⟨⟨r, rfl⟩, m1⟩ := m1
    simp only
    have hv := headerValue_sim h m1
    cases hh : Parse.headerValue rest with
    | none =>
      rw [hh] at hv
      intro hs
      rw [hv hs]
      rfl
    | some x =>
      obtain ⟨v, r2⟩ := x
      rw [hh] at hv
      obtain ⟨⟨v', s2⟩, e2, rfl, m2⟩ := hv
      rw [e2, ok_bind]
      exact Sim.ok ⟨rfl, m2⟩
  | short =>
    rw [hi] at m1
    obtain ⟨rfl | rfl, m1⟩ := m1 <;> exact Sim.ok ⟨rfl, m1⟩
  | no =>
    rw [hi] at m1
    obtain ⟨rfl | rfl, m1⟩ := m1 <;> exact Sim.ok ⟨rfl, m1⟩

theorem standalone_sim (h : Reads strict R) {l : List Char} {s : FS Char} (hR : R l s) :
    Sim strict (On R) (Parse.standalone l) (standalone s) := by
  obtain ⟨k, s1, e1, m1, -⟩ := lookTwo_sim h hR c!"standalone=\"" c!"standalone='" (by decide) (by decide) rfl
  unfold Parse.standalone standalone
  rw [e1, ok_bind]
  cases hi : Stream.inspectTwo l c!"standalone=\"" c!"standalone='" with
  | yes rest =>
    rw [hi] at m1
    obtain ⟨⟨r, rfl⟩, m1⟩ := m1
    simp only
    have hv := headerValue_sim h m1
    cases hh : Parse.headerValue rest with
    | none =>
      rw [hh] at hv
      intro hs
      rw [hv hs]
      rfl
    | some x =>
      obtain ⟨v, r2⟩ := x
      rw [hh] at hv
      obtain ⟨⟨v', s2⟩, e2, rfl, m2⟩ := hv
      rw [e2, ok_bind]
      refine Sim.same fun b => ?_
      exact Sim.ok ⟨rfl, m2⟩
  | short =>
    rw [hi] at m1
    obtain ⟨rfl | rfl, m1⟩ := m1 <;> exact Sim.ok ⟨rfl, m1⟩
  | no =>
    rw [hi] at m1
    obtain ⟨rfl | rfl, m1⟩ := m1 <;> exact Sim.ok ⟨rfl, m1⟩

/-- The end of the header over memory. -/
def memDeclEnd (s : List Char) : Res (Option (List Char) × Bool × List Char) := do
  let (enc, s) ← Parse.encoding (Stream.skip s)
  let (alone, s) ← Parse.standalone (Stream.skip s)
  match Stream.eat (Stream.skip s) c!"?>" with
  | none => .error
  | some s => .ok (enc, alone, s)

theorem declEnd_sim (h : Reads strict R) {l : List Char} {s : FS Char} (hR : R l s) :
    Sim strict (On2 R) (memDeclEnd l) (declEnd s) := by
  unfold memDeclEnd declEnd
  obtain ⟨s1, e1, m1, -⟩ := h.skip hR
  rw [e1, ok_bind]
  refine Sim.bind (encoding_sim h m1) ?_
  rintro ⟨enc, l2⟩ ⟨enc', s2⟩ ⟨rfl, m2⟩
  obtain ⟨s3, e3, m3, -⟩ := h.skip m2
  simp only
  rw [e3, ok_bind]
  refine Sim.bind (standalone_sim h m3) ?_
  rintro ⟨alone, l4⟩ ⟨alone', s4⟩ ⟨rfl, m4⟩
  obtain ⟨s5, e5, m5, -⟩ := h.skip m4
  obtain ⟨s6, e6, m6, -⟩ := eat_sim h m5 c!"?>" (by decide)
  simp only
  rw [e5, ok_bind, e6, ok_bind]
  cases he : Stream.eat (Stream.skip l4) c!"?>" with
  | none => exact Sim.error
  | some r =>
    rw [he] at m6
    exact Sim.ok ⟨rfl, rfl, m6⟩

theorem doctype_sim (h : Reads strict R) (hm : Multi R) (st : St) {l : List Char} {s : FS Char} (hR : R l s) :
    Sim strict (On R) (Parse.doctype st l) (doctype st s) := by
  obtain ⟨s1, e1, m1, -⟩ := eat_sim h hR c!"<!DOCTYPE" (by decide)
  unfold Parse.doctype doctype
  rw [e1, ok_bind]
  cases he : Stream.eat l c!"<!DOCTYPE" with
  | none =>
    rw [he] at m1
    exact Sim.ok ⟨rfl, m1⟩
  | some r =>
    rw [he] at m1
    obtain ⟨s2, e2, m2⟩ := untilRef_sim (h.single [c!">"] true m1 (by simp; decide))
    simp only [Option.isSome_some, if_true, Option.getD_some] at e2 m2 ⊢
    rw [e2, ok_bind]
    simp only
    rw [h.left m2]
    exact comments_sim h hm false _ st m2

/-- A look tested for not being 0. -/
theorem notZero_one (h : Reads strict R) {l : List Char} {s : FS Char} (hR : R l s) (chunk : List Char) (hw : Word chunk)
    (hd : strict ∨ ∃ rest, Stream.inspect l chunk = .yes rest) : ∃ k s', look s chunk = .ok (k, s') ∧
      notZero k = (Parse.notZero (Stream.inspect l chunk) l).isSome ∧
      R ((Parse.notZero (Stream.inspect l chunk) l).getD l) s' := by
  obtain ⟨k, s', e, m, -, x⟩ := h.look chunk true hR hw
  refine ⟨k, s', e, ?_⟩
  cases hi : Stream.inspect l chunk with
  | yes rest =>
    have he : Stream.eat l chunk = some rest := by simp [Stream.eat, hi]
    rw [he] at m
    obtain ⟨⟨r, rfl⟩, m⟩ := m
    exact ⟨rfl, m⟩
  | short =>
    have he : Stream.eat l chunk = none := by simp [Stream.eat, hi]
    rw [he] at m
    rcases hd with hd | ⟨rest, hd⟩
    · have := (x hd).2 hi
      subst this
      exact ⟨rfl, m.2⟩
    · rw [hi] at hd; simp at hd
  | no =>
    have he : Stream.eat l chunk = none := by simp [Stream.eat, hi]
    rw [he] at m
    rcases hd with hd | ⟨rest, hd⟩
    · obtain ⟨rfl | rfl, m⟩ := m
      · exact ⟨rfl, m⟩
      · have := (x hd).1 rfl
        rw [hi] at this
        simp at this
    · rw [hi] at hd; simp at hd

theorem notZero_two (h : Reads strict R) {l : List Char} {s : FS Char} (hR : R l s) (a b : List Char) (ha : Word a)
    (hb : Word b) (hlen : a.length = b.length) (hd : strict ∨ ∃ rest, Stream.inspectTwo l a b = .yes rest) :
    ∃ k s', lookTwo s a b = .ok (k, s') ∧
      notZero k = (Parse.notZero (Stream.inspectTwo l a b) l).isSome ∧
      R ((Parse.notZero (Stream.inspectTwo l a b) l).getD l) s' := by
  obtain ⟨k, s', e, m, x⟩ := lookTwo_sim h hR a b ha hb hlen
  refine ⟨k, s', e, ?_⟩
  cases hi : Stream.inspectTwo l a b with
  | yes rest =>
    rw [hi] at m
    obtain ⟨⟨r, rfl⟩, m⟩ := m
    exact ⟨rfl, m⟩
  | short =>
    rw [hi] at m
    rcases hd with hd | ⟨rest, hd⟩
    · have := (x hd).2 hi
      subst this
      exact ⟨rfl, m.2⟩
    · rw [hi] at hd; simp at hd
  | no =>
    rw [hi] at m
    rcases hd with hd | ⟨rest, hd⟩
    · obtain ⟨rfl | rfl, m⟩ := m
      · exact ⟨rfl, m⟩
      · have := (x hd).1 rfl
        rw [hi] at this
        simp at this
    · rw [hi] at hd; simp at hd

/-- A declaration, behind its "<?", with its version. -/
def Decl (l rest : List Char) : Prop := ∃ w w' q, Spec.Xml.Blank w ∧ Spec.Xml.Blank w' ∧
  (q = c!"\"1.0\"" ∨ q = c!"'1.0'") ∧ l = c!"xml" ++ (w ++ (c!"version=" ++ (w' ++ (q ++ rest))))

theorem inspect_yes (chunk r : List Char) : Stream.inspect (chunk ++ r) chunk = .yes r := by
  have := Stream.eat_append chunk r
  unfold Stream.eat at this
  split at this
  · rename_i x hx
    simp only [Option.some.injEq] at this
    rw [hx, this]
  · simp at this

theorem decl_mem {l rest : List Char} (h : Decl l rest) : ∃ l1, Stream.eat l c!"xml" = some l1 ∧
    ∃ l2, Stream.inspect (Stream.skip l1) c!"version=" = .yes l2 ∧
      Stream.inspectTwo (Stream.skip l2) c!"\"1.0\"" c!"'1.0'" = .yes rest := by
  obtain ⟨w, w', q, hw, hw', hq, rfl⟩ := h
  refine ⟨_, Stream.eat_append _ _, w' ++ (q ++ rest), ?_, ?_⟩
  · rw [Stream.skip_blank hw]
    have : Stream.skip (c!"version=" ++ (w' ++ (q ++ rest))) = c!"version=" ++ (w' ++ (q ++ rest)) :=
      Stream.skip_cons_not (by simp [Spec.Xml.White])
    rw [this]
    exact inspect_yes _ _
  · rw [Stream.skip_blank hw']
    rcases hq with rfl | rfl
    · have : Stream.skip (c!"\"1.0\"" ++ rest) = c!"\"1.0\"" ++ rest :=
        Stream.skip_cons_not (by simp [Spec.Xml.White])
      rw [this]
      simp only [Stream.inspectTwo, inspect_yes]
    · have : Stream.skip (c!"'1.0'" ++ rest) = c!"'1.0'" ++ rest :=
        Stream.skip_cons_not (by simp [Spec.Xml.White])
      rw [this]
      have hno : Stream.inspect (c!"'1.0'" ++ rest) c!"\"1.0\"" = .no := by
        simp [Stream.inspect]
      simp only [Stream.inspectTwo, hno, inspect_yes]

theorem xmlDecl_sim (h : Reads strict R) {l : List Char} {s : FS Char} (hR : R l s) (hd : strict ∨ ∃ rest, Decl l rest) :
    Sim strict (On2 R) (Parse.xmlDecl l) (xmlDecl s) := by
  obtain ⟨s1, e1, m1, -⟩ := eat_sim h hR c!"xml" (by decide)
  unfold Parse.xmlDecl xmlDecl
  rw [e1, ok_bind]
  cases he : Stream.eat l c!"xml" with
  | none => exact Sim.error
  | some l1 =>
    rw [he] at m1
    obtain ⟨s2, e2, m2, -⟩ := h.skip m1
    have hd1 : strict ∨ ∃ rest, Stream.inspect (Stream.skip l1) c!"version=" = .yes rest := by
      rcases hd with hd | ⟨rest, hd⟩
      · exact .inl hd
      · obtain ⟨l1', a, l2, b, -⟩ := decl_mem hd
        rw [he] at a
        simp only [Option.some.injEq] at a
        exact .inr ⟨l2, a ▸ b⟩
    obtain ⟨k3, s3, e3, z3, m3⟩ := notZero_one h m2 c!"version=" (by decide) hd1
    simp only [Option.isSome_some, if_true, Option.getD_some] at e2 e3 z3 m3 ⊢
    rw [e2, ok_bind, e3, ok_bind]
    simp only
    rw [z3]
    cases hz : Parse.notZero (Stream.inspect (Stream.skip l1) c!"version=") (Stream.skip l1) with
    | none => exact Sim.error
    | some l2 =>
      rw [hz] at m3
      obtain ⟨s4, e4, m4, -⟩ := h.skip m3
      have hd2 : strict ∨ ∃ rest, Stream.inspectTwo (Stream.skip l2) c!"\"1.0\"" c!"'1.0'" = .yes rest := by
        rcases hd with hd | ⟨rest, hd⟩
        · exact .inl hd
        · obtain ⟨l1', a, l2', b, c⟩ := decl_mem hd
          rw [he] at a
          simp only [Option.some.injEq] at a
          subst a
          rw [b] at hz
          simp only [Parse.notZero, Option.some.injEq] at hz
          subst hz
          exact .inr ⟨rest, c⟩
      obtain ⟨k5, s5, e5, z5, m5⟩ := notZero_two h m4 c!"\"1.0\"" c!"'1.0'" (by decide) (by decide) rfl hd2
      simp only [Option.isSome_some, if_true, Option.getD_some] at e4 e5 z5 m5 ⊢
      rw [e4, ok_bind, e5, ok_bind]
      simp only
      rw [z5]
      cases hz2 : Parse.notZero (Stream.inspectTwo (Stream.skip l2) c!"\"1.0\"" c!"'1.0'") (Stream.skip l2) with
      | none => exact Sim.error
      | some l3 =>
        rw [hz2] at m5
        exact declEnd_sim h m5

theorem encoding_suf {l r : List Char} {e : Option (List Char)} (h : Parse.encoding l = .ok (e, r)) : r <:+ l := by
  unfold Parse.encoding Stream.inspectTwo at h
  have hv : ∀ {x v y : List Char}, Parse.headerValue x = some (v, y) → y <:+ x := by
    intro x v y hx
    unfold Parse.headerValue at hx
    split at hx
    · simp at hx
    · rename_i f hf
      simp only [Option.some.injEq, Prod.mk.injEq] at hx
      exact hx.2 ▸ (found_suf hf).1
  have hy : ∀ {x c y : List Char}, Stream.inspect x c = .yes y → y <:+ x := by
    intro x c y hx
    exact eat_suf (chunk := c) (by simp [Stream.eat, hx])
  split at h
  · rename_i x hx
    have hxl : x <:+ l := by
      split at hx
      · rename_i y hy'
        cases hx
        exact hy hy'
      · cases hx
      · exact hy hx
    split at h
    · simp at h
    · rename_i v y hvy
      simp only [Res.ok.injEq, Prod.mk.injEq] at h
      rw [← h.2]
      exact (hv hvy).trans hxl
  · simp only [Res.ok.injEq, Prod.mk.injEq] at h
    rw [← h.2]
    exact List.suffix_refl _

theorem standalone_suf {l r : List Char} {b : Bool} (h : Parse.standalone l = .ok (b, r)) : r <:+ l := by
  unfold Parse.standalone Stream.inspectTwo at h
  have hv : ∀ {x v y : List Char}, Parse.headerValue x = some (v, y) → y <:+ x := by
    intro x v y hx
    unfold Parse.headerValue at hx
    split at hx
    · simp at hx
    · rename_i f hf
      simp only [Option.some.injEq, Prod.mk.injEq] at hx
      exact hx.2 ▸ (found_suf hf).1
  have hy : ∀ {x c y : List Char}, Stream.inspect x c = .yes y → y <:+ x := by
    intro x c y hx
    exact eat_suf (chunk := c) (by simp [Stream.eat, hx])
  split at h
  · rename_i x hx
    have hxl : x <:+ l := by
      split at hx
      · rename_i y hy'
        cases hx
        exact hy hy'
      · cases hx
      · exact hy hx
    split at h
    · simp at h
    · rename_i v y hvy
      obtain ⟨b', -, h⟩ := bind_ok h
      simp only [Res.ok.injEq, Prod.mk.injEq] at h
      rw [← h.2]
      exact (hv hvy).trans hxl
  · simp only [Res.ok.injEq, Prod.mk.injEq] at h
    rw [← h.2]
    exact List.suffix_refl _

theorem memDeclEnd_suf {l r : List Char} {e : Option (List Char)} {b : Bool} (h : memDeclEnd l = .ok (e, b, r)) : r <:+ l := by
  unfold memDeclEnd at h
  obtain ⟨⟨e1, l1⟩, h1, h⟩ := bind_ok h
  obtain ⟨⟨b1, l2⟩, h2, h⟩ := bind_ok h
  simp only at h2 h
  split at h
  · simp at h
  · rename_i l3 he
    simp only [Res.ok.injEq, Prod.mk.injEq] at h
    rw [← h.2.2]
    exact (eat_suf he).trans ((skip_suf _).trans ((standalone_suf h2).trans ((skip_suf _).trans
      ((encoding_suf h1).trans (skip_suf _)))))

theorem xmlDecl_eq {l rest : List Char} (h : Decl l rest) : Parse.xmlDecl l = memDeclEnd rest := by
  obtain ⟨l1, a, l2, b, c⟩ := decl_mem h
  unfold Parse.xmlDecl
  simp only [a, b, c, Parse.notZero]
  rfl

theorem doctype_suf {st st' : St} {l r : List Char} (h : Parse.doctype st l = .ok (st', r)) : r <:+ l := by
  unfold Parse.doctype at h
  split at h
  · simp only [Res.ok.injEq, Prod.mk.injEq] at h
    rw [← h.2]
    exact List.suffix_refl _
  · rename_i s1 he
    exact (comments_suf _ h).1.trans ((ref_suf _ s1).trans (eat_suf he))

theorem xmlDecl_suf {l r : List Char} {e : Option (List Char)} {b : Bool} (h : Parse.xmlDecl l = .ok (e, b, r)) : r <:+ l := by
  have hz : ∀ {x y z : List Char}, Parse.notZero (Stream.inspect x y) x = some z → z <:+ x := by
    intro x y z hx
    cases hi : Stream.inspect x y with
    | yes r =>
      rw [hi] at hx
      simp only [Parse.notZero, Option.some.injEq] at hx
      exact hx ▸ eat_suf (chunk := y) (by simp [Stream.eat, hi])
    | short =>
      rw [hi] at hx
      simp only [Parse.notZero, Option.some.injEq] at hx
      exact hx ▸ List.suffix_refl _
    | no => rw [hi] at hx; simp [Parse.notZero] at hx
  have hz2 : ∀ {x y y' z : List Char}, Parse.notZero (Stream.inspectTwo x y y') x = some z → z <:+ x := by
    intro x y y' z hx
    unfold Stream.inspectTwo at hx
    cases hi : Stream.inspect x y with
    | yes r =>
      rw [hi] at hx
      exact hz (y := y) (by rw [hi]; exact hx)
    | short =>
      rw [hi] at hx
      exact hz (y := y) (by rw [hi]; exact hx)
    | no => rw [hi] at hx; exact hz hx
  unfold Parse.xmlDecl at h
  split at h
  · simp at h
  · rename_i l1 he
    split at h
    · simp at h
    · rename_i l2 h2
      split at h
      · simp at h
      · rename_i l3 h3
        exact (memDeclEnd_suf (l := l3) h).trans ((hz2 h3).trans ((skip_suf _).trans ((hz h2).trans
          ((skip_suf _).trans (eat_suf he)))))

/-! ### The document -/

variable {R0 : List Char → FS Char → Prop}

/-- The two parsers give the same, from what each one has after the mark. -/
theorem document_sim (h0 : Reads strict R0) (h : Reads strict R) (hm : Multi R) (hb : BlankEnd strict R) (hk : Back far strict R)
    {text l rest : List Char} {s : FS Char}
    (hbom : Parse.skipBom text = l) (hR : R0 l (skipBom s))
    (hlook : ∃ k s', look (skipBom s) c!"<?" = .ok (k, s') ∧
      notZero k = (Parse.notZero (Stream.inspect l c!"<?") l).isSome ∧
      R0 ((Parse.notZero (Stream.inspect l c!"<?") l).getD l) s')
    (hstart : strict ∧ rest = l ∨ Parse.notZero (Stream.inspect l c!"<?") l = none ∧ rest = l ∨
      ∃ l1, Parse.notZero (Stream.inspect l c!"<?") l = some l1 ∧ Decl l1 rest)
    (conv : ∀ r s, R0 r s → r <:+ rest → R r s) (ht : LeadBut far l) (hrest : rest <:+ l) :
    Sim strict Eq (Parse.parse text) (parseStream s) := by
  unfold Parse.parse parseStream
  refine Sim.bind (P := fun a b => On3 R a b ∧ a.2.2.2 <:+ l) ?_ ?_
  · unfold Parse.parseHeader parseHeader
    rw [hbom]
    obtain ⟨k, s1, e1, z1, m1⟩ := hlook
    rw [e1, ok_bind]
    simp only
    rw [z1]
    cases hz : Parse.notZero (Stream.inspect l c!"<?") l with
    | none =>
      rw [hz] at m1 hstart
      simp only [Option.isSome_none, Bool.false_eq_true, if_false, Option.getD_none] at m1 ⊢
      have hrl : rest = l := by
        rcases hstart with ⟨-, e⟩ | ⟨-, e⟩ | ⟨l1, e, -⟩
        · exact e
        · exact e
        · simp at e
      have hR1 := conv _ _ m1 (by rw [hrl]; exact List.suffix_refl _)
      have hs := doctype_sim h hm St.new hR1
      cases hx : Parse.doctype St.new l with
      | ok x =>
        obtain ⟨st1, l1⟩ := x
        rw [hx] at hs
        obtain ⟨⟨st1', s2⟩, e2, rfl, m2⟩ := hs
        rw [e2]
        exact Sim.ok ⟨⟨rfl, rfl, rfl, m2⟩, doctype_suf hx⟩
      | error => rw [hx] at hs; intro q; rw [hs q]; rfl
      | ub => rw [hx] at hs; intro q; rw [hs q]; rfl
      | loop => rw [hx] at hs; intro q; rw [hs q]; rfl
    | some l1 =>
      rw [hz] at m1 hstart
      simp only [Option.isSome_some, if_true, Option.getD_some] at m1 ⊢
      have hl1 : l1 <:+ l := by
        cases hi : Stream.inspect l c!"<?" with
        | yes r =>
          rw [hi] at hz
          simp only [Parse.notZero, Option.some.injEq] at hz
          exact hz ▸ eat_suf (chunk := c!"<?") (by simp [Stream.eat, hi])
        | short =>
          rw [hi] at hz
          simp only [Parse.notZero, Option.some.injEq] at hz
          exact hz ▸ List.suffix_refl _
        | no => rw [hi] at hz; simp [Parse.notZero] at hz
      have hd : strict ∨ ∃ rest, Decl l1 rest := by
        rcases hstart with ⟨e, -⟩ | ⟨e, -⟩ | ⟨l1', e, hd⟩
        · exact .inl e
        · simp at e
        · simp only [Option.some.injEq] at e
          exact .inr ⟨rest, e ▸ hd⟩
      have hs := xmlDecl_sim h0 m1 hd
      cases hx : Parse.xmlDecl l1 with
      | ok x =>
        obtain ⟨enc, alone, l2⟩ := x
        rw [hx] at hs
        obtain ⟨⟨enc', alone', s2⟩, e2, rfl, rfl, m2⟩ := hs
        have hl2 : l2 <:+ rest := by
          rcases hstart with ⟨-, e⟩ | ⟨e, -⟩ | ⟨l1', e, hd⟩
          · rw [e]; exact (xmlDecl_suf hx).trans hl1
          · simp at e
          · simp only [Option.some.injEq] at e
            subst e
            rw [xmlDecl_eq hd] at hx
            exact memDeclEnd_suf hx
        have hR2 := conv _ _ m2 hl2
        have hl2' : l2 <:+ l := hl2.trans hrest
        rw [e2]
        simp only [ok_bind]
        rw [h.left hR2]
        have hs3 := comments_sim h hm false (l2.length + 1) St.new hR2
        cases hx3 : Parse.comments false (l2.length + 1) St.new l2 with
        | ok x =>
          obtain ⟨st3, l3⟩ := x
          rw [hx3] at hs3
          obtain ⟨⟨st3', s3⟩, e3, rfl, m3⟩ := hs3
          rw [e3]
          simp only [ok_bind]
          have hs4 := doctype_sim h hm st3 m3
          cases hx4 : Parse.doctype st3 l3 with
          | ok x =>
            obtain ⟨st4, l4⟩ := x
            rw [hx4] at hs4
            obtain ⟨⟨st4', s4⟩, e4, rfl, m4⟩ := hs4
            rw [e4]
            exact Sim.ok ⟨⟨rfl, rfl, rfl, m4⟩, (doctype_suf hx4).trans ((comments_suf _ hx3).1.trans hl2')⟩
          | error => rw [hx4] at hs4; intro q; rw [hs4 q]; rfl
          | ub => rw [hx4] at hs4; intro q; rw [hs4 q]; rfl
          | loop => rw [hx4] at hs4; intro q; rw [hs4 q]; rfl
        | error => rw [hx3] at hs3; intro q; rw [hs3 q]; rfl
        | ub => rw [hx3] at hs3; intro q; rw [hs3 q]; rfl
        | loop => rw [hx3] at hs3; intro q; rw [hs3 q]; rfl
      | error => rw [hx] at hs; intro q; rw [hs q]; rfl
      | ub => rw [hx] at hs; intro q; rw [hs q]; rfl
      | loop => rw [hx] at hs; intro q; rw [hs q]; rfl
  · rintro ⟨enc, alone, st, l1⟩ ⟨enc', alone', st', s1⟩ ⟨⟨rfl, rfl, rfl, hR1⟩, hl1⟩
    simp only at hl1 ⊢
    refine Sim.bind (body_sim h hm hb hk ht st hl1 hR1) ?_
    rintro st1 st2 rfl
    split
    · exact Sim.error
    · cases st1.root with
      | none => exact Sim.ub
      | some root => exact Sim.ok rfl

end

end FileParse
end Axl
