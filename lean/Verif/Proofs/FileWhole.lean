/-
Proofs about a document read from a file: one that fits in the buffer, and one that does not.
-/
import Verif.Proofs.FileLoop
import Verif.Props.FileStream

namespace Axl
namespace FileParse
open Str Parse FileStream Spec.FileStream

/-! ### Of any stream -/

theorem left_pending {s : FS Char} (h : Plain s) : left s = (pending s).length := by
  unfold left pending
  cases hf : s.fd with
  | none => simp [unread]
  | some src => simp [unread]

theorem skip_eq_head {l : List Char} (h : Stream.skip l = l) : ∀ c, l.head? = some c → isWhite c = false := by
  intro c hc
  cases l with
  | nil => simp at hc
  | cons d r =>
    simp only [List.head?_cons, Option.some.injEq] at hc
    subst hc
    cases hw : isWhite d with
    | false => rfl
    | true =>
      have : (Stream.skip (d :: r)).length ≤ r.length := by
        simp only [Stream.skip, List.dropWhile, hw]
        exact (List.dropWhile_suffix _).length_le
      rw [h, List.length_cons] at this
      omega

theorem skip_fs {s : FS Char} (h : Plain s) : ∃ s', skip s = .ok s' ∧ Plain s' ∧ pending s' = Stream.skip (pending s) ∧
    Step s s' ∧ (Stream.skip (pending s) = pending s → s'.index ≤ s.index) := by
  obtain ⟨s', a, b, c⟩ := skip_plain 0 (left s + 1) s h (by rw [left_pending h]; omega)
  exact ⟨s', a, b, c, skip_step _ h a, fun e => skip_index h (skip_eq_head e) a⟩

/-- All the content is in the buffer: nothing is read behind it. -/
theorem inspect_ended {s : FS Char} (h : Plain s) (hu : unread s.fd = []) (chunk : List Char) (accept : Bool) :
    ∃ a s', FileStream.inspect 0 s chunk accept = .ok (a, s') ∧
      (a = .short ↔ Stream.inspect (pending s) chunk = .short) := by
  have hlen : (pending s).length = s.data.length - s.index := by simp [pending, hu]
  have hi := h.index
  unfold FileStream.inspect
  split
  · rename_i hl
    obtain ⟨more, s1, e1, e2, e3, e4, e5⟩ := prebuffer_plain 0 h
    cases more with
    | true =>
      obtain ⟨-, -, bytes, q1, -, q3⟩ := e4 rfl
      rw [hu] at q3
      simp at q3
      exact absurd q3.1 q1
    | false =>
      rw [e1]
      refine ⟨_, _, rfl, by simp only [true_iff, Stream.inspect]; rw [if_pos (by omega)]⟩
  · rename_i hl
    unfold inspectHere
    have hns : Stream.inspect (pending s) chunk ≠ .short := by
      unfold Stream.inspect
      rw [if_neg (by omega)]
      split <;> simp
    split
    · rename_i hc
      have := (compare_none hc).2
      simp only [List.length_drop] at this
      omega
    · exact ⟨_, _, rfl, by simp [hns]⟩
    · exact ⟨_, _, rfl, by simp [hns]⟩

/-- Reading up to a chunk in terms of `memUntil`. -/
theorem mem_of_match {chunks : List (List Char)} {accept : Bool} {l p : List Char} {got : Option Got}
    (h : match Stream.getUntil chunks l with
      | none => got = none ∧ p = l
      | some f => got = some ⟨f.text, f.chunk⟩ ∧ p = if accept then f.after else f.at_) :
    got = (memUntil chunks accept l).1 ∧ p = (memUntil chunks accept l).2 := by
  unfold memUntil
  cases hg : Stream.getUntil chunks l with
  | none => rw [hg] at h; exact h
  | some f => rw [hg] at h; exact h

/-! ### All in the buffer -/

/-- A stream with all its content in the buffer. -/
def Whole (l : List Char) (s : FS Char) : Prop := Plain s ∧ pending s = l ∧ unread s.fd = []

theorem whole_until (chunks : List (List Char)) (accept : Bool) {l : List Char} {s : FS Char} (h : Whole l s) :
    Exact Whole chunks accept l s := by
  obtain ⟨hp, rfl, hu⟩ := h
  obtain ⟨got, s', e, a, b⟩ := C44_until_buffered_partial 0 hp hu chunks accept (fuel := 2 * left s + 1)
    (by rw [left_pending hp]; omega)
  obtain ⟨rfl, hq⟩ := mem_of_match b
  exact ⟨s', e, a, hq, (getUntil_step hp e).ended hu⟩

theorem whole_reads : Reads True Whole where
  left := by
    rintro l s ⟨hp, rfl, -⟩
    exact left_pending hp
  skip := by
    rintro l s ⟨hp, rfl, hu⟩
    obtain ⟨s', a, b, c, d, e⟩ := skip_fs hp
    exact ⟨s', a, ⟨b, c, d.ended hu⟩, e⟩
  look := by
    rintro l s chunk accept ⟨hp, rfl, hu⟩ -
    obtain ⟨a, s', e, hsh⟩ := inspect_ended hp hu chunk accept
    obtain ⟨b, c⟩ := inspect_plain 0 hp chunk accept e
    obtain ⟨d1, d2⟩ := inspect_step hp e
    refine ⟨a, s', e, ?_, ?_, fun _ => hsh⟩
    · simp only [Sees] at c
      split at c
      · rename_i rest he
        rw [he]
        exact ⟨c.1, b, c.2, d1.ended hu⟩
      · rename_i he
        rw [he]
        exact ⟨c.1, b, c.2, d1.ended hu⟩
    · rintro (he | he)
      · simp only [Sees, he] at c
        rcases c.1 with x | x
        · exact d2 (.inl x)
        · exact d2 (.inr (.inl x))
      · exact d2 (.inr (.inr he))
  remains := by
    rintro l s ⟨hp, rfl, hu⟩
    obtain ⟨s', a, b, c⟩ := C44_remains 0 hp
    exact ⟨s', a, b, c, (remains_step hp.decoder a).ended hu⟩
  single := by
    intro l s chunks accept h _
    exact whole_until chunks accept h
  name := by
    intro l s h
    exact .inl (whole_until _ _ h)

theorem whole_multi : Multi Whole := .inl fun _ _ chunks accept h => whole_until chunks accept h

theorem skip_nil_white {l : List Char} (h : Stream.skip l = []) : ∀ c ∈ l, isWhite c = true := by
  intro c hc
  obtain ⟨b, hb, e, -⟩ := Stream.skip_spec l
  rw [h, List.append_nil] at e
  exact (Stream.white_iff c).2 (hb c (e ▸ hc))

/-- Where the skip of the white space at the end leaves the stream. -/
theorem skip_end : ∀ (fuel : Nat) (s s' : FS Char), Plain s → unread s.fd = [] →
    (∀ c ∈ s.data.drop s.index, isWhite c = true) → FileStream.skip 0 fuel s = .ok s' →
    s'.fd = none ∧ s'.index = s'.data.length ∧ (s'.data = s.data ∨ s'.data = []) := by
  intro fuel
  induction fuel with
  | zero => intro s s' _ _ _ h; simp [FileStream.skip] at h
  | succ fuel ih =>
    intro s s' hp hu hw h
    have hi := hp.index
    have hroom := hp.room
    unfold FileStream.skip at h
    split at h
    · rename_i c hc
      obtain ⟨hlt, hget⟩ := List.getElem?_eq_some_iff.1 hc
      have hd := List.drop_eq_getElem_cons hlt
      rw [if_pos (hw c (by rw [hd, hget]; simp))] at h
      exact ih { s with index := s.index + 1 } s' (plain_take hp hlt) hu (fun x hx => hw x (by rw [hd]; exact List.mem_cons_of_mem _ hx)) h
    · rename_i hn
      have hle : s.data.length ≤ s.index := by simpa using hn
      have heq : s.index = s.data.length := by omega
      cases hf : s.fd with
      | none =>
        simp only [prebuffer, hf, bind, Res.bind, Bool.false_eq_true, if_false, Res.ok.injEq] at h
        rw [← h]
        exact ⟨hf, heq, .inl rfl⟩
      | some src =>
        have hsrc : src.rest = [] := by simpa [hf, unread] using hu
        have hsh : shift s = { s with data := [], index := 0 } := by
          unfold shift
          rw [if_neg (by omega), if_neg (by rw [hp.expand]; simp; omega), if_pos heq.symm]
        have hread : ∀ room, (src.read room).1 = [] := by
          intro room
          unfold Source.read
          split <;> simp [hsrc]
        have hacc : accepts { s with data := [], index := 0, fd := some src, decoder := none } [] = true := hp.check [] ⟨[], _, rfl⟩
        simp only [prebuffer, hf, hp.decoder, readPlain, hsh, hacc, hread, bind, Res.bind] at h
        simp only [Bool.not_true, Bool.false_eq_true, if_false, List.isEmpty_nil, if_true, Res.ok.injEq] at h
        rw [← h]
        exact ⟨rfl, rfl, .inr rfl⟩

theorem inspect_none {s : FS Char} (hf : s.fd = none) (hi : s.index = s.data.length) {chunk : List Char} (hc : chunk ≠ [])
    (accept : Bool) : FileStream.inspect 0 s chunk accept = .ok (.short, s) := by
  have : 0 < chunk.length := List.length_pos_iff.2 hc
  unfold FileStream.inspect
  rw [if_pos (by omega)]
  simp only [prebuffer, hf]
  rfl

theorem whole_blank : BlankEnd True Whole := by
  rintro - st l s ⟨hp, rfl, hu⟩ hne hsk hpres
  have hdat : pending s = s.data.drop s.index := by simp [pending, hu]
  have hwhite := skip_nil_white hsk
  obtain ⟨s1, e1, p1, c1, d1, -⟩ := skip_fs hp
  obtain ⟨f1, i1, k1⟩ := skip_end _ s s1 hp hu (by rw [← hdat]; exact hwhite) e1
  have hlook : ∀ (chunk : List Char) (acc : Bool), chunk ≠ [] → FileStream.inspect 0 s1 chunk acc = .ok (.short, s1) :=
    fun chunk acc hc => inspect_none f1 i1 hc acc
  have hnil : ∀ t : FS Char, Plain t → unread t.fd = [] → Stream.skip (pending t) = [] → content st t = .error := by
    intro t ht htu htw
    obtain ⟨s2, e2, -⟩ := whole_until [c!"<"] false ⟨ht, rfl, htu⟩
    unfold content
    rw [e2, ok_bind]
    have hx := content_blank htw st
    unfold Parse.content at hx
    cases hg : Stream.getUntil [c!"<"] (pending t) with
    | none => simp only [memUntil, hg]
    | some f => rw [hg] at hx; simp at hx
  unfold pass skipUnless peekTwo peek eat look
  simp only [hpres, Bool.false_eq_true, if_false, e1, ok_bind, hlook _ _ (List.cons_ne_nil _ _)]
  have hc : content st (restore s.index s1) = .error := by
    unfold restore
    split
    · rename_i hgt
      rcases k1 with k1 | k1
      · refine hnil _ ⟨p1.decoder, p1.check, p1.expand, ?_, p1.size, p1.room⟩ (by simp [f1, unread]) ?_
        · simp only [k1]; exact hp.index
        · simp only [pending, f1, unread, k1, List.append_nil]
          rw [← hdat]
          exact hsk
      · rw [k1] at i1
        simp only [List.length_nil] at i1
        omega
    · exact hnil _ p1 (by simp [f1, unread]) (by rw [c1, hsk]; rfl)
  rw [hc]
  rfl

/-- Skipping white space inside of the buffer. -/
theorem skip_inside : ∀ (w : List Char) (fuel : Nat) (s : FS Char) (c : Char) (r : List Char), s.data.drop s.index = w ++ c :: r →
    (∀ x ∈ w, isWhite x = true) → isWhite c = false → w.length < fuel →
    FileStream.skip 0 fuel s = .ok { s with index := s.index + w.length } := by
  intro w
  induction w with
  | nil =>
    intro fuel s c r hd _ hc hf
    obtain ⟨fuel, rfl⟩ : ∃ f, fuel = f + 1 := ⟨fuel - 1, by omega⟩
    have : s.data[s.index]? = some c := by
      rw [List.getElem?_eq_some_iff]
      have hlt : s.index < s.data.length := by
        have := congrArg List.length hd
        simp at this
        omega
      refine ⟨hlt, ?_⟩
      have := List.drop_eq_getElem_cons hlt
      rw [hd, List.nil_append] at this
      exact (List.cons.inj this).1.symm
    unfold FileStream.skip
    rw [this]
    simp [hc]
  | cons a w ih =>
    intro fuel s c r hd hw hc hf
    obtain ⟨fuel, rfl⟩ : ∃ f, fuel = f + 1 := ⟨fuel - 1, by omega⟩
    have hlt : s.index < s.data.length := by
      have := congrArg List.length hd
      simp at this
      omega
    have hx := List.drop_eq_getElem_cons hlt
    rw [hd, List.cons_append] at hx
    simp only [List.cons.injEq] at hx
    have : s.data[s.index]? = some a := List.getElem?_eq_some_iff.2 ⟨hlt, hx.1.symm⟩
    unfold FileStream.skip
    rw [this]
    simp only [hw a (by simp), if_true]
    have := ih fuel { s with index := s.index + 1 } c r hx.2.symm (fun x hx => hw x (by simp [hx])) hc (by simp at hf; omega)
    rw [this]
    simp only [List.length_cons, Nat.add_assoc, Nat.add_comm 1]

/-- A look for something else than what is in the buffer. -/
theorem inspect_other {s : FS Char} {c : Char} {r : List Char} (hd : s.data.drop s.index = c :: r) {d : Char} {chunk : List Char}
    (hc : d ≠ c) (hl : chunk.length ≤ r.length) (accept : Bool) :
    FileStream.inspect 0 s (d :: chunk) accept = .ok (.no, s) := by
  have := congrArg List.length hd
  simp only [List.length_drop, List.length_cons] at this
  unfold FileStream.inspect
  rw [if_neg (by simp only [List.length_cons]; omega)]
  unfold inspectHere
  rw [hd]
  simp [FileStream.compare, hc]

theorem eat_other {c d : Char} (r chunk : List Char) (hc : d ≠ c) : Stream.eat (c :: r) (d :: chunk) = none :=
  eat_none_iff.2 (by rintro ⟨x, hx⟩; simp at hx; exact hc hx.1)

theorem whole_back : Back (fun r => 9 ≤ r.length) True Whole := by
  rintro st l s c r ⟨hp, rfl, hu⟩ hpres hsk hlt hfar
  have hdat : pending s = s.data.drop s.index := by simp [pending, hu]
  obtain ⟨w, hw, e, hnw⟩ := Stream.skip_spec (pending s)
  rw [hsk] at e hnw
  have hcw : isWhite c = false := by
    cases hx : isWhite c with
    | false => rfl
    | true => exact absurd ((Stream.white_iff c).1 hx) (hnw c r rfl)
  have hlen := congrArg List.length e
  simp only [List.length_append] at hlen
  have hskip : skip s = .ok { s with index := s.index + w.length } := by
    unfold skip
    exact skip_inside w _ s c r (by rw [← hdat, e]) (fun x hx => (Stream.white_iff x).2 (hw x hx)) hcw
      (by rw [left_pending hp]; simp only [List.length_cons] at hlen; omega)
  have hd1 : s.data.drop (s.index + w.length) = c :: r := by
    rw [← List.drop_drop, ← hdat, e, List.drop_left]
  have hno : ∀ (chunk : List Char) (acc : Bool), chunk.length ≤ 8 →
      FileStream.inspect 0 { s with index := s.index + w.length } ('<' :: chunk) acc =
        .ok (.no, { s with index := s.index + w.length }) := by
    intro chunk acc hl
    refine inspect_other (c := c) (r := r) hd1 (Ne.symm hlt) ?_ acc
    simp only [List.length_cons] at hfar
    omega
  have heat : ∀ chunk, Stream.eat (c :: r) ('<' :: chunk) = none := fun chunk => eat_other r chunk (Ne.symm hlt)
  have hpeek : ∀ chunk, Stream.peek (c :: r) ('<' :: chunk) = false := by
    intro chunk
    have := heat chunk
    unfold Stream.peek
    rw [this]
    rfl
  have hm : Parse.pass st (pending s) = (do let (st, r) ← Parse.content st (pending s); .ok (st, r, true)) := by
    unfold Parse.pass
    simp only [hpres, Bool.false_eq_true, if_false, hsk, heat, hpeek, Bool.or_self]
  have hf : pass st s = (do let (st, s) ← content st (restore s.index { s with index := s.index + w.length }); .ok (st, s, true)) := by
    unfold pass skipUnless peekTwo peek eat look
    simp only [hpres, Bool.false_eq_true, if_false, hskip, ok_bind]
    rw [hno _ _ (by decide)]
    simp only [ok_bind, Bool.false_eq_true, if_false]
    rw [hno _ _ (by decide)]
    simp only [ok_bind, Bool.false_eq_true, if_false]
    rw [hno _ _ (by decide)]
    simp only [ok_bind, Bool.false_eq_true, if_false]
    rw [hno _ _ (by decide)]
    simp only [ok_bind, Bool.false_eq_true, if_false]
    rw [hno _ _ (by decide)]
    simp only [ok_bind, Bool.false_eq_true, if_false]
  have hr : restore s.index { s with index := s.index + w.length } = s := by
    unfold restore
    split
    · rfl
    · rename_i h
      have : w.length = 0 := by simpa using h
      simp [this]
  rw [hm, hf, hr]
  refine Sim.bind (content_sim whole_reads st ⟨hp, rfl, hu⟩) ?_
  rintro ⟨st1, l2⟩ ⟨st1', s5⟩ ⟨rfl, hR2⟩
  exact Sim.ok ⟨rfl, hR2, rfl⟩

/-! ### More than the buffer -/

/-- The last character is a white space, or there is none. -/
def Tail (l : List Char) : Prop := l = [] ∨ ∃ pre c, isWhite c = true ∧ l = pre ++ [c]

theorem tail_suffix {l r : List Char} (h : Tail l) (hs : r <:+ l) : Tail r := by
  cases hr : r.reverse with
  | nil => exact .inl (by simpa using hr)
  | cons c q =>
    have hrr : r = q.reverse ++ [c] := by
      have := congrArg List.reverse hr
      simpa using this
    rcases h with rfl | ⟨pre, d, hd, rfl⟩
    · exact .inl (List.suffix_nil.1 hs)
    · obtain ⟨x, hx⟩ := hs
      rw [hrr, ← List.append_assoc] at hx
      have := (List.append_inj' hx rfl).2
      simp only [List.cons.injEq, and_true] at this
      exact .inr ⟨q.reverse, c, this ▸ hd, hrr⟩

/-- A stream over a file that is read as it is asked for, with `P` of what is left. -/
def Big (P : List Char → Prop) (l : List Char) (s : FS Char) : Prop :=
  Plain s ∧ pending s = l ∧ Regular s ∧ 12 ≤ s.bufSize ∧ Tail l ∧ P l

section
variable {P : List Char → Prop}

theorem big_next (hP : ∀ {a b}, b <:+ a → P a → P b) {l r : List Char} {s s' : FS Char} (h : Big P l s) (hp : Plain s')
    (hr : pending s' = r) (hst : Step s s') (hs : r <:+ l) : Big P r s' := by
  obtain ⟨-, -, h3, h4, h5, h6⟩ := h
  exact ⟨hp, hr, hst.regular h3, Nat.le_trans h4 hst.size, tail_suffix h5 hs, hP hs h6⟩

theorem single_white {chunks : List (List Char)} (hc : ∀ c ∈ chunks, ∃ q, c = [q] ∧ isWhite q = false) {c : Char}
    (hw : isWhite c = true) : Stream.matchAt chunks c [] = none := by
  unfold Stream.matchAt
  rw [if_neg]
  · have : ∀ (cs : List (List Char)) (i : Nat), (∀ c ∈ cs, ∃ q, c = [q] ∧ isWhite q = false) →
        Stream.firstChunk [c] i cs = none := by
      intro cs
      induction cs with
      | nil => intro i _; rfl
      | cons d ds ih =>
        intro i hd
        obtain ⟨q, rfl, hq⟩ := hd d (by simp)
        unfold Stream.firstChunk
        rw [if_neg]
        · exact ih _ fun x hx => hd x (by simp [hx])
        · rintro ⟨-, -, hp⟩
          have : q = c := by simpa using hp
          rw [this, hw] at hq
          simp at hq
    exact this chunks 0 hc
  · simp only [Bool.and_eq_true, List.contains_iff_mem]
    rintro ⟨hm, -⟩
    obtain ⟨q, hq, hqw⟩ := hc _ hm
    simp only [List.cons.injEq, and_true] at hq
    subst hq
    simp [isWhite] at hqw

theorem big_reads (hP : ∀ {a b}, b <:+ a → P a → P b) : Reads False (Big P) where
  left := by
    rintro l s ⟨hp, rfl, -⟩
    exact left_pending hp
  skip := by
    intro l s h
    have hp := h.1
    have hl := h.2.1
    subst hl
    obtain ⟨s', a, b, c, d, e⟩ := skip_fs hp
    exact ⟨s', a, big_next hP h b c d (skip_suf _), e⟩
  look := by
    intro l s chunk accept h hword
    have hp := h.1
    have hl := h.2.1
    subst hl
    have hex : ∃ x, FileStream.inspect 0 s chunk accept = .ok x := by
      by_cases hnil : pending s = []
      · obtain ⟨a, s', e, -⟩ := inspect_ended hp (by simp only [pending, List.append_eq_nil_iff] at hnil; exact hnil.2) chunk accept
        exact ⟨_, e⟩
      · apply Classical.byContradiction
        intro hn
        obtain ⟨h1, -⟩ := inspect_ub 0 hp h.2.2.1 chunk (Nat.le_trans hword.2.1 h.2.2.2.1) accept hn
        rcases h.2.2.2.2.1 with ht | ⟨pre, c, hc, ht⟩
        · exact hnil ht
        · have hm : c ∈ chunk := h1.subset (by rw [ht]; simp)
          rw [hword.2.2 c hm] at hc
          simp at hc
    obtain ⟨⟨a, s'⟩, e⟩ := hex
    obtain ⟨b, c⟩ := inspect_plain 0 hp chunk accept e
    obtain ⟨d1, d2⟩ := inspect_step hp e
    refine ⟨a, s', e, ?_, ?_, fun x => x.elim⟩
    · simp only [Sees] at c
      split at c
      · rename_i rest he
        rw [he]
        refine ⟨c.1, big_next hP h b c.2 d1 ?_⟩
        split
        · exact eat_suf he
        · exact List.suffix_refl _
      · rename_i he
        rw [he]
        exact ⟨c.1, big_next hP h b c.2 d1 (List.suffix_refl _)⟩
    · rintro (he | he)
      · simp only [Sees, he] at c
        rcases c.1 with x | x
        · exact d2 (.inl x)
        · exact d2 (.inr (.inl x))
      · exact d2 (.inr (.inr he))
  remains := by
    intro l s h
    have hp := h.1
    have hl := h.2.1
    subst hl
    obtain ⟨s', a, b, c⟩ := C44_remains 0 hp
    exact ⟨s', a, big_next hP h b c (remains_step hp.decoder a) (List.suffix_refl _)⟩
  single := by
    intro l s chunks accept h hc
    have hp := h.1
    have hl := h.2.1
    subst hl
    obtain ⟨got, s', e, a, b⟩ := C44_until_character_partial 0 hp (chunks := chunks)
      (fun c hm => by obtain ⟨q, rfl, -⟩ := hc c hm; rfl) accept (fuel := 2 * left s + 1) (by rw [left_pending hp]; omega)
    have hst := getUntil_step hp e
    cases hg : Stream.getUntil chunks (pending s) with
    | none =>
      rw [hg] at b
      refine ⟨s', by simp only [memUntil, hg]; rw [← b.1]; exact e, ?_⟩
      simp only [memUntil, hg]
      exact big_next hP h a b.2 hst (List.suffix_refl _)
    | some f =>
      rw [hg] at b
      rcases b with b | ⟨b1, b2⟩
      · exfalso
        obtain ⟨c, r, n, h1, h2, h3, -⟩ := Stream.getUntil_some hg
        rw [h1] at b
        have hr : r = [] := by simpa using b
        subst hr
        rcases h.2.2.2.2.1 with ht | ⟨pre, d, hd, ht⟩
        · rw [ht] at h2; simp at h2
        · rw [ht] at h2
          have := (List.append_inj' h2 rfl).2
          simp only [List.cons.injEq, and_true] at this
          subst this
          rw [single_white hc hd] at h3
          simp at h3
      · refine ⟨s', by simp only [memUntil, hg]; rw [← b1]; exact e, ?_⟩
        simp only [memUntil, hg]
        refine big_next hP h a b2 hst ?_
        split
        · exact (found_suf hg).1
        · exact (found_suf hg).2
  name := by
    intro l s h
    have hp := h.1
    have hl := h.2.1
    subst hl
    obtain ⟨got, s', e, a, b⟩ := C44_until_character_partial 0 hp (chunks := [c!">", c!" "]) (by simp) true
      (fuel := 2 * left s + 1) (by rw [left_pending hp]; omega)
    have hst := getUntil_step hp e
    cases hg : Stream.getUntil [c!">", c!" "] (pending s) with
    | none =>
      rw [hg] at b
      refine .inl ⟨s', by simp only [memUntil, hg]; rw [← b.1]; exact e, ?_⟩
      simp only [memUntil, hg]
      exact big_next hP h a b.2 hst (List.suffix_refl _)
    | some f =>
      rw [hg] at b
      rcases b with b | ⟨b1, b2⟩
      · refine .inr ⟨id, f, rfl, ?_⟩
        obtain ⟨c, r, n, h1, h2, h3, h4, -⟩ := Stream.getUntil_some hg
        rw [h1] at b
        have hr : r = [] := by simpa using b
        subst hr
        rcases h.2.2.2.2.1 with ht | ⟨pre, d, hd, ht⟩
        · rw [ht] at h2; simp at h2
        · rw [ht] at h2
          have := (List.append_inj' h2 rfl).2
          simp only [List.cons.injEq, and_true] at this
          subst this
          rw [matchAt_tag, if_pos hd] at h3
          simp only [Option.some.injEq, Prod.mk.injEq] at h3
          rw [← h3.2] at h4
          exact ⟨h3.1.symm, h4⟩
      · refine .inl ⟨s', by simp only [memUntil, hg]; rw [← b1]; exact e, ?_⟩
        simp only [memUntil, hg]
        exact big_next hP h a b2 hst (found_suf hg).1

end

theorem simple_suffix {a b : List Char} (h : b <:+ a) (ha : Spec.File.Simple a) : Spec.File.Simple b :=
  ⟨fun x => ha.1 (x.trans h.isInfix), fun x => ha.2.1 (x.trans h.isInfix), fun x => ha.2.2 (x.trans h.isInfix)⟩

theorem big_multi : Multi (Big Spec.File.Simple) := by
  refine .inr ?_
  rintro l s ⟨-, -, -, -, -, h1, h2, h3⟩
  refine ⟨eat_none_iff.2 fun x => h1 x.isInfix, eat_none_iff.2 fun x => h2 x.isInfix, eat_none_iff.2 fun x => h3 x.isInfix⟩

theorem lead_suffix {far : List Char → Prop} {a b : List Char} (h : b <:+ a) (ha : LeadBut far a) : LeadBut far b := by
  obtain ⟨x, rfl⟩ := h
  intro pre w c rest he hw hc hlt
  exact ha (x ++ pre) w c rest (by rw [he]; simp) hw hc hlt

/-! ### The file -/

theorem new_eq (text : List Char) {n : Nat} (hn : 0 < n) : ∃ fd, FileStream.new ⟨text, []⟩ n =
    ⟨text.take n, 0, n, fd, none, [], 0, false, none⟩ ∧ unread fd = text.drop n ∧ ∀ src, fd = some src → src.sizes = [] := by
  unfold FileStream.new readPlain
  simp only [accepts, Source.read, List.length_nil, Nat.sub_zero, Bool.not_true, Bool.false_eq_true, if_false]
  by_cases he : text.take n = []
  · refine ⟨none, by simp [he], ?_, by simp⟩
    simp only [List.take_eq_nil_iff] at he
    rcases he with he | he
    · omega
    · simp [he, unread]
  · have hb : (text.take n).isEmpty = false := by
      cases h : text.take n with
      | nil => exact absurd h he
      | cons a b => rfl
    refine ⟨some ⟨text.drop n, []⟩, by simp [hb], rfl, ?_⟩
    intro src hs
    simp only [Option.some.injEq] at hs
    rw [← hs]

/-- The stream a file is read with, after the mark at its beginning. -/
theorem opened (text : List Char) {n : Nat} (hn : 3 ≤ n) : ∃ s, skipBom (FileStream.new ⟨text, []⟩ n) = s ∧
      s.data = text.take n ∧ s.bufSize = n ∧ unread s.fd = text.drop n ∧ Regular s ∧
      s.index ≤ 3 ∧ Plain s ∧ pending s = Parse.skipBom text ∧ Parse.skipBom text = text.drop s.index := by
  obtain ⟨fd, e, hu, hs⟩ := new_eq text (n := n) (by omega)
  have hpe : ∀ i, i ≤ n → i ≤ text.length →
      pending (⟨text.take n, i, n, fd, none, [], 0, false, none⟩ : FS Char) = text.drop i := by
    intro i h2 h3
    simp only [pending, hu]
    rw [← List.drop_append_of_le_length (by rw [List.length_take]; omega), List.take_append_drop]
  have hgo : ∀ i, i ≤ 3 → i ≤ text.length → Parse.skipBom text = text.drop i →
      skipBom (FileStream.new ⟨text, []⟩ n) = ⟨text.take n, i, n, fd, none, [], 0, false, none⟩ →
      ∃ s, skipBom (FileStream.new ⟨text, []⟩ n) = s ∧
      s.data = text.take n ∧ s.bufSize = n ∧ unread s.fd = text.drop n ∧ Regular s ∧
      s.index ≤ 3 ∧ Plain s ∧ pending s = Parse.skipBom text ∧ Parse.skipBom text = text.drop s.index := by
    intro i h1 h2 h3 h4
    refine ⟨_, h4, rfl, rfl, hu, hs, h1, ⟨rfl, fun _ _ => rfl, rfl, ?_, ?_, ?_⟩, ?_, h3⟩
    · simp only [List.length_take]; omega
    · simp only [List.length_take]; omega
    · show 0 < n; omega
    · rw [h3]; exact hpe i (by omega) h2
  by_cases hb : ['ï', '»', '¿'] <+: text
  · obtain ⟨r, rfl⟩ := hb
    have hlen : ['ï', '»', '¿'].length ≤ n := hn
    refine hgo 3 (by omega) (by simp) ?_ ?_
    · unfold Parse.skipBom
      rw [Stream.eat_append]
      simp
    · rw [e]
      unfold skipBom
      rw [if_pos]
      simp only [List.drop_zero, List.isPrefixOf_iff_prefix]
      rw [List.take_append, List.take_of_length_le hlen]
      exact List.prefix_append _ _
  · refine hgo 0 (by omega) (by omega) ?_ ?_
    · unfold Parse.skipBom
      rw [eat_none_iff.2 hb]
      rfl
    · rw [e]
      unfold skipBom
      rw [if_neg]
      simp only [List.drop_zero, List.isPrefixOf_iff_prefix]
      exact fun x => hb (x.trans (List.take_prefix _ _))

theorem bom_suf (text : List Char) : Parse.skipBom text <:+ text := by
  unfold Parse.skipBom
  split
  · rename_i r hr
    exact ⟨_, (eat_some_iff.1 hr).symm⟩
  · exact List.suffix_refl _

/-- A file that fits in the buffer is read as the same text in memory. -/
theorem read_small {text : List Char} {n : Nat} (hn : 3 ≤ n) (hsize : text.length ≤ n) (ht : Spec.File.FarLead text) :
    parseStream (FileStream.new ⟨text, []⟩ n) = Parse.parse text := by
  obtain ⟨s, e, hd, hbs, hu, hr, hi, hp, hq, hx⟩ := opened text hn
  have hu : unread s.fd = [] := by rw [hu]; simpa using hsize
  have hR : Whole (Parse.skipBom text) s := ⟨hp, hq, hu⟩
  have hsim := document_sim (strict := True) (text := text) (s := FileStream.new ⟨text, []⟩ n) whole_reads whole_reads
    whole_multi whole_blank whole_back rfl (by rw [e]; exact hR)
    (by rw [e]; exact notZero_one whole_reads hR c!"<?" (by decide) (.inl trivial))
    (.inl ⟨trivial, rfl⟩) (fun _ _ h _ => h) (lead_suffix (bom_suf text) ht) (List.suffix_refl _)
  cases hx : Parse.parse text with
  | ok d =>
    rw [hx] at hsim
    obtain ⟨d', e, rfl⟩ := hsim
    exact e
  | error => rw [hx] at hsim; exact hsim trivial
  | ub => rw [hx] at hsim; exact hsim trivial
  | loop => rw [hx] at hsim; exact hsim trivial

theorem begun_bom {mark text rest : List Char} (hm : mark = [] ∨ mark = Spec.File.mark) (hb : Spec.File.Begun text rest) :
    Parse.skipBom (mark ++ text) = text := by
  unfold Parse.skipBom
  rcases hm with rfl | rfl
  · rw [List.nil_append, eat_none_iff.2]
    rintro ⟨r, rfl⟩
    cases hb with
    | plain _ _ h2 _ => exact h2 rfl
  · show (match Stream.eat (['ï', '»', '¿'] ++ text) ['ï', '»', '¿'] with | some s => s | none => ['ï', '»', '¿'] ++ text) = text
    rw [Stream.eat_append]

theorem begun_look {text rest : List Char} {s : FS Char} (hR : Big (fun _ => True) text s) (hb : Spec.File.Begun text rest)
    (hlen : 2 ≤ text.length → 2 ≤ s.data.length - s.index) : (∃ k s', look s c!"<?" = .ok (k, s') ∧
      notZero k = (Parse.notZero (Stream.inspect text c!"<?") text).isSome ∧
      Big (fun _ => True) ((Parse.notZero (Stream.inspect text c!"<?") text).getD text) s') ∧
      (Parse.notZero (Stream.inspect text c!"<?") text = none ∧ rest = text ∨
      ∃ l1, Parse.notZero (Stream.inspect text c!"<?") text = some l1 ∧ Decl l1 rest) := by
  have hP0 : ∀ {a b : List Char}, b <:+ a → True → True := fun _ _ => trivial
  cases hb with
  | plain _ h1 h2 h3 =>
    have hno : Stream.inspect text c!"<?" = .no := by
      unfold Stream.inspect
      rw [if_neg (by simp; omega), if_neg (by simpa using h3)]
    obtain ⟨k, s', e1, m1, -, -⟩ := (big_reads hP0).look c!"<?" true hR (by decide)
    rw [eat_none_iff.2 h3] at m1
    refine ⟨⟨k, s', e1, ?_, by rw [hno]; exact m1.2⟩, .inl ⟨by rw [hno]; rfl, rfl⟩⟩
    rw [hno]
    have hlen := hlen h1
    unfold FileStream.inspect at e1
    rw [if_neg (by simp; omega)] at e1
    unfold inspectHere at e1
    rcases m1.1 with rfl | rfl
    · rfl
    · split at e1 <;> simp at e1
  | declared w w' q _ h1 h2 h3 =>
    have hyes : Stream.inspect (c!"<?xml" ++ w ++ c!"version=" ++ w' ++ q ++ rest) c!"<?" =
        .yes (c!"xml" ++ (w ++ (c!"version=" ++ (w' ++ (q ++ rest))))) := by
      have := inspect_yes c!"<?" (c!"xml" ++ (w ++ (c!"version=" ++ (w' ++ (q ++ rest)))))
      rw [← this]
      simp
    refine ⟨notZero_one (big_reads hP0) hR c!"<?" (by decide) (.inr ⟨_, hyes⟩), .inr ?_⟩
    rw [hyes]
    exact ⟨_, rfl, w, w', q, h1, h2, h3, rfl⟩

/-- A file of any size is read as the same text in memory when that text is a document. -/
theorem read_big {mark text rest : List Char} {n : Nat} (hn : 12 ≤ n) (hm : mark = [] ∨ mark = Spec.File.mark)
    (hb : Spec.File.Begun text rest) (hrest : Spec.File.Simple rest) (ht : Spec.File.NoLead (mark ++ text))
    (hw : Spec.File.EndsWhite text) {d : Doc} (hp : Parse.parse (mark ++ text) = .ok d) :
    parseStream (FileStream.new ⟨mark ++ text, []⟩ n) = .ok d := by
  obtain ⟨s, e, hd, hbs, hu, hr, hi, hpl, hq, hx⟩ := opened (mark ++ text) (n := n) (by omega)
  have hbom := begun_bom hm hb
  rw [hbom] at hq hx
  have hP0 : ∀ {a b : List Char}, b <:+ a → True → True := fun _ _ => trivial
  have hR : Big (fun _ => True) text s := by
    refine ⟨hpl, hq, hr, by omega, ?_, trivial⟩
    obtain ⟨pre, c, h1, h2⟩ := hw
    exact .inr ⟨pre, c, (Stream.white_iff c).2 h1, h2⟩
  have hsuf : rest <:+ text := by
    cases hb with
    | plain => exact List.suffix_refl _
    | declared => exact List.suffix_append _ _
  have hlookup := begun_look hR hb (by
    intro h1
    rw [hd, List.length_take]
    have := congrArg List.length hx
    simp only [List.length_drop] at this
    omega)
  have hsim := document_sim (strict := False) (text := mark ++ text) (s := FileStream.new ⟨mark ++ text, []⟩ n)
    (R := Big Spec.File.Simple) (rest := rest) (big_reads hP0) (big_reads simple_suffix)
    big_multi (fun x => x.elim) (far := fun _ => False) (fun _ _ _ _ _ _ _ _ _ x => x.elim) hbom (by rw [e]; exact hR)
    (by rw [e]; exact hlookup.1) (.inr hlookup.2)
    (fun r s h hs => ⟨h.1, h.2.1, h.2.2.1, h.2.2.2.1, h.2.2.2.2.1, simple_suffix hs hrest⟩)
    (lead_suffix (List.suffix_append _ _) fun a b c d h1 h2 h3 h4 => .inl (ht a b c d h1 h2 h3 h4)) hsuf
  rw [hp] at hsim
  obtain ⟨d', e, rfl⟩ := hsim
  exact e

end FileParse
end Axl
