/-
Proofs about a DTD read from a file: one that fits in the buffer, and one that does not.
-/
import Verif.Proofs.DtdFile

namespace Axl
namespace DtdFile
open Str Dtd
open FileStream (FS Source Got memUntil Regular)
open Spec.FileStream (Plain pending unread)
open FileParse (Sim Reads Exact Multi Word ok_bind On left skip look eat peek untilOne Whole Big)

/-! ### All in the buffer -/

theorem matchAt_one {q c : Char} (hq : q ≠ ' ') (r : List Char) :
    Stream.matchAt [[q]] c r = if c = q then some (0, 1) else none := by
  have hc : ([[q]] : List (List Char)).contains [' '] = false := by simp [Ne.symm hq]
  unfold Stream.matchAt
  rw [hc]
  simp only [Bool.false_and, Bool.false_eq_true, if_false, Stream.firstChunk]
  by_cases h : c = q
  · subst h; simp [List.isPrefixOf, hq]
  · simp [List.isPrefixOf, h, Ne.symm h]

/-- A character that is in the buffer is found without reading. -/
theorem until_inside {q : Char} (hq : q ≠ ' ') {fuel2 : Nat} {rest : List Char} : ∀ (t : List Char) (fuel i : Nat) (s : FS Char),
    s.data.drop (s.index + i) = t ++ q :: rest → q ∉ t → t.length < fuel →
    FileStream.untilLoop 0 [[q]] 1 true (fuel2 + 1) fuel ((s.data.length : Int) - s.index - i) i s =
      .ok (some ⟨(s.data.drop s.index).take (i + t.length), 0⟩, { s with index := s.index + (i + t.length) + 1 }) := by
  intro t
  induction t with
  | nil =>
    intro fuel i s hd _ hf
    obtain ⟨fuel, rfl⟩ : ∃ f, fuel = f + 1 := ⟨fuel - 1, by omega⟩
    have hlen := congrArg List.length hd
    simp only [List.length_drop, List.length_append, List.length_cons, List.length_nil] at hlen
    unfold FileStream.untilLoop
    rw [if_neg (by omega)]
    unfold FileStream.scan FileStream.matchHere
    rw [hd]
    simp only [List.nil_append, matchAt_one hq, if_true]
    rw [if_neg (by omega)]
    simp [bind, Res.bind, FileStream.finish]
  | cons c t ih =>
    intro fuel i s hd ht hf
    obtain ⟨fuel, rfl⟩ : ∃ f, fuel = f + 1 := ⟨fuel - 1, by omega⟩
    have hlen := congrArg List.length hd
    simp only [List.length_drop, List.length_append, List.length_cons] at hlen
    have hne : c ≠ q := fun x => ht (by simp [x])
    unfold FileStream.untilLoop
    rw [if_neg (by omega)]
    unfold FileStream.scan FileStream.matchHere
    rw [hd]
    simp only [List.cons_append, matchAt_one hq, if_neg hne]
    have hd' : s.data.drop (s.index + (i + 1)) = t ++ q :: rest := by
      rw [← Nat.add_assoc, ← List.drop_drop, hd]
      rfl
    have := ih fuel (i + 1) s hd' (fun x => ht (List.mem_cons_of_mem _ x)) (by simp at hf; omega)
    have he : ((s.data.length : Int) - s.index - (i + 1 : Nat)) = (s.data.length : Int) - s.index - i - 1 := by omega
    rw [he] at this
    rw [ok_bind]
    simp only
    rw [this]
    simp only [List.length_cons]
    have h1 : i + 1 + t.length = i + (t.length + 1) := by omega
    rw [h1]

theorem until_one {q : Char} (hq : q ≠ ' ') {l : List Char} {f : Stream.Found} (h : Stream.getUntil [[q]] l = some f) :
    l = f.text ++ q :: f.after ∧ q ∉ f.text ∧ f.chunk = 0 := by
  obtain ⟨c, r, n, h1, h2, h3, h4, h5⟩ := Stream.getUntil_some h
  rw [matchAt_one hq] at h3
  split at h3
  · rename_i hc
    subst hc
    simp only [Option.some.injEq, Prod.mk.injEq] at h3
    refine ⟨?_, ?_, h3.1.symm⟩
    · rw [h2, h4, ← h3.2]
      rfl
    · intro hm
      obtain ⟨x, y, hx⟩ := List.append_of_mem hm
      have := h5 x c y hx
      rw [matchAt_one hq] at this
      simp at this
  · simp at h3

theorem push_whole {l : List Char} {s : FS Char} (h : Whole l s) (content : List Char) : Whole (content ++ l) (push s content) := by
  obtain ⟨hp, hl, hu⟩ := h
  have hdat : s.data.drop s.index = l := by rw [← hl]; simp [pending, hu]
  have hsz := hp.size
  have hi := hp.index
  unfold push
  simp only
  split
  · rename_i hlt
    refine ⟨⟨hp.decoder, hp.check, hp.expand, Nat.zero_le _, Nat.le_refl _, ?_⟩, ?_, hu⟩
    · show 0 < (content ++ s.data.drop s.index).length
      omega
    · simp [pending, hu, hdat]
  · rename_i hge
    refine ⟨⟨hp.decoder, hp.check, hp.expand, Nat.zero_le _, ?_, hp.room⟩, ?_, hu⟩
    · show (content ++ s.data.drop s.index).length ≤ s.bufSize
      omega
    · simp [pending, hu, hdat]

theorem whole_expand (d : Dtd) {l : List Char} {s : FS Char} (hR : Whole l s) :
    Sim True Whole (Dtd.expand d l) (expand d s) := by
  unfold expand Dtd.expand
  rcases eat_step FileParse.whole_reads hR c!"%" (by decide) with ⟨r, s1, e, f, m⟩ | ⟨s1, e, f, m⟩
  · have hl : l = '%' :: r := (FileStream.eat_some_iff.1 e)
    obtain ⟨hp, hpl, hu⟩ := hR
    have hdat : s.data.drop s.index = '%' :: r := by rw [← hl, ← hpl]; simp [pending, hu]
    have hlen := congrArg List.length hdat
    simp only [List.length_drop, List.length_cons] at hlen
    have hs1 : s1 = { s with index := s.index + 1 } := by
      have : eat s c!"%" = .ok (true, { s with index := s.index + 1 }) := by
        unfold eat look FileStream.inspect
        rw [if_neg (by simp only [List.length_cons, List.length_nil]; omega)]
        unfold FileStream.inspectHere
        rw [hdat]
        simp [FileStream.compare, bind, Res.bind]
      rw [this] at f
      simp only [Res.ok.injEq, Prod.mk.injEq, true_and] at f
      exact f.symm
    simp only [e, f, ok_bind, if_true]
    cases hg : Stream.getUntil [c!";"] r with
    | none =>
      obtain ⟨s2, e2, m2⟩ := FileParse.whole_until [c!";"] true m
      rw [e2, ok_bind]
      simp only [memUntil, hg]
      exact Sim.error
    | some g =>
      obtain ⟨h1, h2, h3⟩ := until_one (q := ';') (by decide) hg
      have hd1 : s1.data.drop s1.index = r := by
        rw [hs1]
        show s.data.drop (s.index + 1) = r
        rw [← List.drop_drop, hdat]
        rfl
      have hu2 : untilOne [c!";"] true s1 = .ok (some ⟨g.text, 0⟩, { s1 with index := s1.index + g.text.length + 1 }) := by
        have := until_inside (q := ';') (by decide) (fuel2 := 2 * left s1) (rest := g.after) g.text (2 * left s1 + 1) 0 s1
          (by rw [Nat.add_zero, hd1, h1]) h2 (by
            rw [FileParse.whole_reads.left m, h1]
            simp
            omega)
        unfold untilOne FileStream.getUntil
        have hm : FileStream.maxLength [c!";"] = 1 := rfl
        rw [hm]
        have he : ((s1.data.length : Int) - s1.index) = (s1.data.length : Int) - s1.index - (0 : Nat) := by omega
        rw [he, this]
        simp only [Nat.zero_add]
        rw [hd1, h1]
        simp
      rw [hu2, ok_bind]
      simp only
      cases hv : d.entityValue (toStr g.text) .parameter with
      | none =>
        refine Sim.ok ?_
        rw [hs1]
        show Whole l s
        exact ⟨hp, hpl, hu⟩
      | some v =>
        refine Sim.ok ?_
        have hW : Whole g.after { s1 with index := s1.index + g.text.length + 1 } := by
          obtain ⟨p1, -, u1⟩ := m
          have hl1 : s1.data.length = s1.index + r.length := by
            have := congrArg List.length hd1
            have := p1.index
            simp only [List.length_drop] at *
            omega
          have hrl := congrArg List.length h1
          simp only [List.length_append, List.length_cons] at hrl
          refine ⟨⟨p1.decoder, p1.check, p1.expand, ?_, p1.size, p1.room⟩, ?_, u1⟩
          · show s1.index + g.text.length + 1 ≤ s1.data.length
            omega
          · simp only [pending, u1, List.append_nil]
            rw [Nat.add_assoc, ← List.drop_drop, hd1, h1]
            simp [List.drop_append]
        have := push_whole hW (v ++ [' '])
        simpa using this
  · simp only [e, f, ok_bind, Bool.false_eq_true, if_false]
    exact Sim.ok m

theorem whole_more : More True Whole where
  reads := FileParse.whole_reads
  multi := FileParse.whole_multi
  ended := by
    rintro s chunk ⟨hp, hl, hu⟩ hc
    obtain ⟨a, s', e, hsh⟩ := FileParse.inspect_ended hp hu chunk true
    obtain ⟨b, c⟩ := FileStream.inspect_plain 0 hp chunk true e
    have hshort : Stream.inspect (pending s) chunk = .short := by
      unfold Stream.inspect
      rw [hl, if_pos (by simpa using List.length_pos_iff.2 hc)]
    have ha := hsh.2 hshort
    subst ha
    have he : Stream.eat (pending s) chunk = none := by simp [Stream.eat, hshort]
    simp only [FileStream.Sees, he] at c
    exact ⟨s', e, b, by rw [c.2, hl], (FileStream.inspect_step hp e).1.ended hu⟩
  space := by
    intro l s chunks accept h _ _
    exact .inl (FileParse.whole_until chunks accept h)
  expand := fun d _ _ h => whole_expand d h

/-- A file that fits in the buffer is read as the same text in memory. -/
theorem read_small (fuel : Nat) {text : List Char} {n : Nat} (hn : 0 < n) (hsize : text.length ≤ n) :
    parseStream fuel (FileStream.new ⟨text, []⟩ n) = Dtd.parse fuel text := by
  obtain ⟨fd, e, hu, -⟩ := FileParse.new_eq text hn
  have hR : Whole text (FileStream.new ⟨text, []⟩ n) := by
    rw [e]
    have hu : unread fd = [] := by rw [hu]; simpa using hsize
    refine ⟨⟨rfl, fun _ _ => rfl, rfl, Nat.zero_le _, ?_, hn⟩, ?_, hu⟩
    · show (text.take n).length ≤ n
      simp only [List.length_take]; omega
    · simp [pending, hu, List.take_of_length_le hsize]
  have hsim := parse_sim whole_more fuel hR
  cases hx : Dtd.parse fuel text with
  | ok d =>
    rw [hx] at hsim
    obtain ⟨d', e, rfl⟩ := hsim
    exact e
  | error => rw [hx] at hsim; exact hsim trivial
  | ub => rw [hx] at hsim; exact hsim trivial
  | loop => rw [hx] at hsim; exact hsim trivial

/-! ### More than the buffer -/

/-- No comment, instruction or CDATA section begins in the text, and no `%` is in it. -/
def Bare (l : List Char) : Prop := Spec.File.Simple l ∧ '%' ∉ l

theorem bare_suffix {a b : List Char} (h : b <:+ a) (ha : Bare a) : Bare b :=
  ⟨FileParse.simple_suffix h ha.1, fun x => ha.2 (h.subset x)⟩

theorem match_white {chunks : List (List Char)} (hm : [' '] ∈ chunks) {c : Char} (hw : isWhite c = true) (r : List Char) :
    Stream.matchAt chunks c r = some (chunks.idxOf [' '], 1) := by
  unfold Stream.matchAt
  rw [if_pos]
  simp [hw, hm]

theorem big_more : More False (Big Bare) where
  reads := FileParse.big_reads bare_suffix
  multi := by
    refine .inr ?_
    rintro l s ⟨-, -, -, -, -, ⟨h1, h2, h3⟩, -⟩
    refine ⟨FileStream.eat_none_iff.2 fun x => h1 x.isInfix, FileStream.eat_none_iff.2 fun x => h2 x.isInfix, FileStream.eat_none_iff.2 fun x => h3 x.isInfix⟩
  ended := by
    intro s chunk h hc
    have hp := h.1
    have hl := h.2.1
    have hu : unread s.fd = [] := by
      simp only [pending, List.append_eq_nil_iff] at hl
      exact hl.2
    obtain ⟨a, s', e, hsh⟩ := FileParse.inspect_ended hp hu chunk true
    obtain ⟨b, c⟩ := FileStream.inspect_plain 0 hp chunk true e
    have hshort : Stream.inspect (pending s) chunk = .short := by
      unfold Stream.inspect
      rw [hl, if_pos (by simpa using List.length_pos_iff.2 hc)]
    have ha := hsh.2 hshort
    subst ha
    have he : Stream.eat (pending s) chunk = none := by simp [Stream.eat, hshort]
    simp only [FileStream.Sees, he] at c
    exact ⟨s', e, FileParse.big_next bare_suffix h b (by rw [c.2, hl]) (FileStream.inspect_step hp e).1 (List.suffix_refl _)⟩
  space := by
    intro l s chunks accept h hc hm
    have hp := h.1
    have hl := h.2.1
    subst hl
    obtain ⟨got, s', e, a, b⟩ := C44_until_character_partial 0 hp (chunks := chunks)
      (fun c hx => by
        rcases hc c hx with rfl | ⟨h1, -⟩
        · rfl
        · exact h1) accept (fuel := 2 * left s + 1) (by rw [FileParse.left_pending hp]; omega)
    have hst := FileStream.getUntil_step hp e
    cases hg : Stream.getUntil chunks (pending s) with
    | none =>
      rw [hg] at b
      refine .inl ⟨s', by simp only [memUntil, hg]; rw [← b.1]; exact e, ?_⟩
      simp only [memUntil, hg]
      exact FileParse.big_next bare_suffix h a b.2 hst (List.suffix_refl _)
    | some f =>
      rw [hg] at b
      rcases b with b | ⟨b1, b2⟩
      · refine .inr ⟨id, f, rfl, ?_⟩
        obtain ⟨c, r, n, h1, h2, h3, h4, -⟩ := Stream.getUntil_some hg
        rw [h1] at b
        have hr : r = [] := by simpa using b
        subst hr
        rcases h.2.2.2.2.1 with ht | ⟨pre, d, hd, ht⟩
        · rw [ht] at h2; simp at h2
        · rw [ht] at h2
          have := (List.append_inj' h2 rfl).2
          simp only [List.cons.injEq, and_true] at this
          subst this
          rw [match_white hm hd] at h3
          simp only [Option.some.injEq, Prod.mk.injEq] at h3
          refine ⟨h3.1.symm, ?_, ?_⟩
          · rw [h1]; simp [Stream.skip, List.dropWhile, hd]
          · rw [h4, ← h3.2]; rfl
      · refine .inl ⟨s', by simp only [memUntil, hg]; rw [← b1]; exact e, ?_⟩
        simp only [memUntil, hg]
        refine FileParse.big_next bare_suffix h a b2 hst ?_
        split
        · exact (Parse.found_suf hg).1
        · exact (Parse.found_suf hg).2
  expand := by
    intro d l s h
    unfold expand Dtd.expand
    rcases eat_step (FileParse.big_reads bare_suffix) h c!"%" (by decide) with ⟨r, s1, e, -, -⟩ | ⟨s1, e, f, m⟩
    · exfalso
      have hl : l = '%' :: r := (FileStream.eat_some_iff.1 e)
      exact h.2.2.2.2.2.2 (by rw [hl]; exact List.mem_cons_self)
    · simp only [e, f, ok_bind, Bool.false_eq_true, if_false]
      exact Sim.ok m

/-- A file of any size is read as the same text in memory when that text is a DTD. -/
theorem read_big (fuel : Nat) {text : List Char} {n : Nat} (hn : 12 ≤ n) (hb : Bare text) (hw : Spec.File.EndsWhite text) {d : Dtd}
    (hp : Dtd.parse fuel text = .ok d) : parseStream fuel (FileStream.new ⟨text, []⟩ n) = .ok d := by
  obtain ⟨fd, e, hu, hs⟩ := FileParse.new_eq text (n := n) (by omega)
  have hR : Big Bare text (FileStream.new ⟨text, []⟩ n) := by
    rw [e]
    refine ⟨⟨rfl, fun _ _ => rfl, rfl, Nat.zero_le _, ?_, show 0 < n by omega⟩, ?_, hs, hn, ?_, hb⟩
    · show (text.take n).length ≤ n
      simp only [List.length_take]; omega
    · simp [pending, hu]
    · obtain ⟨pre, c, h1, h2⟩ := hw
      exact .inr ⟨pre, c, (Stream.white_iff c).2 h1, h2⟩
  have hsim := parse_sim big_more fuel hR
  rw [hp] at hsim
  obtain ⟨d', e, rfl⟩ := hsim
  exact e

end DtdFile
end Axl
