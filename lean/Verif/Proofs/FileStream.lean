/-
Proofs about the stream that reads from a file.
-/
import Verif.Spec.FileStream
import Verif.Proofs.Single

namespace Axl
namespace FileStream
open Spec.FileStream

variable {α : Type}

theorem read_spec (src : Source α) (room : Nat) (hr : 0 < room) :
    (src.read room).1 ++ (src.read room).2.rest = src.rest ∧
    (src.read room).1.length ≤ room ∧ ((src.read room).1 = [] ↔ src.rest = []) := by
  obtain ⟨rest, sizes⟩ := src
  cases sizes with
  | nil =>
    simp only [Source.read]
    refine ⟨by simp, by simp; omega, ?_⟩
    cases rest <;> simp; omega
  | cons n ns =>
    simp only [Source.read]
    refine ⟨by simp, by simp; omega, ?_⟩
    cases rest <;> simp; omega

/-- The place made keeps what is not consumed. -/
theorem shift_spec (s : FS α) (hi : s.index ≤ s.data.length) (hs : s.data.length ≤ s.bufSize)
    (hb : 0 < s.bufSize) (he : s.expand = true → s.index = 0) :
    (shift s).data = s.data.drop s.index ∧ (shift s).index = 0 ∧
    (shift s).data.length < (shift s).bufSize ∧ s.bufSize ≤ (shift s).bufSize ∧
    (shift s).fd = s.fd ∧ (shift s).decoder = s.decoder ∧ (shift s).temp = s.temp ∧
    (shift s).tempSize = s.tempSize ∧ (shift s).check = s.check ∧
    ((shift s).expand = true → s.expand = true) := by
  unfold shift
  split
  · rename_i h
    refine ⟨rfl, rfl, ?_, Nat.le_refl _, rfl, rfl, rfl, rfl, rfl, id⟩
    simp; omega
  · rename_i h
    split
    · rename_i h2
      have h0 : s.index = 0 := by
        rcases h2 with h2 | h2
        · exact h2.2
        · exact he h2
      refine ⟨by simp [h0], rfl, by simp; omega, by simp, rfl, rfl, rfl, rfl, rfl, by simp⟩
    · rename_i h2
      refine ⟨?_, rfl, ?_, Nat.le_refl _, rfl, rfl, rfl, rfl, rfl, id⟩
      · simp only
        split
        · rename_i h3; simp [h3]
        · have : s.index = 0 := by omega
          simp [this]
      · simp only
        split
        · simpa using hb
        · have : s.index = 0 := by omega
          have : s.data.length ≠ s.bufSize := fun e => h2 (.inl ⟨e, this⟩)
          omega

/-- One refill without decoder. -/
theorem prebuffer_plain (junk : Nat) {s : FS α} (h : Plain s) :
    ∃ more s', prebuffer junk s = .ok (more, s') ∧ Plain s' ∧ pending s' = pending s ∧
      (more = true → s'.index = 0 ∧ s'.fd.isSome ∧ ∃ bytes, bytes ≠ [] ∧ s'.data = s.data.drop s.index ++ bytes ∧
        unread s.fd = bytes ++ unread s'.fd) ∧
      (more = false → s'.fd = none ∧ unread s.fd = [] ∧ s'.data.drop s'.index = s.data.drop s.index) := by
  unfold prebuffer
  cases hf : s.fd with
  | none => exact ⟨false, s, rfl, h, rfl, by simp, fun _ => ⟨hf, rfl, rfl⟩⟩
  | some src =>
    simp only [h.decoder]
    obtain ⟨hd, hi, hl, hb, hfd, hdec, -, -, hc, he⟩ := shift_spec s h.index h.size h.room (by simp [h.expand])
    obtain ⟨r1, r2, r3⟩ := read_spec src ((shift s).bufSize - (shift s).data.length) (by omega)
    have hacc : accepts (shift s) (src.read ((shift s).bufSize - (shift s).data.length)).1 = true := by
      have := h.check (src.read ((shift s).bufSize - (shift s).data.length)).1 (by
        rw [hf]; exact ⟨[], _, by simpa [unread] using r1⟩)
      simpa [accepts, hc] using this
    have hkeep : ∀ bytes, bytes <:+: (src.read ((shift s).bufSize - (shift s).data.length)).2.rest → accepts (shift s) bytes = true := by
      rintro bytes ⟨a, b, e⟩
      have := h.check bytes (by
        rw [hf]
        refine ⟨(src.read ((shift s).bufSize - (shift s).data.length)).1 ++ a, b, ?_⟩
        simp only [unread]
        rw [← r1, ← e]; simp)
      simpa [accepts, hc] using this
    have hexp : (shift s).expand = false := by
      cases hx : (shift s).expand with
      | false => rfl
      | true => exact absurd (he hx) (by simp [h.expand])
    have hb0 := h.room
    simp only [readPlain, hacc, Bool.not_true, Bool.false_eq_true, if_false]
    split
    · rename_i hemp
      have hnil := r3.1 (by simpa using hemp)
      refine ⟨false, _, rfl, ⟨?_, ?_, hexp, ?_, ?_, ?_⟩, ?_, by simp, fun _ => ⟨rfl, hnil, ?_⟩⟩
      · simp [hdec, h.decoder]
      · intro bytes hb
        have hb : bytes = [] := by simpa [unread] using hb
        subst hb
        exact hkeep [] ⟨[], _, rfl⟩
      · simp [hi]
      · simp; omega
      · simp; omega
      · simp [pending, unread, hd, hi, hnil, hf]
      · simp [hd, hi]
    · rename_i hemp
      refine ⟨true, _, rfl, ⟨?_, ?_, hexp, ?_, ?_, ?_⟩, ?_, fun _ => ⟨hi, rfl, _, ?_, ?_, r1.symm⟩, by simp⟩
      · simp [hdec, h.decoder]
      · exact hkeep
      · simp [hi]
      · simp; omega
      · simp; omega
      · simp [pending, unread, hd, hi, hf, ← r1]
      · simpa using hemp
      · simp [hd]

/-! ### Decoding -/

/-- The stream in the loop: at the beginning of the buffer. -/
structure InLoop (f : Decoder α) (g : α → List α) (s : FS α) : Prop where
  decodes : Decodes f g
  bytes   : ∀ v, 1 ≤ (g v).length
  index   : s.index = 0
  size    : s.data.length ≤ s.bufSize
  temp    : 0 < s.tempSize
  closed  : s.fd = none → s.temp = []

theorem flatMap_pos {g : α → List α} (hg : ∀ v, 1 ≤ (g v).length) {l : List α} (h : l ≠ []) :
    0 < (l.flatMap g).length := by
  cases l with
  | nil => exact absurd rfl h
  | cons v l => have := hg v; simp; omega

/-- What the loop keeps and what it gets. -/
structure Loops (f : Decoder α) (g : α → List α) (s s' : FS α) : Prop where
  inLoop  : InLoop f g s'
  pending : pendingDecoded g s' = pendingDecoded g s
  bufSize : s'.bufSize = s.bufSize
  decoder : s'.decoder = s.decoder
  grows   : ∃ more, s'.data = s.data ++ more

theorem Loops.refl {f : Decoder α} {g : α → List α} {s : FS α} (h : InLoop f g s) : Loops f g s s :=
  ⟨h, rfl, rfl, rfl, [], by simp⟩

theorem Loops.trans {f : Decoder α} {g : α → List α} {s t u : FS α} (h : Loops f g s t) (h' : Loops f g t u) :
    Loops f g s u := by
  obtain ⟨m, hm⟩ := h.grows
  obtain ⟨n, hn⟩ := h'.grows
  exact ⟨h'.inLoop, h'.pending.trans h.pending, h'.bufSize.trans h.bufSize, h'.decoder.trans h.decoder,
    m ++ n, by simp [hm, hn]⟩

/-- One call to the decoder. -/
theorem decode_spec {f : Decoder α} {g : α → List α} {s : FS α} (h : InLoop f g s) (hfd : s.fd.isSome)
    (ht : s.temp ≠ []) :
    ∃ op s', decode f s = .ok (op, s') ∧ Loops f g s s' ∧ s'.fd = s.fd ∧
      (op = 1 ∧ s'.temp = [] ∧ s.data.length < s'.data.length ∨
       op = 2 ∧ s'.temp ≠ [] ∧ (s.data.length < s'.data.length ∨ s'.expand = true ∧
        ∃ v, s.bufSize < s.data.length + max 1 (g v).length)) := by
  obtain ⟨taken, rest, e1, e2, e3, e4⟩ := h.decodes s.temp (s.bufSize - s.data.length)
  have hi := h.index
  have hs := h.size
  simp only [decode, e2]
  cases rest with
  | nil =>
    simp only [List.append_nil] at e1
    refine ⟨1, _, rfl, ⟨⟨h.decodes, h.bytes, hi, ?_, h.temp, ?_⟩, ?_, rfl, rfl, _, rfl⟩, rfl, .inl ⟨rfl, rfl, ?_⟩⟩
    · simp only [List.length_append]; omega
    · intro e; simp only at e; simp [e] at hfd
    · simp [pendingDecoded, hi, e1]
    · have := flatMap_pos h.bytes (e1 ▸ ht)
      simp only [List.length_append]; omega
  | cons v rest =>
    refine ⟨2, _, rfl, ⟨⟨h.decodes, h.bytes, hi, ?_, h.temp, ?_⟩, ?_, rfl, rfl, _, rfl⟩, rfl, .inr ⟨rfl, by simp, ?_⟩⟩
    · simp only [List.length_append]; omega
    · intro e; simp only at e; simp [e] at hfd
    · simp [pendingDecoded, hi, e1]
    · have := e4 v (by simp)
      cases ho : taken.flatMap g with
      | nil =>
        rw [ho] at this
        simp only [List.length_nil] at this
        exact .inr ⟨by simp, v, by omega⟩
      | cons x xs => exact .inl (by simp)

theorem readTemp_spec {f : Decoder α} {g : α → List α} {s : FS α} (h : InLoop f g s) (ht : s.temp = []) :
    Loops f g s (readTemp s) ∧ (readTemp s).data = s.data ∧
      ((readTemp s).temp = [] ↔ (readTemp s).fd = none) ∧
      (unread s.fd = [] ↔ (readTemp s).fd = none) := by
  have hr := h.temp
  unfold readTemp
  cases hfd : s.fd with
  | none => exact ⟨Loops.refl h, rfl, by simp [hfd, ht], by simp [unread, hfd]⟩
  | some src =>
    obtain ⟨r1, r2, r3⟩ := read_spec src (s.tempSize - s.temp.length) (by rw [ht]; simpa using hr)
    simp only
    split
    · rename_i hemp
      have hn := r3.1 (by simpa using hemp)
      refine ⟨⟨⟨h.decodes, h.bytes, h.index, h.size, h.temp, fun _ => ht⟩, ?_, rfl, rfl, [], by simp⟩, rfl,
        by simp [ht], by simp [unread, hn]⟩
      simp [pendingDecoded, unread, hfd, hn]
    · rename_i hemp
      have hne : (src.read (s.tempSize - s.temp.length)).1 ≠ [] := by simpa using hemp
      refine ⟨⟨⟨h.decodes, h.bytes, h.index, h.size, h.temp, by simp⟩, ?_, rfl, rfl, [], by simp⟩, rfl, ?_, ?_⟩
      · simp only [pendingDecoded, unread, hfd, ← r1]
        simp
      · simp only [reduceCtorEq, iff_false]
        simp [hne]
      · simp only [reduceCtorEq, iff_false, unread]
        exact fun e => hne (r3.2 e)

/-- The loop ends and keeps what is not consumed.  `room`: how many bytes a character may have. -/
theorem decodeLoop_spec {f : Decoder α} {g : α → List α} {K : Nat} (hK : ∀ v, (g v).length ≤ K) :
    ∀ (fuel op : Nat) (s : FS α), InLoop f g s → s.fd.isSome → op ≠ 2 → s.data.length < s.bufSize ∨ s.temp ≠ [] →
      (s.bufSize - s.data.length) + 2 + (if s.temp = [] then 1 else 0) ≤ fuel →
      ∃ s', decodeLoop f fuel op s = .ok (true, s') ∧ Loops f g s s' ∧
        (s'.fd = none ∨ s.data.length < s'.data.length ∨ s'.expand = true ∧ s.bufSize < s.data.length + max 1 K) := by
  intro fuel
  induction fuel with
  | zero => intro op s _ _ _ _ hf; omega
  | succ fuel ih =>
    intro op s h hfd hop hroom hf
    -- after the call to the decoder, if there is one
    have tail : ∀ (op : Nat) (t : FS α), op ≠ 2 → Loops f g s t → t.fd.isSome → t.temp = [] →
        s.data.length < t.data.length ∨ t.data.length < t.bufSize ∧ s.data = t.data →
        (t.bufSize - t.data.length) + 2 ≤ fuel →
        ∃ s', (if op = 2 then Res.ok (true, t)
          else if t.data.length < t.bufSize then
            if (readTemp t).temp.isEmpty && (readTemp t).fd.isNone then .ok (true, readTemp t)
            else decodeLoop f fuel op (readTemp t)
          else .ok (true, t)) = .ok (true, s') ∧ Loops f g s s' ∧
          (s'.fd = none ∨ s.data.length < s'.data.length ∨ s'.expand = true ∧ s.bufSize < s.data.length + max 1 K) := by
      intro op t hop2 hst htfd htt hgr hfu
      obtain ⟨q1, q2, q3, q4⟩ := readTemp_spec hst.inLoop htt
      simp only [hop2, if_false]
      split
      · rename_i hlt
        split
        · rename_i hend
          have hnone : (readTemp t).fd = none := by
            simp at hend; exact hend.2
          exact ⟨_, rfl, hst.trans q1, .inl hnone⟩
        · rename_i hend
          have hne : (readTemp t).temp ≠ [] := by
            intro e
            apply hend
            simp [e, q3.1 e]
          have hsome : (readTemp t).fd.isSome := by
            cases hx : (readTemp t).fd with
            | none => exact absurd (q3.2 hx) hne
            | some _ => rfl
          obtain ⟨s', e1, e2, e3⟩ := ih op (readTemp t) q1.inLoop hsome hop2 (.inr hne) (by
            simp only [hne, if_false]
            rw [q2, q1.bufSize]
            omega)
          refine ⟨s', e1, (hst.trans q1).trans e2, ?_⟩
          rcases e3 with e3 | e3 | e3
          · exact .inl e3
          · right; left
            rw [q2] at e3
            rcases hgr with hgr | hgr
            · omega
            · rw [hgr.2]; exact e3
          · rw [q2, q1.bufSize, hst.bufSize] at e3
            obtain ⟨m, hm⟩ := e2.grows
            have hl : (readTemp t).data.length ≤ s'.data.length := by rw [hm]; simp
            rw [q2] at hl
            rcases hgr with hgr | hgr
            · right; left; omega
            · right; right; exact ⟨e3.1, by rw [hgr.2]; exact e3.2⟩
      · rename_i hlt
        refine ⟨t, rfl, hst, ?_⟩
        rcases hgr with hgr | hgr
        · exact .inr (.inl hgr)
        · exact absurd hgr.1 hlt
    have hbind : decodeLoop f (fuel + 1) op s = Res.bind (decodeIf f op s)
      fun x => if x.1 = 2 then Res.ok (true, x.2)
          else if x.2.data.length < x.2.bufSize then
            if (readTemp x.2).temp.isEmpty && (readTemp x.2).fd.isNone then .ok (true, readTemp x.2)
            else decodeLoop f fuel x.1 (readTemp x.2)
          else .ok (true, x.2) := rfl
    rw [hbind]
    unfold decodeIf
    by_cases ht : s.temp = []
    · simp only [ht, List.isEmpty_nil, if_true, Res.bind]
      rcases hroom with hroom | hroom
      · exact tail op s hop (Loops.refl h) hfd ht (.inr ⟨hroom, rfl⟩) (by simp only [ht, if_true] at hf; omega)
      · exact absurd ht hroom
    · have : s.temp.isEmpty = false := by simpa using ht
      simp only [this, Bool.false_eq_true, if_false]
      obtain ⟨op', t, d1, d2, d3, d4⟩ := decode_spec h hfd ht
      rw [d1]
      simp only [Res.bind]
      rcases d4 with ⟨o, t1, t2⟩ | ⟨o, t1, t2⟩
      · subst o
        simp only [ht, if_false] at hf
        exact tail 1 t (by omega) d2 (d3 ▸ hfd) t1 (.inl t2) (by
          rw [d2.bufSize]
          have := d2.inLoop.size
          rw [d2.bufSize] at this
          omega)
      · subst o
        refine ⟨t, rfl, d2, ?_⟩
        rcases t2 with t2 | ⟨t2, v, t3⟩
        · exact .inr (.inl t2)
        · have := hK v
          exact .inr (.inr ⟨t2, by omega⟩)

/-- One refill with decoder. -/
theorem prebuffer_decoding {junk K : Nat} (hj : junk ≠ 2) {f : Decoder α} {g : α → List α} {s : FS α}
    (hK : ∀ v, (g v).length ≤ K) (h : Decoding f g s) (he : s.expand = true → s.index = 0) :
    ∃ more s', prebuffer junk s = .ok (more, s') ∧ Decoding f g s' ∧
      pendingDecoded g s' = pendingDecoded g s ∧ s.bufSize ≤ s'.bufSize ∧
      (more = false → s.fd = none ∧ s' = s) ∧
      (more = true → s'.index = 0 ∧ s.data.length - s.index ≤ s'.data.length ∧
        (s'.fd = none ∨ s.data.length - s.index < s'.data.length ∨
          s'.expand = true ∧ (shift s).bufSize < s.data.length - s.index + max 1 K)) := by
  unfold prebuffer
  cases hf : s.fd with
  | none => exact ⟨false, s, rfl, h, rfl, Nat.le_refl _, fun _ => ⟨rfl, rfl⟩, by simp⟩
  | some src =>
    simp only [h.decoder]
    obtain ⟨hd, hi, hl, hb, hfd, hdec, htemp, hts, -, -⟩ := shift_spec s h.index h.size h.room he
    have hloop : InLoop f g (shift s) := ⟨h.decodes, h.bytes, hi, by omega, by rw [hts]; exact h.temp,
      by rw [hfd, htemp]; exact h.closed⟩
    obtain ⟨s', e1, e2, e3⟩ := decodeLoop_spec hK ((shift s).bufSize + 3) junk (shift s) hloop
      (by simp [hfd, hf]) hj (.inl hl) (by split <;> omega)
    have hr := h.room
    have hbs := e2.bufSize
    refine ⟨true, s', e1, ⟨?_, h.decodes, h.bytes, ?_, e2.inLoop.size, ?_, e2.inLoop.temp, e2.inLoop.closed⟩, ?_, ?_, by simp,
      fun _ => ⟨e2.inLoop.index, ?_, ?_⟩⟩
    · rw [e2.decoder, hdec, h.decoder]
    · rw [e2.inLoop.index]; omega
    · omega
    · rw [e2.pending]
      simp [pendingDecoded, hd, hi, hfd, htemp]
    · omega
    · obtain ⟨m, hm⟩ := e2.grows
      rw [hm, hd]
      simp
    · rw [hd] at e3
      simp only [List.length_drop] at e3
      rcases e3 with e3 | e3 | e3
      · exact .inl e3
      · exact .inr (.inl e3)
      · exact .inr (.inr e3)

/-- A reader gets the bytes in their order, and what it has not got is not lost. -/
theorem reads_spec {f : Decoder α} {g : α → List α} {K : Nat} (hK : ∀ v, (g v).length ≤ K) {s s' : FS α}
    {out : List α} (h : Reads s out s') (hs : Decoding f g s) :
    Decoding f g s' ∧ out ++ pendingDecoded g s' = pendingDecoded g s := by
  induction h with
  | done s => exact ⟨hs, by simp⟩
  | @take s s' out k hk next ih =>
    obtain ⟨a, b⟩ := ih ⟨hs.decoder, hs.decodes, hs.bytes, hk, hs.size, hs.room, hs.temp, hs.closed⟩
    refine ⟨a, ?_⟩
    rw [List.append_assoc, b]
    simp only [pendingDecoded, ← List.append_assoc]
    rw [← List.drop_drop, List.take_append_drop]
  | refill hj he hp next ih =>
    obtain ⟨more, s1, e1, e2, e3, -⟩ := prebuffer_decoding hj hK hs he
    rw [hp] at e1
    simp only [Res.ok.injEq, Prod.mk.injEq] at e1
    obtain ⟨-, rfl⟩ := e1
    obtain ⟨a, b⟩ := ih e2
    exact ⟨a, b.trans e3⟩

theorem shift_expand {s : FS α} (h0 : s.index = 0) (he : s.expand = true) :
    (shift s).bufSize = s.bufSize + s.bufSize := by
  simp [shift, h0, he]

/-- A reader of all gets all. -/
theorem gather_spec {f : Decoder α} {g : α → List α} {K : Nat} (hK : ∀ v, (g v).length ≤ K)
    (junk : Nat → Nat) (hj : ∀ n, junk n ≠ 2) :
    ∀ (n : Nat) (s : FS α), Decoding f g s → K ≤ s.bufSize → (s.expand = true → s.index = 0) →
      2 * ((pendingDecoded g s).length - (s.data.length - s.index)) + (if s.fd = none then 1 else 3) +
        (if s.expand = true then 0 else 1) ≤ n →
      gather junk n s = .ok (pendingDecoded g s) := by
  intro n
  induction n with
  | zero => intro s _ _ _ hn; split at hn <;> omega
  | succ n ih =>
    intro s h hk he hn
    obtain ⟨more, s', e1, e2, e3, e4, e5, e6⟩ := prebuffer_decoding (hj n) hK h he
    have hg : gather junk (n + 1) s = Res.bind (prebuffer (junk n) s)
      fun x => if x.1 then gather junk n x.2 else .ok (x.2.data.drop x.2.index) := rfl
    rw [hg, e1]
    simp only [Res.bind]
    cases more with
    | false =>
      obtain ⟨q1, q2⟩ := e5 rfl
      subst q2
      simp [pendingDecoded, q1, unread, h.closed q1]
    | true =>
      obtain ⟨q1, q0, q2⟩ := e6 rfl
      simp only [if_true]
      have hlen : s'.data.length ≤ (pendingDecoded g s').length := by simp [pendingDecoded, q1]
      have hlen2 : s.data.length - s.index ≤ (pendingDecoded g s).length := by simp [pendingDecoded]
      have hne : s.fd ≠ none := by
        intro e
        simp [prebuffer, e] at e1
      rw [e3] at hlen
      rw [← e3]
      apply ih s' e2 (by omega) (fun _ => q1)
      rw [e3, q1]
      simp only [hne, if_false] at hn
      by_cases hx : s.expand = true
      · simp only [hx, if_true] at hn
        have hb := shift_expand (he hx) hx
        have hsz := h.size
        have hr := h.room
        rcases q2 with q2 | q2 | q2
        · simp only [q2, if_true]
          split <;> omega
        · split <;> split <;> omega
        · omega
      · have hx' : s.expand = false := by simpa using hx
        simp only [hx', Bool.false_eq_true, if_false] at hn
        rcases q2 with q2 | q2 | q2
        · simp only [q2, if_true]
          split <;> omega
        · split <;> split <;> omega
        · simp only [q2.1, if_true]
          split <;> omega

end FileStream
end Axl
