/-
What the functions that read from a stream over a file never change for the worse: the size of the buffer, the
end of the file, the reads that give what they are asked for.
-/
import Verif.Proofs.FileRead

namespace Axl
namespace FileStream
open Spec.FileStream

/-- From a stream to another one after reading. -/
structure Step (s s' : FS Char) : Prop where
  regular : Regular s → Regular s'
  size    : s.bufSize ≤ s'.bufSize
  ended   : unread s.fd = [] → unread s'.fd = []

theorem Step.refl (s : FS Char) : Step s s := ⟨id, Nat.le_refl _, id⟩

theorem Step.trans {s t u : FS Char} (h : Step s t) (h' : Step t u) : Step s u :=
  ⟨fun a => h'.regular (h.regular a), Nat.le_trans h.size h'.size, fun a => h'.ended (h.ended a)⟩

theorem Step.index (s : FS Char) (i : Nat) : Step s { s with index := i } := ⟨id, Nat.le_refl _, id⟩

theorem shift_index (s : FS Char) : (shift s).index = 0 := by
  unfold shift
  split
  · rfl
  · split <;> rfl

theorem shift_size (s : FS Char) : s.bufSize ≤ (shift s).bufSize := by
  unfold shift
  split
  · exact Nat.le_refl _
  · split
    · simp
    · exact Nat.le_refl _

theorem read_step (src : Source Char) (room : Nat) :
    (src.sizes = [] → (src.read room).2.sizes = []) ∧ (src.rest = [] → (src.read room).2.rest = []) := by
  unfold Source.read
  split <;> rename_i h <;> simp [h] <;> intro he <;> simp [he]

/-- A refill without decoder. -/
theorem prebuffer_step {junk : Nat} {s s' : FS Char} {more : Bool} (hd : s.decoder = none)
    (h : prebuffer junk s = .ok (more, s')) : Step s s' ∧ s'.index ≤ s.index := by
  unfold prebuffer at h
  cases hf : s.fd with
  | none =>
    simp only [hf, Res.ok.injEq, Prod.mk.injEq] at h
    rw [← h.2]
    exact ⟨Step.refl s, Nat.le_refl _⟩
  | some src =>
    simp only [hf, hd, readPlain, Res.ok.injEq] at h
    obtain ⟨r1, r2⟩ := read_step src ((shift s).bufSize - (shift s).data.length)
    split at h
    · simp only [Prod.mk.injEq] at h
      rw [← h.2]
      refine ⟨⟨?_, shift_size s, ?_⟩, by simp [shift_index]⟩
      · intro hr x hx
        simp only [Option.some.injEq] at hx
        exact hx ▸ r1 (hr src hf)
      · intro he
        rw [hf] at he
        exact r2 he
    · split at h
      · simp only [Prod.mk.injEq] at h
        rw [← h.2]
        exact ⟨⟨fun _ x hx => by simp at hx, shift_size s, fun _ => rfl⟩, by simp [shift_index]⟩
      · simp only [Prod.mk.injEq] at h
        rw [← h.2]
        refine ⟨⟨?_, shift_size s, ?_⟩, by simp [shift_index]⟩
        · intro hr x hx
          simp only [Option.some.injEq] at hx
          exact hx ▸ r1 (hr src hf)
        · intro he
          rw [hf] at he
          exact r2 he

theorem remains_step {junk : Nat} {s s' : FS Char} {more : Bool} (hd : s.decoder = none)
    (h : remains junk s = .ok (more, s')) : Step s s' := by
  unfold remains at h
  split at h
  · exact (prebuffer_step hd h).1
  · simp only [Res.ok.injEq, Prod.mk.injEq] at h
    rw [← h.2]
    exact Step.refl s

theorem skip_step {junk : Nat} : ∀ (fuel : Nat) {s s' : FS Char}, Plain s →
    skip junk fuel s = .ok s' → Step s s' := by
  intro fuel
  induction fuel with
  | zero => intro s s' _ h; simp [skip] at h
  | succ fuel ih =>
    intro s s' hp h
    have go : ∀ (t : FS Char) (c : Char), Plain t → t.data[t.index]? = some c →
        (if Str.isWhite c then skip junk fuel { t with index := t.index + 1 } else Res.ok t) = .ok s' → Step t s' := by
      intro t c ht hc he
      split at he
      · exact (Step.index t _).trans (ih (plain_take ht (pending_cons hc).1) he)
      · simp only [Res.ok.injEq] at he
        exact he ▸ Step.refl t
    unfold skip at h
    split at h
    · rename_i c hc
      exact go s c hp hc h
    · obtain ⟨more, s1, e1, e2, -⟩ := prebuffer_plain junk hp
      have hs := (prebuffer_step hp.decoder e1).1
      rw [e1] at h
      simp only [bind, Res.bind] at h
      split at h
      · split at h
        · rename_i c hc
          exact hs.trans (go s1 c e2 hc h)
        · simp at h
      · simp only [Res.ok.injEq] at h
        exact h ▸ hs

/-- Without a white space there is nothing to skip. -/
theorem skip_index {junk fuel : Nat} {s s' : FS Char} (hp : Plain s) (hc : ∀ c, (pending s).head? = some c → Str.isWhite c = false)
    (h : skip junk fuel s = .ok s') : s'.index ≤ s.index := by
  cases fuel with
  | zero => simp [skip] at h
  | succ fuel =>
    unfold skip at h
    split at h
    · rename_i c hd
      rw [if_neg (by rw [hc c (by rw [(pending_cons hd).2]; rfl)]; simp)] at h
      simp only [Res.ok.injEq] at h
      exact h ▸ Nat.le_refl _
    · obtain ⟨more, s1, e1, e2, e3, -⟩ := prebuffer_plain junk hp
      have hs := (prebuffer_step hp.decoder e1).2
      rw [e1] at h
      simp only [bind, Res.bind] at h
      split at h
      · split at h
        · rename_i c hd
          rw [if_neg (by rw [hc c (by rw [← e3, (pending_cons hd).2]; rfl)]; simp)] at h
          simp only [Res.ok.injEq] at h
          exact h ▸ hs
        · simp at h
      · simp only [Res.ok.injEq] at h
        exact h ▸ hs

theorem inspectHere_step {s s' : FS Char} {chunk : List Char} {accept : Bool} {l : Stream.Look}
    (h : inspectHere s chunk accept = .ok (l, s')) :
    Step s s' ∧ ((l = .no ∨ l = .short ∨ accept = false) → s'.index ≤ s.index) := by
  unfold inspectHere at h
  split at h
  · simp at h
  · simp only [Res.ok.injEq, Prod.mk.injEq] at h
    rw [← h.2]
    exact ⟨Step.refl s, fun _ => Nat.le_refl _⟩
  · simp only [Res.ok.injEq, Prod.mk.injEq] at h
    rw [← h.2, ← h.1]
    split
    · rename_i ha
      exact ⟨Step.index s _, by simp [ha]⟩
    · exact ⟨Step.refl s, fun _ => Nat.le_refl _⟩

theorem inspect_step {junk : Nat} {s s' : FS Char} (hp : Plain s) {chunk : List Char} {accept : Bool} {l : Stream.Look}
    (h : inspect junk s chunk accept = .ok (l, s')) :
    Step s s' ∧ ((l = .no ∨ l = .short ∨ accept = false) → s'.index ≤ s.index) := by
  unfold inspect at h
  split at h
  · obtain ⟨more, s1, e1, e2, -⟩ := prebuffer_plain junk hp
    have hs := prebuffer_step hp.decoder e1
    rw [e1] at h
    simp only [bind, Res.bind] at h
    split at h
    · have := inspectHere_step h
      exact ⟨hs.1.trans this.1, fun x => Nat.le_trans (this.2 x) hs.2⟩
    · simp only [Res.ok.injEq, Prod.mk.injEq] at h
      rw [← h.2]
      exact ⟨hs.1, fun _ => hs.2⟩
  · exact inspectHere_step h

theorem scan_step {junk : Nat} {chunks : List (List Char)} {maxLen : Nat} : ∀ (fuel : Nat) {s s' : FS Char} {i : Nat}
    {found : Option (Nat × Nat)}, Plain s → scan junk chunks maxLen fuel s i = .ok (found, s') → Step s s' ∧ Plain s' := by
  intro fuel
  induction fuel with
  | zero => intro s s' i found _ h; simp [scan] at h
  | succ fuel ih =>
    intro s s' i found hp h
    unfold scan at h
    split at h
    · simp at h
    · simp only [Res.ok.injEq, Prod.mk.injEq] at h
      exact h.2 ▸ ⟨Step.refl s, hp⟩
    · split at h
      · obtain ⟨more, s1, e1, e2, -⟩ := prebuffer_plain junk hp
        have hs := (prebuffer_step hp.decoder e1).1
        rw [e1] at h
        simp only [bind, Res.bind] at h
        split at h
        · have := ih e2 h
          exact ⟨hs.trans this.1, this.2⟩
        · simp only [Res.ok.injEq, Prod.mk.injEq] at h
          exact h.2 ▸ ⟨hs, e2⟩
      · simp only [Res.ok.injEq, Prod.mk.injEq] at h
        exact h.2 ▸ ⟨Step.refl s, hp⟩

theorem untilLoop_step {junk : Nat} {chunks : List (List Char)} {maxLen : Nat} {accept : Bool} {fuel2 : Nat} :
    ∀ (fuel : Nat) {rem : Int} {i : Nat} {s s' : FS Char} {got : Option Got}, Plain s →
      untilLoop junk chunks maxLen accept fuel2 fuel rem i s = .ok (got, s') → Step s s' := by
  intro fuel
  induction fuel with
  | zero => intro rem i s s' got _ h; simp [untilLoop] at h
  | succ fuel ih =>
    intro rem i s s' got hp h
    have go : ∀ (t : FS Char) (k : Nat) (rem : Int) (k' : Nat), Plain t →
        (do
          let (found, s') ← scan junk chunks maxLen fuel2 t k
          match found with
          | some (chunk, length) => Res.ok (finish accept s' k chunk length)
          | none => untilLoop junk chunks maxLen accept fuel2 fuel rem k' s') = .ok (got, s') → Step t s' := by
      intro t k rem k' ht he
      cases hs : scan junk chunks maxLen fuel2 t k with
      | ok x =>
        obtain ⟨found, u⟩ := x
        obtain ⟨h1, h2⟩ := scan_step fuel2 ht hs
        rw [hs] at he
        cases found with
        | none => exact h1.trans (ih h2 he)
        | some p =>
          obtain ⟨chunk, length⟩ := p
          simp only [bind, Res.bind, Res.ok.injEq, finish, Prod.mk.injEq] at he
          exact he.2 ▸ h1.trans (Step.index u _)
      | error => rw [hs] at he; simp [bind, Res.bind] at he
      | ub => rw [hs] at he; simp [bind, Res.bind] at he
      | loop => rw [hs] at he; simp [bind, Res.bind] at he
    unfold untilLoop at h
    split at h
    · obtain ⟨more, s1, e1, e2, -⟩ := prebuffer_plain junk hp
      have hs := (prebuffer_step hp.decoder e1).1
      rw [e1] at h
      cases more with
      | true => exact hs.trans (go s1 _ _ _ e2 h)
      | false =>
        simp only [bind, Res.bind, Bool.false_eq_true, if_false, Res.ok.injEq, Prod.mk.injEq] at h
        exact h.2 ▸ hs
    · exact go s _ _ _ hp h

theorem getUntil_step {junk fuel : Nat} {chunks : List (List Char)} {accept : Bool} {s s' : FS Char} {got : Option Got}
    (hp : Plain s) (h : getUntil junk fuel chunks accept s = .ok (got, s')) : Step s s' :=
  untilLoop_step fuel hp h

end FileStream
end Axl
