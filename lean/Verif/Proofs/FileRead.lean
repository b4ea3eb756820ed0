/-
Proofs about the functions that read from a stream over a file, compared with those over memory.
-/
import Verif.Proofs.FileStream

namespace Axl
namespace FileStream
open Spec.FileStream Str

/-! ### White space -/

theorem plain_take {s : FS Char} (h : Plain s) {k : Nat} (hk : s.index + k ≤ s.data.length) :
    Plain { s with index := s.index + k } :=
  ⟨h.decoder, h.check, h.expand, hk, h.size, h.room⟩

theorem pending_take {s : FS Char} {k : Nat} (hk : s.index + k ≤ s.data.length) :
    pending { s with index := s.index + k } = (pending s).drop k := by
  simp only [pending]
  rw [List.drop_append_of_le_length (by simp; omega), List.drop_drop]

theorem pending_cons {s : FS Char} {c : Char} (h : s.data[s.index]? = some c) :
    s.index + 1 ≤ s.data.length ∧ pending s = c :: pending { s with index := s.index + 1 } := by
  obtain ⟨hl, he⟩ := List.getElem?_eq_some_iff.1 h
  refine ⟨hl, ?_⟩
  simp only [pending]
  rw [List.drop_eq_getElem_cons hl, he]
  rfl

theorem skip_plain (junk : Nat) : ∀ (fuel : Nat) (s : FS Char), Plain s → (pending s).length < fuel →
    ∃ s', skip junk fuel s = .ok s' ∧ Plain s' ∧ pending s' = Stream.skip (pending s) := by
  intro fuel
  induction fuel with
  | zero => intro s _ h; omega
  | succ fuel ih =>
    intro s h hf
    -- with a byte in the buffer
    have go : ∀ (t : FS Char) (c : Char), Plain t → t.data[t.index]? = some c → pending t = pending s →
        ∃ s', (if isWhite c then skip junk fuel { t with index := t.index + 1 } else .ok t) = .ok s' ∧ Plain s' ∧
          pending s' = Stream.skip (pending s) := by
      intro t c ht hc he
      obtain ⟨hl, hp⟩ := pending_cons hc
      split
      · rename_i hw
        obtain ⟨s', a, b, d⟩ := ih _ (plain_take ht hl) (by rw [← he, hp] at hf; simpa using hf)
        refine ⟨s', a, b, ?_⟩
        rw [d, ← he, hp]
        simp [Stream.skip, List.dropWhile, hw]
      · rename_i hw
        refine ⟨t, rfl, ht, ?_⟩
        rw [← he, hp]
        simp [Stream.skip, List.dropWhile, hw]
    unfold skip
    cases hc : s.data[s.index]? with
    | some c => exact go s c h hc rfl
    | none =>
      obtain ⟨more, s1, e1, e2, e3, e4, e5⟩ := prebuffer_plain junk h
      simp only [e1]
      cases more with
      | false =>
        obtain ⟨q1, q2, q3⟩ := e5 rfl
        refine ⟨s1, rfl, e2, ?_⟩
        have : s.data.drop s.index = [] := by
          rw [List.getElem?_eq_none_iff] at hc
          simpa using hc
        rw [e3]
        simp [pending, this, q2, Stream.skip]
      | true =>
        obtain ⟨q1, -, bytes, q2, q3, -⟩ := e4 rfl
        have : ∃ c, s1.data[s1.index]? = some c := by
          rw [q1, q3]
          have : s.data.drop s.index = [] := by
            rw [List.getElem?_eq_none_iff] at hc
            simpa using hc
          rw [this]
          cases bytes with
          | nil => exact absurd rfl q2
          | cons c bs => exact ⟨c, rfl⟩
        obtain ⟨c, hc1⟩ := this
        show ∃ s', (match s1.data[s1.index]? with
          | some c => if isWhite c then skip junk fuel { s1 with index := s1.index + 1 } else .ok s1
          | none => .ub) = .ok s' ∧ _
        rw [hc1]
        exact go s1 c e2 hc1 e3

/-! ### Looking ahead -/

theorem compare_true {chunk data : List Char} (h : compare chunk data = some true) :
    ∃ rest, data = chunk ++ rest := by
  induction chunk generalizing data with
  | nil => exact ⟨data, rfl⟩
  | cons c chunk ih =>
    cases data with
    | nil => simp [compare] at h
    | cons x data =>
      simp only [compare] at h
      split at h
      · rename_i hc
        obtain ⟨rest, hr⟩ := ih h
        exact ⟨rest, by simp [hc, hr]⟩
      · simp at h

theorem compare_false {chunk data : List Char} (h : compare chunk data = some false) (more : List Char) :
    ¬ chunk <+: data ++ more := by
  induction chunk generalizing data with
  | nil => simp [compare] at h
  | cons c chunk ih =>
    cases data with
    | nil => simp [compare] at h
    | cons x data =>
      simp only [compare] at h
      split at h
      · rename_i hc
        rw [List.cons_append, List.cons_prefix_cons]
        exact fun hp => ih h hp.2
      · rename_i hc
        rw [List.cons_append, List.cons_prefix_cons]
        exact fun hp => hc hp.1

theorem compare_none {chunk data : List Char} (h : compare chunk data = none) :
    data <+: chunk ∧ data.length < chunk.length := by
  induction chunk generalizing data with
  | nil => simp [compare] at h
  | cons c chunk ih =>
    cases data with
    | nil => simp
    | cons x data =>
      simp only [compare] at h
      split at h
      · rename_i hc
        obtain ⟨a, b⟩ := ih h
        exact ⟨by rw [List.cons_prefix_cons]; exact ⟨hc.symm, a⟩, by simpa using b⟩
      · simp at h

/-- The descriptor gives as many bytes as asked for, as a regular file. -/
def Regular (s : FS Char) : Prop := ∀ src, s.fd = some src → src.sizes = []

theorem eat_some_iff {l chunk rest : List Char} : Stream.eat l chunk = some rest ↔ l = chunk ++ rest := by
  simp only [Stream.eat, Stream.inspect]
  constructor
  · intro h
    split at h
    · rename_i hm
      split at hm
      · simp at hm
      · split at hm
        · rename_i hp
          simp only [Stream.Look.yes.injEq] at hm
          simp only [Option.some.injEq] at h
          obtain ⟨t, rfl⟩ := List.isPrefixOf_iff_prefix.1 hp
          rw [← h, ← hm]; simp
        · simp at hm
    · simp at h
  · rintro rfl
    rw [if_neg (by simp), if_pos (List.isPrefixOf_iff_prefix.2 (List.prefix_append _ _))]
    simp

theorem eat_none_iff {l chunk : List Char} : Stream.eat l chunk = none ↔ ¬ chunk <+: l := by
  constructor
  · rintro h ⟨t, rfl⟩
    have := eat_some_iff (l := chunk ++ t) (chunk := chunk) (rest := t)
    rw [h] at this
    simp at this
  · intro h
    cases he : Stream.eat l chunk with
    | none => rfl
    | some r => exact absurd ⟨r, (eat_some_iff.1 he).symm⟩ h

/-- What `inspect` has to answer, from what is not consumed. -/
def Sees (s : FS Char) (chunk : List Char) (accept : Bool) (l : Stream.Look) (s' : FS Char) : Prop :=
  match Stream.eat (pending s) chunk with
  | some rest => (∃ r, l = .yes r) ∧ pending s' = if accept then rest else pending s
  | none => (l = .no ∨ l = .short) ∧ pending s' = pending s

theorem inspectHere_plain {s t : FS Char} (h : Plain t) (he : pending t = pending s) (chunk : List Char)
    (accept : Bool) {l : Stream.Look} {s' : FS Char} (hr : inspectHere t chunk accept = .ok (l, s')) :
    Plain s' ∧ Sees s chunk accept l s' := by
  unfold inspectHere at hr
  split at hr
  · simp at hr
  · rename_i hc
    simp only [Res.ok.injEq, Prod.mk.injEq] at hr
    obtain ⟨rfl, rfl⟩ := hr
    refine ⟨h, ?_⟩
    have : Stream.eat (pending s) chunk = none := by
      rw [eat_none_iff, ← he]
      exact compare_false hc _
    simp only [Sees, this]
    exact ⟨.inl (by trivial), he⟩
  · rename_i hc
    simp only [Res.ok.injEq, Prod.mk.injEq] at hr
    obtain ⟨rfl, rfl⟩ := hr
    obtain ⟨rest, hrest⟩ := compare_true hc
    have hl : t.index + chunk.length ≤ t.data.length := by
      have := congrArg List.length hrest
      simp at this
      have := h.index
      omega
    have : Stream.eat (pending s) chunk = some (rest ++ unread t.fd) := by
      rw [eat_some_iff, ← he]
      simp [pending, hrest]
    refine ⟨?_, ?_⟩
    · split
      · exact plain_take h hl
      · exact h
    · simp only [Sees, this]
      refine ⟨⟨_, rfl⟩, ?_⟩
      split
      · rw [pending_take hl]
        simp [pending, hrest]
      · exact he

theorem inspect_plain (junk : Nat) {s : FS Char} (h : Plain s) (chunk : List Char) (accept : Bool)
    {l : Stream.Look} {s' : FS Char} (hr : inspect junk s chunk accept = .ok (l, s')) :
    Plain s' ∧ Sees s chunk accept l s' := by
  unfold inspect at hr
  split at hr
  · rename_i hlen
    obtain ⟨more, s1, e1, e2, e3, e4, e5⟩ := prebuffer_plain junk h
    simp only [e1] at hr
    cases more with
    | true => exact inspectHere_plain e2 e3 chunk accept hr
    | false =>
      obtain ⟨q1, q2, q3⟩ := e5 rfl
      have hr : Res.ok (Stream.Look.short, s1) = .ok (l, s') := hr
      simp only [Res.ok.injEq, Prod.mk.injEq] at hr
      obtain ⟨rfl, rfl⟩ := hr
      refine ⟨e2, ?_⟩
      have : Stream.eat (pending s) chunk = none := by
        rw [eat_none_iff]
        intro hp
        have := hp.length_le
        simp only [pending, q2, List.append_nil, List.length_drop] at this
        have := h.index
        omega
      simp only [Sees, this]
      exact ⟨.inr (by trivial), e3⟩
  · exact inspectHere_plain h rfl chunk accept hr

theorem read_regular (src : Source Char) (h : src.sizes = []) (room : Nat) :
    src.read room = (src.rest.take room, ⟨src.rest.drop room, []⟩) := by
  simp [Source.read, h]

/-- The comparison goes out of the content only when the text ends inside the chunk, or when a read gave less
than it was asked for. -/
theorem inspect_ub (junk : Nat) {s : FS Char} (h : Plain s) (hreg : Regular s) (chunk : List Char)
    (hchunk : chunk.length ≤ s.bufSize) (accept : Bool) (hr : ¬ ∃ x, inspect junk s chunk accept = .ok x) :
    pending s <+: chunk ∧ (pending s).length < chunk.length := by
  have here : ∀ t : FS Char, (¬ ∃ x, inspectHere t chunk accept = .ok x) →
      t.data.drop t.index <+: chunk ∧ (t.data.drop t.index).length < chunk.length := by
    intro t ht
    unfold inspectHere at ht
    split at ht
    · rename_i hc; exact compare_none hc
    · exact absurd ⟨_, rfl⟩ ht
    · exact absurd ⟨_, rfl⟩ ht
  unfold inspect at hr
  split at hr
  · rename_i hlen
    obtain ⟨more, s1, e1, e2, e3, e4, e5⟩ := prebuffer_plain junk h
    simp only [e1] at hr
    cases more with
    | false => exact absurd ⟨_, rfl⟩ hr
    | true =>
      obtain ⟨a, b⟩ := here s1 hr
      obtain ⟨q1, q2, bytes, q3, q4, q5⟩ := e4 rfl
      -- nothing is left in the file
      have hun : unread s1.fd = [] := by
        cases hfd : s.fd with
        | none => simp [prebuffer, hfd] at e1
        | some src =>
          have hsz := hreg src hfd
          obtain ⟨hd, hi, hl, hb, -, -, -, -, hc, -⟩ := shift_spec s h.index h.size h.room (by simp [h.expand])
          have hacc : accepts (shift s) (src.rest.take ((shift s).bufSize - (shift s).data.length)) = true := by
            have := h.check (src.rest.take ((shift s).bufSize - (shift s).data.length)) (by
              rw [hfd]; exact (List.take_prefix _ _).isInfix)
            simpa [accepts, hc] using this
          simp only [prebuffer, hfd, h.decoder, readPlain, hacc, read_regular src hsz, Bool.not_true,
            Bool.false_eq_true, if_false, Res.ok.injEq] at e1
          split at e1
          · simp at e1
          · simp only [Prod.mk.injEq, true_and] at e1
            rw [← e1] at b ⊢
            simp only [unread, hi, List.drop_zero] at b ⊢
            simp only [List.drop_eq_nil_iff]
            simp only [List.length_append, List.length_take] at b
            omega
      have hp : pending s = s1.data.drop s1.index := by rw [← e3]; simp [pending, hun]
      rw [hp]
      exact ⟨a, b⟩
  · rename_i hlen
    obtain ⟨a, b⟩ := here s hr
    simp only [List.length_drop] at b
    have := h.index
    omega

/-! ### Reading up to a chunk -/

/-- The chunk at the beginning of a text. -/
def matchList (chunks : List (List Char)) : List Char → Option (Nat × Nat)
  | [] => none
  | c :: rest => Stream.matchAt chunks c rest

theorem getUntil_at (chunks : List (List Char)) : ∀ (i : Nat) (l : List Char) (k n : Nat),
    (∀ j < i, matchList chunks (l.drop j) = none) → matchList chunks (l.drop i) = some (k, n) →
    Stream.getUntil chunks l = some ⟨l.take i, k, l.drop i, (l.drop i).drop n⟩ := by
  intro i
  induction i with
  | zero =>
    intro l k n _ h
    cases l with
    | nil => simp [matchList] at h
    | cons c l => simp only [List.drop_zero, matchList] at h; simp [Stream.getUntil, h]
  | succ i ih =>
    intro l k n hb h
    cases l with
    | nil => simp [matchList] at h
    | cons c l =>
      have h0 := hb 0 (by omega)
      simp only [List.drop_zero, matchList] at h0
      simp only [List.drop_succ_cons] at h
      have := ih l k n (fun j hj => by have := hb (j + 1) (by omega); simpa using this) h
      simp [Stream.getUntil, h0, this]

theorem getUntil_none (chunks : List (List Char)) : ∀ (l : List Char),
    (∀ j < l.length, matchList chunks (l.drop j) = none) → Stream.getUntil chunks l = none := by
  intro l
  induction l with
  | nil => intro _; rfl
  | cons c l ih =>
    intro h
    have h0 := h 0 (by simp)
    simp only [List.drop_zero, matchList] at h0
    have := ih (fun j hj => by have := h (j + 1) (by simp; omega); simpa using this)
    simp [Stream.getUntil, h0, this]

/-- What reading up to a chunk gives over memory: the text and the chunk, and what is not consumed after. -/
def memUntil (chunks : List (List Char)) (accept : Bool) (l : List Char) : Option Got × List Char :=
  match Stream.getUntil chunks l with
  | none => (none, l)
  | some f => (some ⟨f.text, f.chunk⟩, if accept then f.after else f.at_)

theorem matchHere_eq {chunks : List (List Char)} {data : List Char} {p : Nat} (h : p < data.length) :
    matchHere chunks data p = some (matchList chunks (data.drop p)) := by
  unfold matchHere
  cases hd : data.drop p with
  | nil => simp at hd; omega
  | cons c r => rfl

theorem firstChunk_bound {l : List Char} : ∀ (chunks : List (List Char)) (i k n : Nat),
    Stream.firstChunk l i chunks = some (k, n) → n ≤ l.length := by
  intro chunks
  induction chunks with
  | nil => intro i k n h; simp [Stream.firstChunk] at h
  | cons c cs ih =>
    intro i k n h
    simp only [Stream.firstChunk] at h
    split at h
    · rename_i hc
      simp only [Option.some.injEq, Prod.mk.injEq] at h
      have := (List.isPrefixOf_iff_prefix.1 hc.2.2).length_le
      omega
    · exact ih _ _ _ h

theorem matchList_bound {chunks : List (List Char)} {l : List Char} {k n : Nat}
    (h : matchList chunks l = some (k, n)) : n ≤ l.length := by
  cases l with
  | nil => simp [matchList] at h
  | cons c r =>
    simp only [matchList, Stream.matchAt] at h
    split at h
    · simp at h; simp; omega
    · exact firstChunk_bound chunks 0 k n h

theorem finish_spec {s : FS Char} (h : Plain s) {chunks : List (List Char)} {i k n : Nat} {accept : Bool} {l : List Char}
    (hi : s.index + i + n ≤ s.data.length) (hp : pending s = l)
    (hb : ∀ j < i, matchList chunks (l.drop j) = none) (hm : matchList chunks (l.drop i) = some (k, n)) :
    (finish accept s i k n).1 = (memUntil chunks accept l).1 ∧
    Plain (finish accept s i k n).2 ∧
    pending (finish accept s i k n).2 = (memUntil chunks accept l).2 := by
  simp only [memUntil, getUntil_at chunks i l k n hb hm, finish]
  have htake : (s.data.drop s.index).take i = l.take i := by
    rw [← hp]
    simp only [pending]
    rw [List.take_append_of_le_length (by simp; omega)]
  refine ⟨by rw [htake], ?_, ?_⟩
  · refine ⟨h.decoder, h.check, h.expand, ?_, h.size, h.room⟩
    simp only
    split <;> omega
  · have hle : s.index + (i + (if accept then n else 0)) ≤ s.data.length := by split <;> omega
    have : ({ s with index := s.index + i + if accept = true then n else 0 } : FS Char) =
        { s with index := s.index + (i + if accept = true then n else 0) } := by
      rw [Nat.add_assoc]
    rw [this, pending_take hle, hp]
    cases accept <;> simp

/-- When all is in the buffer: the same as over memory, whatever the chunks. -/
theorem until_buffered (junk : Nat) (chunks : List (List Char)) (maxLen : Nat) (accept : Bool) (fuel2 : Nat)
    (hf2 : 0 < fuel2) : ∀ (fuel i : Nat) (s : FS Char), Plain s → unread s.fd = [] →
      s.index + i ≤ s.data.length → s.data.length - s.index - i < fuel →
      (∀ j < i, matchList chunks ((pending s).drop j) = none) →
      ∃ got s', untilLoop junk chunks maxLen accept fuel2 fuel ((s.data.length - s.index - i : Nat) : Int) i s = .ok (got, s') ∧
        Plain s' ∧ got = (memUntil chunks accept (pending s)).1 ∧ pending s' = (memUntil chunks accept (pending s)).2 := by
  intro fuel
  induction fuel with
  | zero => intro i s _ _ _ h; omega
  | succ fuel ih =>
    intro i s h hu hi hf hb
    have hpend : pending s = s.data.drop s.index := by simp [pending, hu]
    unfold untilLoop
    split
    · rename_i hrem
      obtain ⟨more, s1, e1, e2, e3, e4, e5⟩ := prebuffer_plain junk h
      simp only [e1]
      have hmore : more = false := by
        cases more with
        | false => rfl
        | true =>
          obtain ⟨-, -, bytes, q3, -, q5⟩ := e4 rfl
          rw [hu] at q5
          cases bytes with
          | nil => exact absurd rfl q3
          | cons b bs => simp at q5
      subst hmore
      refine ⟨none, s1, rfl, e2, ?_⟩
      have hnone : Stream.getUntil chunks (pending s) = none := by
        apply getUntil_none
        intro j hj
        rw [hpend] at hj
        simp only [List.length_drop] at hj
        exact hb j (by omega)
      simp only [memUntil, hnone]
      exact ⟨by trivial, e3⟩
    · rename_i hrem
      have hlt : s.index + i < s.data.length := by omega
      have hdrop : s.data.drop (s.index + i) = (pending s).drop i := by rw [hpend, List.drop_drop]
      obtain ⟨f2, rfl⟩ : ∃ f2, fuel2 = f2 + 1 := ⟨fuel2 - 1, by omega⟩
      cases hm : matchList chunks ((pending s).drop i) with
      | none =>
        have hs : scan junk chunks maxLen (f2 + 1) s i = .ok (none, s) := by
          simp only [scan, matchHere_eq hlt, hdrop, hm]
        simp only [hs]
        obtain ⟨got, s', a, b⟩ := ih (i + 1) s h hu (by omega) (by omega) (by
          intro j hj
          rcases Nat.lt_or_eq_of_le (Nat.le_of_lt_succ hj) with hj | rfl
          · exact hb j hj
          · exact hm)
        refine ⟨got, s', ?_, b⟩
        have e : ((s.data.length - s.index - i : Nat) : Int) - 1 = ((s.data.length - s.index - (i + 1) : Nat) : Int) := by
          omega
        rw [e]
        exact a
      | some kn =>
        obtain ⟨k, n⟩ := kn
        have hn : n ≤ ((pending s).drop i).length := matchList_bound hm
        rw [← hdrop, List.length_drop] at hn
        have hfin : ∃ t, scan junk chunks maxLen (f2 + 1) s i = .ok (some (k, n), t) ∧ Plain t ∧
            pending t = pending s ∧ t.index + i + n ≤ t.data.length := by
          simp only [scan, matchHere_eq hlt, hdrop, hm]
          split
          · obtain ⟨more, s1, e1, e2, e3, e4, e5⟩ := prebuffer_plain junk h
            simp only [e1]
            have hmore : more = false := by
              cases more with
              | false => rfl
              | true =>
                obtain ⟨-, -, bytes, q3, -, q5⟩ := e4 rfl
                rw [hu] at q5
                cases bytes with
                | nil => exact absurd rfl q3
                | cons b bs => simp at q5
            subst hmore
            obtain ⟨-, -, q3⟩ := e5 rfl
            refine ⟨s1, rfl, e2, e3, ?_⟩
            have := congrArg List.length q3
            simp only [List.length_drop] at this
            have := e2.index
            omega
          · exact ⟨s, rfl, h, rfl, by omega⟩
        obtain ⟨t, t1, t2, t3, t4⟩ := hfin
        simp only [t1]
        obtain ⟨r1, r2, r3⟩ := finish_spec (accept := accept) t2 t4 t3 hb hm
        exact ⟨_, _, rfl, r2, r1, r3⟩

/-- Chunks of one character each, as the quotes, `=`, `>` and `<`. -/
def Single (chunks : List (List Char)) : Prop := ∀ c ∈ chunks, c.length = 1

theorem firstChunk_single {c : Char} (rest : List Char) : ∀ (chunks : List (List Char)) (i : Nat), Single chunks →
    Stream.firstChunk (c :: rest) i chunks = Stream.firstChunk [c] i chunks := by
  intro chunks
  induction chunks with
  | nil => intro i _; rfl
  | cons x xs ih =>
    intro i h
    have hx := h x (by simp)
    have := ih (i + 1) (fun y hy => h y (by simp [hy]))
    simp only [Stream.firstChunk, this]
    match x, hx with
    | [y], _ => simp [List.isPrefixOf]

theorem matchList_single {chunks : List (List Char)} (h : Single chunks) (c : Char) (rest : List Char) :
    matchList chunks (c :: rest) = matchList chunks [c] := by
  simp only [matchList, Stream.matchAt, firstChunk_single rest chunks 0 h]

theorem firstChunk_length {l : List Char} : ∀ (chunks : List (List Char)) (i k n : Nat), Single chunks →
    Stream.firstChunk l i chunks = some (k, n) → n = 1 := by
  intro chunks
  induction chunks with
  | nil => intro i k n _ h; simp [Stream.firstChunk] at h
  | cons c cs ih =>
    intro i k n hs h
    simp only [Stream.firstChunk] at h
    split at h
    · simp only [Option.some.injEq, Prod.mk.injEq] at h
      have := hs c (by simp)
      omega
    · exact ih _ _ _ (fun y hy => hs y (by simp [hy])) h

theorem matchList_length {chunks : List (List Char)} (hs : Single chunks) {l : List Char} {k n : Nat}
    (h : matchList chunks l = some (k, n)) : n = 1 := by
  cases l with
  | nil => simp [matchList] at h
  | cons c r =>
    simp only [matchList, Stream.matchAt] at h
    split at h
    · simp at h; omega
    · exact firstChunk_length chunks 0 k n hs h

theorem maxLength_single {chunks : List (List Char)} (h : Single chunks) : maxLength chunks ≤ 1 := by
  have : ∀ (cs : List (List Char)) (m : Nat), m ≤ 1 → Single cs →
      (cs.map fun c => if c = [' '] then 0 else c.length).foldl max m ≤ 1 := by
    intro cs
    induction cs with
    | nil => intro m hm _; simpa using hm
    | cons c cs ih =>
      intro m hm hs
      simp only [List.map_cons, List.foldl_cons]
      apply ih
      · have := hs c (by simp)
        split <;> omega
      · exact fun y hy => hs y (by simp [hy])
  exact this chunks 0 (by omega) h

/-- Matching in what is in the buffer and in all that is not consumed is the same for chunks of one character. -/
theorem matchList_pending {chunks : List (List Char)} (hs : Single chunks) {s : FS Char} {i : Nat}
    (hlt : s.index + i < s.data.length) :
    matchList chunks (s.data.drop (s.index + i)) = matchList chunks ((pending s).drop i) := by
  have e : (pending s).drop i = s.data.drop (s.index + i) ++ unread s.fd := by
    simp only [pending]
    rw [List.drop_append_of_le_length (by simp; omega), List.drop_drop]
  rw [e]
  cases hd : s.data.drop (s.index + i) with
  | nil => simp at hd; omega
  | cons c r => rw [List.cons_append, matchList_single hs, matchList_single hs c (r ++ _)]

/-- Whatever the reads: the same as over memory, unless the chunk is the last byte of the file. -/
theorem until_single (junk : Nat) {chunks : List (List Char)} (hs : Single chunks) {maxLen : Nat} (hmax : maxLen ≤ 1)
    (accept : Bool) (fuel2 : Nat) (hf2 : 0 < fuel2) :
    ∀ (fuel i : Nat) (rem : Int) (s : FS Char), Plain s → s.index + i ≤ s.data.length →
      (rem = (s.data.length : Int) - s.index - i ∨ rem = (s.data.length : Int) - s.index - i - 1 ∧ 0 ≤ rem) →
      ((pending s).length - i) + (unread s.fd).length < fuel →
      (∀ j < i, matchList chunks ((pending s).drop j) = none) →
      ∃ got s', untilLoop junk chunks maxLen accept fuel2 fuel rem i s = .ok (got, s') ∧ Plain s' ∧
        (got = (memUntil chunks accept (pending s)).1 ∧ pending s' = (memUntil chunks accept (pending s)).2 ∨
         got = none ∧ pending s' = pending s ∧
          ∃ f, Stream.getUntil chunks (pending s) = some f ∧ f.at_.length = 1) := by
  intro fuel
  induction fuel with
  | zero => intro i rem s _ _ _ h; omega
  | succ fuel ih =>
    intro i rem s h hi hrem hf hb
    obtain ⟨f2, rfl⟩ : ∃ f2, fuel2 = f2 + 1 := ⟨fuel2 - 1, by omega⟩
    -- a place in the buffer
    have place : ∀ (t : FS Char) (j : Nat), Plain t → pending t = pending s → t.index + j < t.data.length →
        (∀ m < j, matchList chunks ((pending s).drop m) = none) →
        (matchList chunks ((pending s).drop j) = none ∧ scan junk chunks maxLen (f2 + 1) t j = .ok (none, t)) ∨
        (∃ k, scan junk chunks maxLen (f2 + 1) t j = .ok (some (k, 1), t) ∧
          ((finish accept t j k 1).1 = (memUntil chunks accept (pending s)).1 ∧
            Plain (finish accept t j k 1).2 ∧
            pending (finish accept t j k 1).2 = (memUntil chunks accept (pending s)).2)) := by
      intro t j ht hp hlt hbefore
      have hm := matchList_pending hs (s := t) (i := j) hlt
      rw [hp] at hm
      cases hx : matchList chunks ((pending s).drop j) with
      | none => exact .inl ⟨rfl, by simp only [scan, matchHere_eq hlt, hm, hx]⟩
      | some kn =>
        obtain ⟨k, n⟩ := kn
        have hn := matchList_length hs hx
        subst hn
        refine .inr ⟨k, ?_, ?_⟩
        · simp only [scan, matchHere_eq hlt, hm, hx]
          rw [if_neg (by omega)]
        · exact finish_spec ht (by omega) hp hbefore hx
    have hpl : (pending s).length = s.data.length - s.index + (unread s.fd).length := by simp [pending]
    unfold untilLoop
    split
    · rename_i hneg
      obtain ⟨more, s1, e1, e2, e3, e4, e5⟩ := prebuffer_plain junk h
      simp only [e1]
      cases more with
      | false =>
        obtain ⟨q1, q2, q3⟩ := e5 rfl
        refine ⟨none, s1, rfl, e2, ?_⟩
        have hpd : pending s = s.data.drop s.index := by simp [pending, q2]
        cases hg : Stream.getUntil chunks (pending s) with
        | none => left; simp [memUntil, hg, e3]
        | some f =>
          right
          refine ⟨rfl, e3, f, rfl, ?_⟩
          -- only the last place was not seen
          cases hx : matchList chunks ((pending s).drop i) with
          | none =>
            exfalso
            have : Stream.getUntil chunks (pending s) = none := by
              apply getUntil_none
              intro j hj
              rcases Nat.lt_trichotomy j i with hji | rfl | hji
              · exact hb j hji
              · exact hx
              · rw [hpl, q2] at hj
                simp only [List.length_nil, Nat.add_zero] at hj
                omega
            rw [this] at hg
            simp at hg
          | some kn =>
            obtain ⟨k, n⟩ := kn
            have := getUntil_at chunks i (pending s) k n hb hx
            rw [hg] at this
            simp only [Option.some.injEq] at this
            rw [this]
            have hn := matchList_bound hx
            have hn1 := matchList_length hs hx
            simp only [List.length_drop] at hn ⊢
            rw [hpl, q2] at hn ⊢
            simp only [List.length_nil, Nat.add_zero] at hn ⊢
            omega
      | true =>
        obtain ⟨q1, -, bytes, q2, q3, q4⟩ := e4 rfl
        have hlen : s1.data.length = s.data.length - s.index + bytes.length := by rw [q3]; simp
        have hbl : 0 < bytes.length := by
          cases bytes with
          | nil => exact absurd rfl q2
          | cons b bs => simp
        have hul : (unread s.fd).length = bytes.length + (unread s1.fd).length := by rw [q4]; simp
        rcases place s1 (i - 1) e2 e3 (by rw [q1]; omega) (fun m hm => hb m (by omega)) with ⟨hn, hsc⟩ | ⟨k, hsc, r1, r2, r3⟩
        · show ∃ got s', (scan junk chunks maxLen (f2 + 1) s1 (i - 1)).bind _ = _ ∧ _
          rw [hsc]
          obtain ⟨got, s', a, b⟩ := ih (i - 1 + 1) ((s1.data.length : Int) - i - 1) s1 e2 (by omega) (by
              rcases Nat.eq_zero_or_pos i with h0 | h0
              · left; subst h0; rw [q1]; omega
              · right; rw [q1]; omega) (by
              rw [e3]
              omega) (by
              intro j hj
              rw [e3]
              rcases Nat.lt_or_eq_of_le (Nat.le_of_lt_succ hj) with hj | rfl
              · exact hb j (by omega)
              · exact hn)
          rw [e3] at b
          exact ⟨got, s', a, b⟩
        · show ∃ got s', (scan junk chunks maxLen (f2 + 1) s1 (i - 1)).bind _ = _ ∧ _
          rw [hsc]
          exact ⟨_, _, rfl, r2, .inl ⟨r1, r3⟩⟩
    · rename_i hneg
      have hlt : s.index + i < s.data.length := by omega
      rcases place s i h rfl hlt hb with ⟨hn, hsc⟩ | ⟨k, hsc, r1, r2, r3⟩
      · simp only [hsc]
        obtain ⟨got, s', a, b⟩ := ih (i + 1) (rem - 1) s h (by omega) (by omega) (by omega) (by
            intro j hj
            rcases Nat.lt_or_eq_of_le (Nat.le_of_lt_succ hj) with hj | rfl
            · exact hb j hj
            · exact hn)
        exact ⟨got, s', a, b⟩
      · simp only [hsc]
        exact ⟨_, _, rfl, r2, .inl ⟨r1, r3⟩⟩

end FileStream
end Axl
