/-
The places of a parse of a DTD: what the stream has not read, the DTD so far and the blocks that belong to neither.
-/
import Verif.Proofs.DtdMem

namespace Axl
namespace DtdMem
open Str Dtd

/-- The parse is at this place: `s` is left to read, the DTD is `d`, `last` is kept by the stream, and there are the
blocks `tmp` besides those of the stream and of the DTD. -/
structure At (ask : Bool) (s : List Char) (d : MDtd) (tmp : List Nat) (last : Option Nat) (w : World) : Prop where
  stream : ∃ id, w.stream = some ⟨id, s, last, none, none, true⟩ ∧ w.heap.Perm (id :: (last.toList ++ (d.blocks ++ tmp)))
  dtd    : w.dtd = some d
  made   : d.Made
  nodup  : w.heap.Nodup
  fresh  : ∀ i ∈ w.heap, i < w.next
  errors : w.errors = if ask then some [] else none

/-- The same, whatever the stream keeps. -/
def Any (ask : Bool) (s : List Char) (d : MDtd) (tmp : List Nat) (w : World) : Prop := ∃ last, At ask s d tmp last w

/-- The parse failed: neither the stream nor the DTD are there, and `tmp` was lost. -/
structure Dead (ask : Bool) (tmp : List Nat) (w : World) : Prop where
  stream : w.stream = none
  dtd    : w.dtd = none
  heap   : w.heap.Perm tmp
  nodup  : w.heap.Nodup
  errors : Spec.DtdMem.OneError ask w

section
variable {ask : Bool} {s : List Char} {d : MDtd} {tmp : List Nat} {last : Option Nat} {w : World}

theorem At.any (h : At ask s d tmp last w) : Any ask s d tmp w := ⟨last, h⟩

theorem At.perm (h : At ask s d tmp last w) {tmp' : List Nat} (p : tmp.Perm tmp') : At ask s d tmp' last w := by
  obtain ⟨id, e, hp⟩ := h.stream
  exact ⟨⟨id, e, hp.trans (((p.append_left _).append_left _).cons _)⟩, h.dtd, h.made, h.nodup, h.fresh, h.errors⟩

theorem Any.perm (h : Any ask s d tmp w) {tmp' : List Nat} (p : tmp.Perm tmp') : Any ask s d tmp' w :=
  h.elim fun last h => ⟨last, h.perm p⟩

theorem At.mem_tmp (h : At ask s d tmp last w) {i : Nat} (hi : i ∈ tmp) : i ∈ w.heap := by
  obtain ⟨id, e, hp⟩ := h.stream
  exact hp.mem_iff.2 (by simp [hi])

theorem At.mem_dtd (h : At ask s d tmp last w) {i : Nat} (hi : i ∈ d.blocks) : i ∈ w.heap := by
  obtain ⟨id, e, hp⟩ := h.stream
  exact hp.mem_iff.2 (by simp [hi])

theorem At.mem_last (h : At ask s d tmp last w) {i : Nat} (hi : last = some i) : i ∈ w.heap := by
  obtain ⟨id, e, hp⟩ := h.stream
  exact hp.mem_iff.2 (by simp [hi])

theorem Any.mem_tmp (h : Any ask s d tmp w) {i : Nat} (hi : i ∈ tmp) : i ∈ w.heap := h.elim fun _ h => h.mem_tmp hi

theorem Any.mem_dtd (h : Any ask s d tmp w) {i : Nat} (hi : i ∈ d.blocks) : i ∈ w.heap := h.elim fun _ h => h.mem_dtd hi

theorem getS_eq {m : MStream} (e : w.stream = some m) : DtdMem.getS w = .ret m w := by simp [DtdMem.getS, e]

theorem At.getS (h : At ask s d tmp last w) : ∃ m, getS w = .ret m w ∧ m.rest = s ∧ m.last = last := by
  obtain ⟨id, e, hp⟩ := h.stream
  exact ⟨_, getS_eq e, rfl, rfl⟩

theorem Any.getS (h : Any ask s d tmp w) : ∃ m, getS w = .ret m w ∧ m.rest = s := by
  obtain ⟨last, h⟩ := h
  obtain ⟨m, e, e2, _⟩ := h.getS
  exact ⟨m, e, e2⟩

theorem At.getD (h : At ask s d tmp last w) : getD w = .ret d w := by simp [DtdMem.getD, h.dtd]

theorem Any.getD (h : Any ask s d tmp w) : getD w = .ret d w := h.elim fun _ h => h.getD

/-- A block is allocated. -/
theorem At.alloc (h : At ask s d tmp last w) :
    At ask s d (w.next :: tmp) last { w with heap := w.next :: w.heap, next := w.next + 1 } := by
  obtain ⟨id, e, hp⟩ := h.stream
  refine ⟨⟨id, e, (hp.cons w.next).trans (by blocks)⟩, h.dtd, h.made, ?_, ?_, h.errors⟩
  · exact List.nodup_cons.2 ⟨fun hm => Nat.lt_irrefl _ (h.fresh _ hm), h.nodup⟩
  · intro i hi
    rcases List.mem_cons.1 hi with rfl | hi
    · exact Nat.lt_succ_self _
    · exact Nat.lt_succ_of_lt (h.fresh i hi)

theorem Any.alloc (h : Any ask s d tmp w) :
    ∃ id w', alloc w = .ret id w' ∧ Any ask s d (id :: tmp) w' := by
  obtain ⟨last, h⟩ := h
  exact ⟨_, _, rfl, last, h.alloc⟩

theorem perm_nodup {h : List Nat} {a b : List Nat} (hw : w.heap.Perm (a ++ b)) (hn : w.heap.Nodup) (p : h.Perm b) : h.Nodup :=
  p.nodup_iff.2 (List.nodup_append.1 (hw.nodup_iff.1 hn)).2.1

/-- Blocks are released. -/
theorem Frees.at_ {m : M Unit} {ids : List Nat} (hf : Frees m ids) (h : At ask s d (ids ++ tmp) last w) :
    ∃ w', m w = .ret () w' ∧ At ask s d tmp last w' := by
  obtain ⟨id, e, hp⟩ := h.stream
  have hp' : w.heap.Perm (ids ++ (id :: (last.toList ++ (d.blocks ++ tmp)))) := hp.trans (by blocks)
  obtain ⟨hh, e2, p⟩ := hf w _ hp'
  refine ⟨_, e2, ⟨id, e, p⟩, h.dtd, h.made, perm_nodup hp' h.nodup p, fun i hi => ?_, h.errors⟩
  exact h.fresh i (hp'.mem_iff.2 (List.mem_append_right _ (p.mem_iff.1 hi)))

theorem Frees.any {m : M Unit} {ids : List Nat} (hf : Frees m ids) (h : Any ask s d (ids ++ tmp) w) :
    ∃ w', m w = .ret () w' ∧ Any ask s d tmp w' := by
  obtain ⟨last, h⟩ := h
  obtain ⟨w', e, h'⟩ := hf.at_ h
  exact ⟨w', e, last, h'⟩

/-- The DTD changes: its blocks, with those that belong to no one, are the same. -/
theorem At.setD (h : At ask s d tmp last w) {d' : MDtd} {tmp' : List Nat} (p : (d.blocks ++ tmp).Perm (d'.blocks ++ tmp'))
    (hm : d'.Made) : At ask s d' tmp' last { w with dtd := some d' } := by
  obtain ⟨id, e, hp⟩ := h.stream
  exact ⟨⟨id, e, hp.trans ((p.append_left _).cons _)⟩, rfl, hm, h.nodup, h.fresh, h.errors⟩

theorem Any.setD (h : Any ask s d tmp w) {d' : MDtd} {tmp' : List Nat} (p : (d.blocks ++ tmp).Perm (d'.blocks ++ tmp'))
    (hm : d'.Made) : ∃ w', setD d' w = .ret () w' ∧ Any ask s d' tmp' w' := by
  obtain ⟨last, h⟩ := h
  exact ⟨_, rfl, last, h.setD p hm⟩

/-- The stream gives the string it keeps. -/
theorem nullify_at (h : At ask s d tmp last w) :
    ∃ w', nullify w = .ret () w' ∧ At ask s d (last.toList ++ tmp) none w' ∧ w'.heap = w.heap := by
  obtain ⟨id, e, hp⟩ := h.stream
  refine ⟨{ w with stream := some ⟨id, s, none, none, none, true⟩ }, ?_, ⟨⟨id, rfl, hp.trans (by blocks)⟩, h.dtd, h.made, h.nodup, h.fresh, h.errors⟩, rfl⟩
  unfold nullify
  rw [bind_ret (getS_eq e)]
  rfl

theorem freeLast_at (h : At ask s d tmp last w) : ∃ w', freeLast w = .ret () w' ∧ At ask s d tmp none w' := by
  obtain ⟨id, e, hp⟩ := h.stream
  have hp' : w.heap.Perm (last.toList ++ (id :: (d.blocks ++ tmp))) := hp.trans (by blocks)
  obtain ⟨hh, e2, p⟩ := frees_freeOpt last w _ hp'
  unfold freeLast
  rw [bind_ret (getS_eq e)]
  refine ⟨{ w with heap := hh, stream := some ⟨id, s, none, none, none, true⟩ }, by rw [bind_ret e2]; rfl, ⟨id, rfl, p⟩, h.dtd, h.made, perm_nodup hp' h.nodup p, fun i hi => ?_, h.errors⟩
  exact h.fresh i (hp'.mem_iff.2 (List.mem_append_right _ (p.mem_iff.1 hi)))

/-- The stream at another place. -/
theorem At.setRest (h : At ask s d tmp last w) (s' : List Char) {m : MStream} (hg : DtdMem.getS w = .ret m w) :
    ∃ w', setS { m with rest := s' } w = .ret () w' ∧ At ask s' d tmp last w' := by
  obtain ⟨id, e, hp⟩ := h.stream
  have : m = ⟨id, s, last, none, none, true⟩ := by
    simp only [DtdMem.getS, e, Out.ret.injEq, and_true] at hg
    exact hg.symm
  subst this
  exact ⟨_, rfl, ⟨id, rfl, hp⟩, h.dtd, h.made, h.nodup, h.fresh, h.errors⟩

theorem inspect_at (h : At ask s d tmp last w) (chunk : List Char) :
    ∃ w', inspect chunk w = .ret (Stream.inspect s chunk) w' ∧
      match Stream.inspect s chunk with
      | .yes rest => At ask rest d tmp none w'
      | _ => w' = w := by
  obtain ⟨m, e, e1, e2⟩ := h.getS
  unfold inspect
  rw [bind_ret e, e1]
  cases hs : Stream.inspect s chunk with
  | yes rest =>
    obtain ⟨w1, k1, h1⟩ := freeLast_at h
    obtain ⟨m1, k2, _, _⟩ := h1.getS
    obtain ⟨w2, k3, h2⟩ := h1.setRest rest k2
    refine ⟨w2, ?_, h2⟩
    simp only
    rw [bind_ret k1, bind_ret k2, bind_ret k3]
    rfl
  | no => exact ⟨w, rfl, rfl⟩
  | short => exact ⟨w, rfl, rfl⟩

theorem inspect_any (h : Any ask s d tmp w) (chunk : List Char) :
    ∃ w', inspect chunk w = .ret (Stream.inspect s chunk) w' ∧
      match Stream.inspect s chunk with
      | .yes rest => Any ask rest d tmp w'
      | _ => Any ask s d tmp w' := by
  obtain ⟨last, h⟩ := h
  obtain ⟨w', e, hw⟩ := inspect_at h chunk
  refine ⟨w', e, ?_⟩
  cases hs : Stream.inspect s chunk with
  | yes rest =>
    rw [hs] at hw
    exact hw.any
  | no =>
    rw [hs] at hw
    exact hw ▸ h.any
  | short =>
    rw [hs] at hw
    exact hw ▸ h.any

/-- A function of the stream alone does what one over the text does. -/
def Reads {α : Type} (m : M α) (f : List Char → α × List Char) : Prop :=
  ∀ ⦃ask : Bool⦄ ⦃s : List Char⦄ ⦃d : MDtd⦄ ⦃tmp : List Nat⦄ ⦃w : World⦄, Any ask s d tmp w →
    ∃ w', m w = .ret (f s).1 w' ∧ Any ask (f s).2 d tmp w'

theorem Reads.of_eq {α : Type} {m : M α} {f g : List Char → α × List Char} (h : Reads m f) (e : ∀ s, f s = g s) : Reads m g := by
  have : f = g := funext e
  exact this ▸ h

theorem Reads.pure {α : Type} (a : α) : Reads (pure a) fun s => (a, s) := fun _ _ _ _ w h => ⟨w, rfl, h⟩

theorem Reads.bind {α β : Type} {m : M α} {f : List Char → α × List Char} {k : α → M β} {g : α → List Char → β × List Char}
    (h : Reads m f) (hk : ∀ a, Reads (k a) (g a)) : Reads (m >>= k) fun s => g (f s).1 (f s).2 := by
  intro ask s d tmp w hw
  obtain ⟨w1, e1, h1⟩ := h hw
  obtain ⟨w2, e2, h2⟩ := hk _ h1
  exact ⟨w2, by rw [bind_ret e1]; exact e2, h2⟩

theorem Reads.ite {α : Type} {m n : M α} {f g : List Char → α × List Char} (b : Bool) (h : Reads m f) (k : Reads n g) :
    Reads (if b then m else n) fun s => if b then f s else g s := by
  cases b <;> simpa

/-- What `axl_stream_inspect` answers over the text. -/
def eaten (chunk s : List Char) : Bool × List Char :=
  match Stream.eat s chunk with
  | some s => (true, s)
  | none => (false, s)

theorem eaten_some {chunk s r : List Char} (h : Stream.eat s chunk = some r) : eaten chunk s = (true, r) := by simp [eaten, h]

theorem eaten_none {chunk s : List Char} (h : Stream.eat s chunk = none) : eaten chunk s = (false, s) := by simp [eaten, h]

theorem reads_eat (chunk : List Char) : Reads (eat chunk) (eaten chunk) := by
  intro ask s d tmp w hw
  obtain ⟨w', e, h⟩ := inspect_any hw chunk
  unfold eat
  rw [bind_ret e]
  unfold eaten Stream.eat
  cases hs : Stream.inspect s chunk <;> rw [hs] at h <;> exact ⟨w', rfl, h⟩

theorem reads_peek (chunk : List Char) : Reads (peek chunk) fun s => (Stream.peek s chunk, s) := by
  intro ask s d tmp w hw
  obtain ⟨m, e, e1⟩ := hw.getS
  unfold peek
  rw [bind_ret e, e1]
  exact ⟨w, rfl, hw⟩

theorem reads_skip : Reads skip fun s => ((), Stream.skip s) := by
  intro ask s d tmp w hw
  obtain ⟨last, h⟩ := hw
  obtain ⟨m, e, e1, _⟩ := h.getS
  unfold skip
  rw [bind_ret e, e1]
  obtain ⟨w', k, h'⟩ := h.setRest (Stream.skip s) e
  exact ⟨w', k, h'.any⟩

/-- A string is read: the stream keeps it. -/
theorem getUntil_any (h : Any ask s d tmp w) (accept : Bool) (chunks : List (List Char)) :
    match Stream.getUntil chunks s with
    | none => getUntil accept chunks w = .ret none w
    | some f => ∃ id w', getUntil accept chunks w = .ret (some (⟨id, toStr f.text⟩, f.chunk)) w' ∧
        At ask (if accept then f.after else f.at_) d tmp (some id) w' := by
  obtain ⟨last, h⟩ := h
  obtain ⟨m, e, e1, _⟩ := h.getS
  unfold getUntil
  rw [bind_ret e, e1]
  cases hs : Stream.getUntil chunks s with
  | none => rfl
  | some f =>
    obtain ⟨w1, k1, h1⟩ := freeLast_at h
    have h2 := h1.alloc
    obtain ⟨id, es, hp⟩ := h2.stream
    refine ⟨w1.next, { w1 with heap := w1.next :: w1.heap, next := w1.next + 1, stream := some ⟨id, if accept then f.after else f.at_, some w1.next, none, none, true⟩ }, ?_,
      ⟨⟨id, rfl, hp.trans (by blocks)⟩, h2.dtd, h2.made, h2.nodup, h2.fresh, h2.errors⟩⟩
    simp only
    rw [bind_ret k1, bind_alloc, bind_ret (getS_eq es)]
    rfl

/-- A string is read and taken from the stream. -/
theorem take_any (h : Any ask s d tmp w) (accept : Bool) (chunks : List (List Char)) {β : Type} (k : Option (Text × Nat) → M β) :
    match Stream.getUntil chunks s with
    | none => (getUntil accept chunks >>= k) w = k none w
    | some f => ∃ id w', (getUntil accept chunks >>= k) w = k (some (⟨id, toStr f.text⟩, f.chunk)) w' ∧
        At ask (if accept then f.after else f.at_) d tmp (some id) w' := by
  have := getUntil_any h accept chunks
  cases hs : Stream.getUntil chunks s with
  | none =>
    rw [hs] at this
    exact bind_ret this
  | some f =>
    rw [hs] at this
    obtain ⟨id, w', e, h'⟩ := this
    exact ⟨id, w', bind_ret e, h'⟩

/-- A text is read where it is. -/
theorem getUntilRef_any (h : Any ask s d tmp w) (chunks : List (List Char)) :
    ∃ w', getUntilRef chunks w = .ret (Stream.getUntilRef chunks s).1.isSome w' ∧ Any ask (Stream.getUntilRef chunks s).2 d tmp w' := by
  obtain ⟨last, h⟩ := h
  obtain ⟨m, e, e1, _⟩ := h.getS
  unfold getUntilRef Stream.getUntilRef
  rw [bind_ret e, e1]
  cases hs : Stream.getUntil chunks s with
  | none => exact ⟨w, rfl, h.any⟩
  | some f =>
    obtain ⟨w1, k1, h1⟩ := freeLast_at h
    obtain ⟨m1, k2, _, _⟩ := h1.getS
    obtain ⟨w2, k3, h2⟩ := h1.setRest f.after k2
    refine ⟨w2, ?_, ?_⟩
    · simp only
      rw [bind_ret k1, bind_ret k2, bind_ret k3, pure_eq]
      congr 1
      cases f.text <;> simp
    · by_cases ht : f.text = []
      · simpa [ht] using h2.any
      · simpa [ht] using h2.any

/-- The stream and the DTD linked to it are released. -/
theorem streamFree_linked {id : Nat} {near following : Option Nat} (hs : w.stream = some ⟨id, s, last, near, following, true⟩)
    (hd : w.dtd = some d) (hm : d.Made)
    (hp : w.heap.Perm (id :: (last.toList ++ (near.toList ++ (following.toList ++ (d.blocks ++ tmp)))))) :
    ∃ h, streamFree w = .ret () { w with heap := h, stream := none, dtd := none } ∧ h.Perm tmp := by
  unfold streamFree
  rw [bind_ret (getS_eq hs)]
  simp only [if_true]
  obtain ⟨h1, e1, p1⟩ := dtdFree_run hd hm (tmp := id :: (last.toList ++ (near.toList ++ (following.toList ++ tmp))))
    (hp.trans (by blocks))
  rw [bind_ret e1]
  obtain ⟨h2, e2, p2⟩ := ((frees_freeOpt last).seq ((frees_freeOpt near).seq ((frees_freeOpt following).seq (frees_free id))))
    { w with heap := h1, dtd := none } tmp (p1.trans (by blocks))
  refine ⟨h2, ?_, p2⟩
  have e3 : (do
      freeOpt last
      freeOpt near
      freeOpt following
      free id
      dropStream : M Unit) = ((do
      freeOpt last
      freeOpt near
      freeOpt following
      free id : M Unit) >>= fun _ => dropStream) := by
    simp only [bind_assoc]
  rw [e3, bind_ret e2]
  rfl

/-- After an error was told the stream keeps the texts of its place. -/
theorem errorNew_at (h : At ask s d tmp last w) (code : Int) : ∃ w' id near following, errorNew code w = .ret () w' ∧
    w'.stream = some ⟨id, s, last, near, following, true⟩ ∧ w'.dtd = some d ∧
    w'.heap.Perm (id :: (last.toList ++ (near.toList ++ (following.toList ++ (d.blocks ++ tmp))))) ∧ w'.heap.Nodup ∧
    w'.errors = if ask then some [code] else none := by
  obtain ⟨id, e, hp⟩ := h.stream
  unfold errorNew
  have ha : asked w = .ret ask w := by
    unfold asked
    rw [h.errors]
    cases ask <;> rfl
  rw [bind_ret ha]
  cases ask with
  | false =>
    exact ⟨w, id, none, none, rfl, e, h.dtd, hp, h.nodup, h.errors⟩
  | true =>
    simp only [if_true]
    have hn := h.alloc
    have hf := h.fresh
    by_cases hs : s = []
    · have e1 : getFollowing w = .ret () w := by
        unfold getFollowing
        rw [bind_ret (getS_eq e)]
        simp [hs, pure_eq]
      rw [bind_ret e1]
      refine ⟨{ w with heap := w.next :: w.heap, next := w.next + 1, stream := some ⟨id, s, last, some w.next, none, true⟩, errors := some [code] }, id, some w.next, none, ?_, rfl, h.dtd, ?_, hn.nodup, rfl⟩
      · have e2 : getNear w = .ret () { w with heap := w.next :: w.heap, next := w.next + 1, stream := some ⟨id, s, last, some w.next, none, true⟩ } := by
          unfold getNear
          rw [bind_ret (getS_eq e)]
          rfl
        rw [bind_ret e2]
        simp only [putError, h.errors, if_true, Option.map_some, List.nil_append]
      · exact (hp.cons w.next).trans (by blocks)
    · have e1 : getFollowing w = .ret () { w with heap := w.next :: w.heap, next := w.next + 1, stream := some ⟨id, s, last, none, some w.next, true⟩ } := by
        unfold getFollowing
        rw [bind_ret (getS_eq e)]
        simp only [List.isEmpty_iff, hs, if_false]
        rfl
      rw [bind_ret e1]
      refine ⟨{ w with heap := (w.next + 1) :: w.next :: w.heap, next := w.next + 1 + 1, stream := some ⟨id, s, last, some (w.next + 1), some w.next, true⟩, errors := some [code] }, id, some (w.next + 1), some w.next, ?_, rfl, h.dtd, ?_, ?_, rfl⟩
      · have e2 : getNear { w with heap := w.next :: w.heap, next := w.next + 1, stream := some ⟨id, s, last, none, some w.next, true⟩ } = .ret () { w with heap := (w.next + 1) :: w.next :: w.heap, next := w.next + 1 + 1, stream := some ⟨id, s, last, some (w.next + 1), some w.next, true⟩ } := rfl
        rw [bind_ret e2]
        simp only [putError, h.errors, if_true, Option.map_some, List.nil_append]
      · exact ((hp.cons w.next).cons (w.next + 1)).trans (by blocks)
      · have := hn.alloc.nodup
        exact this

theorem oneError {code : Int} (hc : code < 0) (h : w.errors = if ask then some [code] else none) : Spec.DtdMem.OneError ask w := by
  unfold Spec.DtdMem.OneError
  cases ask with
  | true => exact ⟨code, h, hc⟩
  | false => exact h

theorem fail_any (h : Any ask s d tmp w) {code : Int} (hc : code < 0) : ∃ w', fail code w = .ret () w' ∧ Dead ask tmp w' := by
  obtain ⟨last, h⟩ := h
  obtain ⟨w1, id, near, following, e, hs, hd, hp, hn, he⟩ := errorNew_at h code
  obtain ⟨h2, e2, p⟩ := streamFree_linked hs hd h.made hp
  unfold fail
  refine ⟨{ w1 with heap := h2, stream := none, dtd := none }, by rw [bind_ret e]; exact e2, rfl, rfl, p, ?_, oneError hc he⟩
  exact perm_nodup (a := id :: (last.toList ++ (near.toList ++ (following.toList ++ d.blocks)))) (hp.trans (by blocks)) hn p

/-- An error while a content model is read: what was read of the element is lost. -/
theorem specFail_any {α : Type} {stack : Nat} (h : Any ask s d (stack :: tmp) w) :
    ∃ w', (specFail stack : M (Option α)) w = .ret none w' ∧ Dead ask tmp w' := by
  obtain ⟨last, h⟩ := h
  obtain ⟨w1, id, near, following, e, hs, hd, hp, hn, he⟩ := errorNew_at h (-1)
  have hp' : w1.heap.Perm ([stack] ++ (id :: (last.toList ++ (near.toList ++ (following.toList ++ (d.blocks ++ tmp)))))) :=
    hp.trans (by blocks)
  obtain ⟨h2, e2, p2⟩ := frees_free stack w1 _ hp'
  obtain ⟨h3, e3, p3⟩ := streamFree_linked (w := { w1 with heap := h2 }) hs hd h.made p2
  unfold specFail
  refine ⟨{ w1 with heap := h3, stream := none, dtd := none }, by rw [bind_ret e, bind_ret e2, bind_ret e3]; rfl, rfl, rfl, p3, ?_, oneError (by decide) he⟩
  exact perm_nodup (a := stack :: id :: (last.toList ++ (near.toList ++ (following.toList ++ d.blocks)))) (hp.trans (by blocks)) hn p3

end

end DtdMem
end Axl
