/-
The stream over the memory (`Axl.Blocks`) does what the stream of `Axl.Stream` does, and keeps its blocks in order.
-/
import Verif.Spec.ParseMem
import Verif.Proofs.Stream

namespace Axl
namespace Blocks
open Str

theorem bind_ret {α β : Type} {m : M α} {f : α → M β} {w w' : World} {a : α} (h : m w = .ret a w') :
    (m >>= f) w = f a w' := by
  show M.bind m f w = _
  simp [M.bind, h]

theorem bind_ub {α β : Type} {m : M α} {f : α → M β} {w : World} (h : m w = .ub) : (m >>= f) w = .ub := by
  show M.bind m f w = _
  simp [M.bind, h]

theorem bind_loop {α β : Type} {m : M α} {f : α → M β} {w : World} (h : m w = .loop) : (m >>= f) w = .loop := by
  show M.bind m f w = _
  simp [M.bind, h]

theorem pure_eq {α : Type} (a : α) (w : World) : (pure a : M α) w = .ret a w := rfl

theorem ofOption_some {α : Type} (a : α) (w : World) : M.ofOption (some a) w = .ret a w := rfl

theorem bind_setS {β : Type} (s : MStream) (f : Unit → M β) (w : World) :
    (setS s >>= f) w = f () { w with stream := some s } := bind_ret rfl

theorem bind_setD {β : Type} (d : MDoc) (f : Unit → M β) (w : World) :
    (setD d >>= f) w = f () { w with doc := some d } := bind_ret rfl

theorem bind_pure_run {α β : Type} (a : α) (f : α → M β) (w : World) : ((pure a : M α) >>= f) w = f a w := bind_ret rfl

theorem bind_some_run {α β : Type} (a : α) (f : α → M β) (w : World) : (M.ofOption (some a) >>= f) w = f a w := bind_ret rfl

theorem bind_alloc {β : Type} (data : List Char) (fac : Bool) (f : Nat → M β) (w : World) :
    (alloc data fac >>= f) w =
      f w.next { w with heap := fun i => if i = w.next then some ⟨data, fac⟩ else w.heap i, next := w.next + 1 } := bind_ret rfl

theorem world_eta {w : World} {ms : MStream} (h : w.stream = some ms) : { w with stream := some ms } = w := by
  rw [← h]

theorem ite_run {α : Type} {p : Prop} [Decidable p] (m n : M α) (w : World) :
    (if p then m else n) w = if p then m w else n w := by split <;> rfl

/-- The blocks that are not of the factory are these, each once; nothing is there beyond the last allocated. -/
structure Owns (heap : Nat → Option Block) (next : Nat) (ids : List Nat) : Prop where
  nodup : ids.Nodup
  live  : ∀ i ∈ ids, ∃ data, heap i = some ⟨data, false⟩
  only  : ∀ i b, heap i = some b → b.factory = true ∨ i ∈ ids
  fresh : ∀ i, next ≤ i → heap i = none

theorem Owns.perm {heap : Nat → Option Block} {next : Nat} {a b : List Nat} (h : Owns heap next a) (p : a.Perm b) :
    Owns heap next b :=
  ⟨p.nodup_iff.1 h.nodup, fun i hi => h.live i (p.mem_iff.2 hi), fun i x hx => (h.only i x hx).imp id p.mem_iff.1, h.fresh⟩

theorem Owns.free {heap : Nat → Option Block} {next i : Nat} {ids : List Nat} (h : Owns heap next (i :: ids)) :
    Owns (fun j => if j = i then none else heap j) next ids := by
  have hn := List.nodup_cons.1 h.nodup
  refine ⟨hn.2, fun j hj => ?_, fun j b hb => ?_, fun j hj => ?_⟩
  · obtain ⟨data, e⟩ := h.live j (by simp [hj])
    have : j ≠ i := fun e => hn.1 (e ▸ hj)
    exact ⟨data, by simp [this, e]⟩
  · by_cases hji : j = i
    · simp [hji] at hb
    · simp only [hji, if_false] at hb
      rcases h.only j b hb with h1 | h1
      · exact .inl h1
      · exact .inr ((List.mem_cons.1 h1).resolve_left hji)
  · simp [h.fresh j hj]

theorem Owns.lt {heap : Nat → Option Block} {next i : Nat} {ids : List Nat} (h : Owns heap next ids) {b : Block}
    (hi : heap i = some b) : i < next := by
  refine Nat.lt_of_not_le fun hle => ?_
  rw [h.fresh i hle] at hi
  cases hi

theorem Owns.alloc {heap : Nat → Option Block} {next : Nat} {ids : List Nat} (h : Owns heap next ids) (data : List Char) :
    Owns (fun j => if j = next then some ⟨data, false⟩ else heap j) (next + 1) (next :: ids) := by
  have hf : ∀ j ∈ ids, j ≠ next := fun j hj e => by
    obtain ⟨d, hd⟩ := h.live j hj
    have := h.lt hd
    omega
  refine ⟨List.nodup_cons.2 ⟨fun hm => hf _ hm rfl, h.nodup⟩, fun j hj => ?_, fun j b hb => ?_, fun j hj => ?_⟩
  · rcases List.mem_cons.1 hj with rfl | hj
    · exact ⟨data, by simp⟩
    · obtain ⟨d, hd⟩ := h.live j hj
      exact ⟨d, by simp [hf j hj, hd]⟩
  · by_cases hji : j = next
    · exact .inr (by simp [hji])
    · simp only [hji, if_false] at hb
      rcases h.only j b hb with h1 | h1
      · exact .inl h1
      · exact .inr (by simp [h1])
  · have : j ≠ next := by omega
    simp only [this, if_false]
    exact h.fresh j (by omega)

theorem Owns.allocFactory {heap : Nat → Option Block} {next : Nat} {ids : List Nat} (h : Owns heap next ids) (data : List Char) :
    Owns (fun j => if j = next then some ⟨data, true⟩ else heap j) (next + 1) ids := by
  refine ⟨h.nodup, fun j hj => ?_, fun j b hb => ?_, fun j hj => ?_⟩
  · obtain ⟨d, hd⟩ := h.live j hj
    have := h.lt hd
    exact ⟨d, by simp [show j ≠ next by omega, hd]⟩
  · by_cases hji : j = next
    · simp only [hji, if_true] at hb
      cases hb
      exact .inl rfl
    · simp only [hji, if_false] at hb
      exact h.only j b hb
  · have : j ≠ next := by omega
    simp only [this, if_false]
    exact h.fresh j (by omega)

/-- Writing a block changes nothing of who owns what. -/
theorem Owns.write {heap : Nat → Option Block} {next i : Nat} {ids : List Nat} (h : Owns heap next ids) {b : Block}
    (hi : heap i = some b) (data : List Char) :
    Owns (fun j => if j = i then some ⟨data, b.factory⟩ else heap j) next ids := by
  refine ⟨h.nodup, fun j hj => ?_, fun j c hc => ?_, fun j hj => ?_⟩
  · obtain ⟨d, hd⟩ := h.live j hj
    by_cases hji : j = i
    · subst hji
      rw [hi] at hd
      cases hd
      exact ⟨data, by simp⟩
    · exact ⟨d, by simp [hji, hd]⟩
  · by_cases hji : j = i
    · simp only [hji, if_true] at hc
      cases hc
      subst hji
      exact h.only j b hi
    · simp only [hji, if_false] at hc
      exact h.only j c hc
  · have := h.lt hi
    simp only [show j ≠ i by omega, if_false]
    exact h.fresh j hj

/-- The encoding of a document in construction. -/
def EncIs (heap : Nat → Option Block) (d : MDoc) (enc : Option (List Char)) : Prop :=
  match d.encoding with
  | none => enc = none
  | some id => ∃ data, heap id = some ⟨data, false⟩ ∧ NUL ∈ data ∧ enc = some (toStr data)

/-- The memory while the text `src` is parsed: the stream at a place of the text, from which its memory is as it was
given; the document linked to it; no error so far; and the blocks are those of the stream, of the document, and `tmp`. -/
structure Live (src : List Char) (ask : Bool) (tmp : List Nat) (enc : Option (List Char)) (w : World) (ms : MStream) (d : MDoc) :
    Prop where
  stream : w.stream = some ms
  doc    : w.doc = some d
  size   : ms.size = src.length
  len    : ms.mem.length = src.length + 1
  idx    : ms.index ≤ src.length
  mem    : ms.mem.drop ms.index = src.drop ms.index ++ [NUL]
  bytes  : ∀ (j : Nat) c, ms.mem[j]? = some c → c = NUL ∨ src[j]? = some c
  near   : ms.nearTo = none
  foll   : ms.following = none
  linked : ms.linked = true
  owns   : Owns w.heap w.next (ms.lastChunk.toList ++ (d.encoding.toList ++ tmp))
  enc    : EncIs w.heap d enc
  errors : w.errors = if ask then some [] else none

section
variable {src : List Char} {ask : Bool} {tmp : List Nat} {enc : Option (List Char)} {w : World} {ms : MStream} {d : MDoc}

theorem getS_eq (h : w.stream = some ms) : getS w = .ret ms w := by simp [getS, h]

theorem getD_eq (h : w.doc = some d) : getD w = .ret d w := by simp [getD, h]

theorem EncIs.free {heap : Nat → Option Block} {d : MDoc} {i : Nat} (h : EncIs heap d enc) (hi : d.encoding ≠ some i) :
    EncIs (fun j => if j = i then none else heap j) d enc := by
  unfold EncIs at *
  split <;> rename_i he
  · simpa [he] using h
  · rename_i id
    simp only [he] at h
    obtain ⟨data, h1, h2, h3⟩ := h
    have : id ≠ i := fun e => hi (by rw [he, e])
    exact ⟨data, by simp [this, h1], h2, h3⟩

theorem EncIs.set {heap : Nat → Option Block} {d : MDoc} {i : Nat} (h : EncIs heap d enc) (hi : d.encoding ≠ some i) (b : Option Block) :
    EncIs (fun j => if j = i then b else heap j) d enc := by
  unfold EncIs at *
  split <;> rename_i he
  · simpa [he] using h
  · rename_i id
    simp only [he] at h
    obtain ⟨data, h1, h2, h3⟩ := h
    have : id ≠ i := fun e => hi (by rw [he, e])
    exact ⟨data, by simp [this, h1], h2, h3⟩

theorem Live.enc_lt (h : Live src ask tmp enc w ms d) : d.encoding ≠ some w.next := by
  intro e
  obtain ⟨data, hd⟩ := h.owns.live w.next (by simp [e])
  have := h.owns.lt hd
  omega

/-- The place moves forward. -/
theorem Live.forward (h : Live src ask tmp enc w ms d) {n : Nat} (hn : ms.index + n ≤ src.length) :
    ms.mem.drop (ms.index + n) = src.drop (ms.index + n) ++ [NUL] := by
  rw [← List.drop_drop, h.mem, List.drop_append_of_le_length (by simp; omega), List.drop_drop]

/-- Another stream in the same memory. -/
theorem Live.setStream (h : Live src ask tmp enc w ms d) {ms' : MStream} (hm : ms'.mem = ms.mem ∨ ∃ j, ms'.mem = ms.mem.set j NUL) (hs : ms'.size = ms.size)
    (hi : ms'.index ≤ src.length) (hd : ms'.mem.drop ms'.index = src.drop ms'.index ++ [NUL])
    (hl : ms'.lastChunk = ms.lastChunk) (h1 : ms'.nearTo = ms.nearTo) (h2 : ms'.following = ms.following) (h3 : ms'.linked = ms.linked) :
    Live src ask tmp enc { w with stream := some ms' } ms' d :=
  have hlen : ms'.mem.length = ms.mem.length := by rcases hm with e | ⟨j, e⟩ <;> simp [e]
  have hbytes : ∀ (j : Nat) c, ms'.mem[j]? = some c → c = NUL ∨ src[j]? = some c := by
    intro j c hc
    rcases hm with e | ⟨k, e⟩
    · exact h.bytes j c (e ▸ hc)
    · rw [e, List.getElem?_set] at hc
      split at hc
      · split at hc
        · cases hc
          exact .inl rfl
        · cases hc
      · exact h.bytes j c hc
  ⟨rfl, h.doc, hs.trans h.size, hlen.trans h.len, hi, hd, hbytes, h1.trans h.near, h2.trans h.foll, h3.trans h.linked,
    by rw [hl]; exact h.owns, h.enc, h.errors⟩

theorem freeLast_spec (h : Live src ask tmp enc w ms d) :
    ∃ w', freeLast w = .ret () w' ∧ Live src ask tmp enc w' { ms with lastChunk := none } d ∧ w'.next = w.next ∧
      (ms.lastChunk = none → w'.heap = w.heap) ∧ (∀ i b, w.heap i = some b → b.factory = true → w'.heap i = some b) ∧
      (∀ i ∈ tmp, w'.heap i = w.heap i) := by
  unfold freeLast
  rw [bind_ret (getS_eq h.stream)]
  cases hl : ms.lastChunk with
  | none =>
    refine ⟨w, ?_, ?_, rfl, fun _ => rfl, fun _ _ h _ => h, fun _ _ => rfl⟩
    · simp only [freeOpt]
      rw [bind_ret (pure_eq _ _), bind_ret (getS_eq h.stream)]
      simp only [setS]
      congr 2
      rw [← hl]
      cases w
      simp only [World.mk.injEq, and_self, true_and, and_true]
      exact h.stream.symm
    · have := h
      rw [show { ms with lastChunk := none } = ms by rw [← hl]]
      exact h
  | some id =>
    have ho := h.owns
    rw [hl] at ho
    simp only [Option.toList_some, List.singleton_append] at ho
    obtain ⟨data, hd⟩ := ho.live id (by simp)
    refine ⟨{ w with heap := fun j => if j = id then none else w.heap j, stream := some { ms with lastChunk := none } }, ?_, ?_, rfl, ?_, ?_, ?_⟩
    · simp only [freeOpt]
      rw [bind_ret (w' := { w with heap := fun j => if j = id then none else w.heap j }) (a := ()) (by simp [free, hd])]
      rw [bind_ret (getS_eq (ms := ms) (by exact h.stream))]
      rfl
    · have hn := List.nodup_cons.1 ho.nodup
      refine ⟨rfl, h.doc, h.size, h.len, h.idx, h.mem, h.bytes, h.near, h.foll, h.linked, ho.free, ?_, h.errors⟩
      refine h.enc.free fun e => hn.1 ?_
      simp [e]
    · intro e
      cases e
    · intro i b hb hf
      have : i ≠ id := by
        intro e
        rw [e, hd] at hb
        cases hb
        cases hf
      simp [this, hb]
    · intro i hi
      have hn := List.nodup_cons.1 ho.nodup
      have : i ≠ id := fun e => hn.1 (by simp [← e, hi])
      simp [this]

theorem accept_spec (h : Live src ask tmp enc w ms d) (hn : ms.index + ms.prev ≤ src.length) :
    ∃ w', accept w = .ret () w' ∧
      Live src ask tmp enc w' { ms with index := ms.index + ms.prev, global := ms.global + ms.prev, prev := 0, lastChunk := none } d ∧
      w'.next = w.next ∧ (∀ i b, w.heap i = some b → b.factory = true → w'.heap i = some b) := by
  unfold accept
  rw [bind_ret (getS_eq h.stream)]
  have h1 := h.setStream (ms' := { ms with index := ms.index + ms.prev, global := ms.global + ms.prev, prev := 0 }) (.inl rfl) rfl hn
    (h.forward hn) rfl rfl rfl rfl
  obtain ⟨w', e, h2, h3, _, h4, _⟩ := freeLast_spec h1
  refine ⟨w', ?_, h2, h3, h4⟩
  rw [bind_setS]
  exact e

theorem sameBytes_eq {mem : List Char} : ∀ {chunk rest : List Char} {i : Nat}, mem.drop i = rest ++ [NUL] → NUL ∉ chunk →
    sameBytes mem chunk i = some (chunk.isPrefixOf rest)
  | [], rest, i, _, _ => by simp [sameBytes]
  | c :: cs, [], i, h, hn => by
    have : mem[i]? = some NUL := by
      have := congrArg (fun l => l[0]?) h
      simpa using this
    simp only [sameBytes, this, if_true]
    rfl
  | c :: cs, b :: rest, i, h, hn => by
    have e : mem[i]? = some b := by
      have := congrArg (fun l => l[0]?) h
      simpa using this
    have h' : mem.drop (i + 1) = rest ++ [NUL] := by
      have := congrArg (List.drop 1) h
      simpa using this
    simp only [List.mem_cons, not_or] at hn
    simp only [sameBytes, e]
    by_cases hb : b = NUL
    · have : (c == b) = false := by
        simp only [beq_eq_false_iff_ne]
        exact fun e => hn.1 (by rw [e, hb])
      simp only [hb, if_true, List.isPrefixOf]
      rw [← hb, this]
      rfl
    · simp only [hb, if_false]
      by_cases hc : c = b
      · simp [hc, List.isPrefixOf, sameBytes_eq h' hn.2]
      · simp [hc, List.isPrefixOf]

theorem drop_length_eq (h : Live src ask tmp enc w ms d) : (src.drop ms.index).length = ms.size - ms.index := by
  rw [h.size]
  simp

/-- What looking for a chunk answers, and the stream after it. -/
theorem peek_live (h : Live src ask tmp enc w ms d) {chunk : List Char} (hc : NUL ∉ chunk) :
    ∃ r p, peek chunk w = .ret r { w with stream := some { ms with prev := p } } ∧
      match Stream.eat (src.drop ms.index) chunk with
      | none => ¬ r > 0
      | some rest => r > 0 ∧ p = chunk.length ∧ ms.index + p ≤ src.length ∧ rest = src.drop (ms.index + p) := by
  unfold peek commonInspect
  rw [bind_ret (getS_eq h.stream)]
  have hl := drop_length_eq h
  have hi := h.idx
  have hz := h.size
  have hw : w = { w with stream := some { ms with prev := ms.prev } } := by
    cases w
    simp only [World.mk.injEq, and_self, true_and, and_true]
    exact h.stream
  rw [ite_run]
  by_cases hf : (src.drop ms.index).length < chunk.length
  · have : fallOutside ms chunk.length = true := by simp only [fallOutside, decide_eq_true_eq]; omega
    refine ⟨-1, ms.prev, ?_, ?_⟩
    · rw [if_pos this, pure_eq, ← hw]
    · simp only [Stream.eat, Stream.inspect, hf, if_true]
      omega
  · have : fallOutside ms chunk.length = false := by simp only [fallOutside, decide_eq_false_iff_not]; omega
    simp only [this, sameBytes_eq h.mem hc]
    rw [if_neg (by simp), bind_ret (ofOption_some _ _), ite_run]
    by_cases hp : chunk.isPrefixOf (src.drop ms.index) = true
    · refine ⟨1, chunk.length, ?_, ?_⟩
      · rw [if_pos hp, bind_setS]
        rfl
      · simp only [Stream.eat, Stream.inspect, hf, if_false, hp, if_true, List.drop_drop]
        refine ⟨by omega, trivial, by omega, trivial⟩
    · refine ⟨0, ms.prev, ?_, ?_⟩
      · rw [if_neg hp, pure_eq, ← hw]
      · simp only [Bool.not_eq_true] at hp
        simp only [Stream.eat, Stream.inspect, hf, hp, if_false]
        simp

/-- What looking for a chunk and taking it answers, and the stream after it. -/
theorem inspect_live (h : Live src ask tmp enc w ms d) {chunk : List Char} (hc : NUL ∉ chunk) :
    match Stream.inspect (src.drop ms.index) chunk with
    | .short => inspect chunk w = .ret (-1) w
    | .no => inspect chunk w = .ret 0 w
    | .yes rest => ∃ w' ms', inspect chunk w = .ret 1 w' ∧ Live src ask tmp enc w' ms' d ∧ rest = src.drop ms'.index ∧
        ms'.factory = ms.factory ∧ (∀ i b, w.heap i = some b → b.factory = true → w'.heap i = some b) ∧ ms'.lastChunk = none := by
  unfold inspect commonInspect
  rw [bind_ret (getS_eq h.stream)]
  have hl := drop_length_eq h
  have hi := h.idx
  have hz := h.size
  rw [ite_run]
  by_cases hf : (src.drop ms.index).length < chunk.length
  · have : fallOutside ms chunk.length = true := by simp only [fallOutside, decide_eq_true_eq]; omega
    simp only [Stream.inspect, hf, if_true]
    rw [if_pos this, pure_eq]
  · have : fallOutside ms chunk.length = false := by simp only [fallOutside, decide_eq_false_iff_not]; omega
    simp only [this, sameBytes_eq h.mem hc, Stream.inspect, hf, if_false]
    rw [if_neg Bool.false_ne_true, bind_some_run, ite_run]
    by_cases hp : chunk.isPrefixOf (src.drop ms.index) = true
    · simp only [hp, if_true]
      rw [bind_setS]
      have h1 := h.setStream (ms' := { ms with prev := chunk.length }) (.inl rfl) rfl hi h.mem rfl rfl rfl rfl
      obtain ⟨w', e, h2, _, h3⟩ := accept_spec h1 (by simp only; omega)
      refine ⟨w', _, ?_, h2, by simp, rfl, h3, rfl⟩
      rw [bind_ret e, pure_eq]
    · simp only [Bool.not_eq_true] at hp
      simp only [hp]
      rfl

theorem skipLoop_live : ∀ {n : Nat} {w : World} {ms : MStream}, Live src ask tmp enc w ms d → n = ms.size - ms.index →
    ∃ ms', skipLoop n w = .ret () { w with stream := some ms' } ∧ Live src ask tmp enc { w with stream := some ms' } ms' d ∧
      src.drop ms'.index = Stream.skip (src.drop ms.index) ∧ ms.index ≤ ms'.index ∧ ms'.mem = ms.mem ∧ ms'.factory = ms.factory ∧
      ms'.lastChunk = ms.lastChunk
  | 0, w, ms, h, hn => by
    have hl := drop_length_eq h
    have : src.drop ms.index = [] := List.length_eq_zero_iff.1 (by omega)
    refine ⟨ms, ?_, (world_eta h.stream).symm ▸ h, by rw [this]; rfl, Nat.le_refl _, rfl, rfl, rfl⟩
    rw [world_eta h.stream]
    rfl
  | n + 1, w, ms, h, hn => by
    have hl := drop_length_eq h
    cases hr : src.drop ms.index with
    | nil => simp [hr] at hl; omega
    | cons c rest =>
      have hm := h.mem
      rw [hr] at hm
      have e : ms.mem[ms.index]? = some c := by
        have := congrArg (fun l => l[0]?) hm
        simpa using this
      have hz := h.size
      unfold skipLoop
      rw [bind_ret (getS_eq h.stream), e, bind_some_run, ite_run]
      by_cases hc : isWhite c = true
      · rw [if_pos hc, bind_setS]
        have h1 := h.setStream (ms' := { ms with index := ms.index + 1, global := ms.global + 1, prev := 0 }) (.inl rfl) rfl
          (by simp only; omega) (h.forward (by omega)) rfl rfl rfl rfl
        obtain ⟨ms', e1, h2, h3, h4, h5, h6, h7⟩ := skipLoop_live h1 (n := n) (by simp only; omega)
        refine ⟨ms', e1, h2, ?_, by simp only at h4; omega, h5, h6, h7⟩
        rw [h3]
        simp only [Stream.skip, List.dropWhile_cons, hc, if_true]
        rw [← List.drop_drop, hr]
        rfl
      · rw [if_neg hc]
        refine ⟨ms, ?_, (world_eta h.stream).symm ▸ h, ?_, Nat.le_refl _, rfl, rfl, rfl⟩
        · rw [world_eta h.stream]
          rfl
        · rw [hr]
          simp [Stream.skip, List.dropWhile_cons, hc]

theorem skip_live (h : Live src ask tmp enc w ms d) :
    ∃ ms', skip w = .ret () { w with stream := some ms' } ∧ Live src ask tmp enc { w with stream := some ms' } ms' d ∧
      src.drop ms'.index = Stream.skip (src.drop ms.index) ∧ ms.index ≤ ms'.index ∧ ms'.mem = ms.mem ∧ ms'.factory = ms.factory ∧
      ms'.lastChunk = ms.lastChunk := by
  unfold skip
  rw [bind_ret (getS_eq h.stream)]
  exact skipLoop_live h rfl

theorem chunkAt_eq {mem : List Char} {size i : Nat} {rest : List Char} (hm : mem.drop i = rest ++ [NUL]) (hs : rest.length = size - i)
    (hi : i ≤ size) : ∀ {chunk : List Char}, NUL ∉ chunk →
    chunkAt mem size i chunk = some (decide (chunk ≠ [' '] ∧ chunk ≠ [] ∧ chunk.isPrefixOf rest = true))
  | [], _ => by simp [chunkAt]
  | c :: cs, hn => by
    simp only [List.mem_cons, not_or] at hn
    by_cases hb : (c = ' ' ∧ cs = []) ∨ size < i + (cs.length + 1)
    · simp only [chunkAt, hb, if_true]
      rcases hb with ⟨rfl, rfl⟩ | hb
      · simp
      · have : (c :: cs).isPrefixOf rest = false := by
          rw [← Bool.not_eq_true]
          intro h
          have := (List.isPrefixOf_iff_prefix.1 h).length_le
          simp only [List.length_cons] at this
          omega
        simp [this]
    · simp only [chunkAt, hb, if_false]
      simp only [not_or, not_and] at hb
      cases rest with
      | nil => simp at hs; omega
      | cons b rest =>
        have e : mem[i]? = some b := by
          have := congrArg (fun l => l[0]?) hm
          simpa using this
        have h' : mem.drop (i + 1) = rest ++ [NUL] := by
          have := congrArg (List.drop 1) hm
          simpa using this
        have hne : (c :: cs) ≠ [' '] := by simpa using hb.1
        simp only [e, hne, ne_eq, not_false_eq_true, true_and, List.isPrefixOf]
        by_cases hc : c = b
        · simp only [hc, if_true, sameBytes_eq h' hn.2]
          cases hq : cs.isPrefixOf rest <;> simp
        · simp [hc]

theorem firstChunk_eq {mem : List Char} {size i : Nat} {rest : List Char} (hm : mem.drop i = rest ++ [NUL]) (hs : rest.length = size - i)
    (hi : i ≤ size) : ∀ {chunks : List (List Char)} {k : Nat}, (∀ c ∈ chunks, NUL ∉ c) →
    firstChunk mem size i k chunks = some (Stream.firstChunk rest k chunks)
  | [], _, _ => rfl
  | c :: cs, k, hn => by
    simp only [firstChunk, Stream.firstChunk, chunkAt_eq hm hs hi (hn c (by simp))]
    by_cases hp : c ≠ [' '] ∧ c ≠ [] ∧ c.isPrefixOf rest = true
    · simp [hp]
    · simp only [hp, decide_false, if_false]
      exact firstChunk_eq hm hs hi (fun c hc => hn c (by simp [hc]))

theorem findLoop_eq {mem : List Char} {size base : Nat} {chunks : List (List Char)} (hc : ∀ c ∈ chunks, NUL ∉ c) :
    ∀ {rest : List Char} {index : Nat}, mem.drop (base + index) = rest ++ [NUL] → rest.length = size - (base + index) →
      base + index ≤ size →
      findLoop mem size base chunks rest.length index =
        some ((Stream.getUntil chunks rest).map fun f => (index + f.text.length, f.chunk, f.at_.length - f.after.length))
  | [], _, _, _, _ => rfl
  | c :: rest, index, hm, hs, hi => by
    have e : mem[base + index]? = some c := by
      have := congrArg (fun l => l[0]?) hm
      simpa using this
    have h' : mem.drop (base + (index + 1)) = rest ++ [NUL] := by
      have := congrArg (List.drop 1) hm
      simpa [Nat.add_assoc] using this
    simp only [List.length_cons] at hs
    have hma : matchAt mem size chunks (base + index) = some (Stream.matchAt chunks c rest) := by
      unfold matchAt Stream.matchAt
      rw [firstChunk_eq hm (by simpa using hs) hi hc, e]
      simp only []
      cases isWhite c <;> cases chunks.contains [' '] <;> rfl
    simp only [List.length_cons, findLoop, hma, Stream.getUntil]
    cases hmm : Stream.matchAt chunks c rest with
    | some p =>
      obtain ⟨k, n⟩ := p
      have hn : n ≤ rest.length + 1 := by
        unfold Stream.matchAt at hmm
        split at hmm
        · cases hmm
          omega
        · have : ∀ {cs : List (List Char)} {k0 : Nat}, Stream.firstChunk (c :: rest) k0 cs = some (k, n) → n ≤ rest.length + 1 := by
            intro cs
            induction cs with
            | nil => intro k0 h; cases h
            | cons x xs ih =>
              intro k0 h
              simp only [Stream.firstChunk] at h
              split at h
              · rename_i hp
                cases h
                have := (List.isPrefixOf_iff_prefix.1 hp.2.2).length_le
                simpa using this
              · exact ih h
          exact this hmm
      simp only [Option.map_some, List.length_nil, Nat.add_zero, Option.some.injEq, Prod.mk.injEq, true_and, List.length_drop, List.length_cons]
      omega
    | none =>
      simp only []
      rw [findLoop_eq hc h' (by omega) (by omega)]
      cases Stream.getUntil chunks rest with
      | none => rfl
      | some f =>
        simp only [Option.map_some, List.length_cons, Option.some.injEq, Prod.mk.injEq, true_and, and_true]
        omega

/-- The search over the memory finds what the search over the list does. -/
theorem find_eq (h : Live src ask tmp enc w ms d) {chunks : List (List Char)} (hc : ∀ c ∈ chunks, NUL ∉ c) :
    find ms chunks = some ((Stream.getUntil chunks (src.drop ms.index)).map fun f =>
      (f.text.length, f.chunk, f.at_.length - f.after.length)) := by
  have hl := drop_length_eq h
  have hz := h.size
  have hi := h.idx
  unfold find
  rw [← hl, findLoop_eq hc (base := ms.index) (index := 0) h.mem hl (by omega)]
  simp

theorem matchAt_pos {chunks : List (List Char)} {c : Char} {r : List Char} {k n : Nat} (h : Stream.matchAt chunks c r = some (k, n)) :
    1 ≤ n ∧ n ≤ r.length + 1 := by
  unfold Stream.matchAt at h
  split at h
  · cases h
    omega
  · have : ∀ {cs : List (List Char)} {k0 : Nat}, Stream.firstChunk (c :: r) k0 cs = some (k, n) → 1 ≤ n ∧ n ≤ r.length + 1 := by
      intro cs
      induction cs with
      | nil => intro k0 h; cases h
      | cons x xs ih =>
        intro k0 h
        simp only [Stream.firstChunk] at h
        split at h
        · rename_i hp
          cases h
          have h1 := (List.isPrefixOf_iff_prefix.1 hp.2.2).length_le
          have h2 := List.length_pos_iff.2 hp.2.1
          simp only [List.length_cons] at h1
          omega
        · exact ih h
    exact this h

theorem advance_eq {acc : Bool} {i l : Nat} (h : w.stream = some ms) :
    advance acc i l w = .ret () { w with stream := some { ms with index := ms.index + (if acc then l else 0) + i, global := ms.global + (if acc then l else 0) + i, prev := 0 } } := by
  unfold advance
  rw [bind_ret (getS_eq h)]
  rfl

/-- Where the search stops, in numbers. -/
theorem found_numbers {chunks : List (List Char)} {i : Nat} (hi : i ≤ src.length) {f : Stream.Found}
    (h : Stream.getUntil chunks (src.drop i) = some f) :
    src.drop i = f.text ++ f.at_ ∧ 1 ≤ f.at_.length - f.after.length ∧
    i + f.text.length + (f.at_.length - f.after.length) ≤ src.length ∧
    src.drop (i + f.text.length) = f.at_ ∧ src.drop (i + f.text.length + (f.at_.length - f.after.length)) = f.after := by
  obtain ⟨c, r, n, h1, h2, h3, h4, _⟩ := Stream.getUntil_some h
  have hn := matchAt_pos h3
  have hl := congrArg List.length h2
  have ht : src.drop (i + f.text.length) = f.at_ := by
    rw [← List.drop_drop, h2, h1, List.drop_left]
  have hlen : f.at_.length - f.after.length = n := by
    rw [h4, h1]
    simp only [List.length_drop, List.length_cons]
    omega
  rw [hlen]
  simp only [List.length_drop, List.length_append, List.length_cons] at hl
  refine ⟨by rw [h1]; exact h2, hn.1, by omega, ht, ?_⟩
  rw [← List.drop_drop, ht, h4, h1]

theorem getUntil_live (h : Live src ask tmp enc w ms d) {chunks : List (List Char)} (hc : ∀ c ∈ chunks, NUL ∉ c) (acc : Bool) :
    match Stream.getUntil chunks (src.drop ms.index) with
    | none => getUntil acc chunks w = .ret none w
    | some f => ∃ w1 g, getUntil acc chunks w = .ret (some (w1.next, f.chunk))
          { w1 with heap := fun i => if i = w1.next then some ⟨f.text ++ [NUL], ms.factory⟩ else w1.heap i, next := w1.next + 1, stream := some { ms with lastChunk := some w1.next, global := g, prev := 0, index := ms.index + f.text.length + (if acc then f.at_.length - f.after.length else 0) } } ∧
        Live src ask tmp enc w1 { ms with lastChunk := none } d ∧ w1.next = w.next ∧
        (∀ i b, w.heap i = some b → b.factory = true → w1.heap i = some b) ∧ (∀ i ∈ tmp, w1.heap i = w.heap i) := by
  unfold getUntil
  rw [bind_ret (getS_eq h.stream), find_eq h hc, bind_some_run]
  cases hg : Stream.getUntil chunks (src.drop ms.index) with
  | none => rfl
  | some f =>
    simp only [Option.map_some]
    obtain ⟨w1, e1, h1, h2, _, h3, h4⟩ := freeLast_spec h
    have hcopy : copyBytes ms.mem ms.index f.text.length = some f.text := by
      have hnum := found_numbers h.idx hg
      have := h.len
      unfold copyBytes
      rw [if_pos (by omega), h.mem, hnum.1, List.append_assoc, List.take_left]
    refine ⟨w1, ms.global + (if acc then f.at_.length - f.after.length else 0) + f.text.length, ?_, h1, h2, h3, h4⟩
    rw [bind_ret e1, bind_ret (getS_eq h1.stream)]
    simp only [hcopy]
    rw [bind_some_run, bind_alloc, bind_ret (getS_eq (ms := { ms with lastChunk := none }) (by exact h1.stream)), bind_setS]
    unfold advance
    refine (bind_ret (a := ()) (w' := _) ?_).trans rfl
    rw [bind_ret (getS_eq (ms := { ms with lastChunk := some w1.next }) rfl)]
    simp only [setS, Nat.add_right_comm]

theorem toStr_snoc (t : List Char) : toStr (t ++ [NUL]) = toStr t := by
  induction t with
  | nil => rfl
  | cons c t ih =>
    unfold toStr at *
    simp only [List.cons_append, List.takeWhile_cons]
    split
    · rw [ih]
    · rfl

theorem readStr_eq {id : Nat} {t : List Char} {fac : Bool} (h : w.heap id = some ⟨t ++ [NUL], fac⟩) :
    readStr id w = .ret (toStr t) w := by
  unfold readStr
  rw [bind_ret (a := t ++ [NUL]) (w' := w) (by simp [readBlock, h])]
  simp [cstr, M.ofOption, toStr_snoc, pure_eq]

/-- A text read that the stream keeps. -/
theorem getUntil_keep (h : Live src ask tmp enc w ms d) {chunks : List (List Char)} (hc : ∀ c ∈ chunks, NUL ∉ c)
    (hf : ms.factory = false) :
    match Stream.getUntil chunks (src.drop ms.index) with
    | none => getUntil true chunks w = .ret none w
    | some f => ∃ id w' ms', getUntil true chunks w = .ret (some (id, f.chunk)) w' ∧ Live src ask tmp enc w' ms' d ∧
        ms'.lastChunk = some id ∧ w'.heap id = some ⟨f.text ++ [NUL], false⟩ ∧ src.drop ms'.index = f.after ∧ ms'.factory = false ∧
        (∀ i ∈ tmp, w'.heap i = w.heap i) := by
  have hl := getUntil_live h hc true
  split <;> rename_i hg
  · simpa [hg] using hl
  · rename_i f
    simp only [hg] at hl
    obtain ⟨w1, g, e, h1, h2, h3, h4⟩ := hl
    have hnum := found_numbers h.idx hg
    simp only [if_true] at e
    have htmp : ∀ i ∈ tmp, i ≠ w1.next := fun i hi e => by
      obtain ⟨_, hd⟩ := h1.owns.live i (by simp [hi])
      have := h1.owns.lt hd
      omega
    refine ⟨_, _, _, e, ⟨rfl, h1.doc, h.size, h.len, hnum.2.2.1, ?_, h.bytes, h.near, h.foll, h.linked, ?_, ?_, h1.errors⟩, rfl, ?_, hnum.2.2.2.2, hf, ?_⟩
    · simp only [Nat.add_assoc]
      exact h.forward (by omega)
    · simp only [hf]
      exact h1.owns.alloc _
    · exact h1.enc.set h1.enc_lt _
    · simp [hf]
    · intro i hi
      simp [htmp i hi, h4 i hi]

/-- A text read for the document, that the stream forgets. -/
theorem getUntil_give (h : Live src ask tmp enc w ms d) {chunks : List (List Char)} (hc : ∀ c ∈ chunks, NUL ∉ c)
    (hf : ms.factory = true) (acc fac : Bool) :
    match Stream.getUntil chunks (src.drop ms.index) with
    | none => getUntil acc chunks w = .ret none w
    | some f => ∃ id w' ms', getUntil acc chunks w = .ret (some (id, f.chunk)) w' ∧ w'.stream = some ms' ∧
        Live src ask tmp enc { w' with stream := some { ms' with lastChunk := none, factory := fac } }
          { ms' with lastChunk := none, factory := fac } d ∧
        w'.heap id = some ⟨f.text ++ [NUL], true⟩ ∧ src.drop ms'.index = (if acc then f.after else f.at_) ∧ ms'.factory = true ∧
        (∀ i b, w.heap i = some b → b.factory = true → w'.heap i = some b) := by
  have hl := getUntil_live h hc acc
  split <;> rename_i hg
  · simpa [hg] using hl
  · rename_i f
    simp only [hg] at hl
    obtain ⟨w1, g, e, h1, h2, h3, h4⟩ := hl
    have hnum := found_numbers h.idx hg
    refine ⟨_, _, _, e, rfl, ⟨rfl, h1.doc, h.size, h.len, ?_, ?_, h.bytes, h.near, h.foll, h.linked, ?_, ?_, h1.errors⟩, ?_, ?_, hf, ?_⟩
    · cases acc <;> simp only [Bool.false_eq_true, if_false, if_true] <;> omega
    · cases acc <;> simp only [Bool.false_eq_true, if_false, if_true, Nat.add_assoc]
      · exact h.forward (by omega)
      · exact h.forward (by omega)
    · simp only [hf]
      exact h1.owns.allocFactory _
    · exact h1.enc.set h1.enc_lt _
    · simp [hf]
    · cases acc
      · simpa using hnum.2.2.2.1
      · simpa using hnum.2.2.2.2
    · intro i b hi hb
      have h5 := h3 i b hi hb
      have := h1.owns.lt h5
      simp [show i ≠ w1.next by omega, h5]

theorem wr_eq {mem : List Char} {i : Nat} (h : i < mem.length) (c : Char) : wr mem (i : Int) c = some (mem.set i c) := by
  unfold wr
  simp
  omega

/-- A text read where it is. -/
theorem getUntilRef_live (h : Live src ask tmp enc w ms d) {chunks : List (List Char)} (hc : ∀ c ∈ chunks, NUL ∉ c) :
    match Stream.getUntil chunks (src.drop ms.index) with
    | none => getUntilRef chunks w = .ret none w
    | some f => ∃ w' ms', getUntilRef chunks w = .ret (if f.text = [] then none else some (ms.index, f.text.length)) w' ∧
        Live src ask tmp enc w' ms' d ∧ src.drop ms'.index = f.after ∧ ms'.factory = ms.factory ∧
        ms'.mem = ms.mem.set (ms.index + f.text.length) NUL ∧ ms.index + f.text.length < ms'.index ∧
        ms.mem.drop ms.index = f.text ++ (f.at_ ++ [NUL]) ∧ ms'.lastChunk = none := by
  unfold getUntilRef
  rw [bind_ret (getS_eq h.stream), find_eq h hc, bind_some_run]
  cases hg : Stream.getUntil chunks (src.drop ms.index) with
  | none => rfl
  | some f =>
    simp only [Option.map_some]
    obtain ⟨w1, e1, h1, h2, _, h3, h4⟩ := freeLast_spec h
    have hnum := found_numbers h.idx hg
    have hlen := h.len
    rw [bind_ret e1, bind_ret (getS_eq h1.stream)]
    simp only []
    rw [wr_eq (by omega), bind_some_run, bind_setS]
    rw [bind_ret (advance_eq rfl), pure_eq]
    have hret : (if f.text.length = 0 then none else some (ms.index, f.text.length)) =
        (if f.text = [] then none else some (ms.index, f.text.length)) := by
      simp [List.length_eq_zero_iff]
    rw [hret]
    have hL := h1.setStream (ms' := { ms with mem := ms.mem.set (ms.index + f.text.length) NUL, lastChunk := none, prev := 0, global := ms.global + (f.at_.length - f.after.length) + f.text.length, index := ms.index + (f.at_.length - f.after.length) + f.text.length })
      (.inr ⟨_, rfl⟩) rfl (by simp only; omega) (by
        simp only
        rw [List.drop_set_of_lt (by omega)]
        simp only [Nat.add_assoc]
        exact h.forward (by omega)) rfl rfl rfl rfl
    refine ⟨_, _, rfl, hL, ?_, rfl, rfl, by simp only; omega, by rw [h.mem, hnum.1, List.append_assoc], rfl⟩
    simp only
    rw [Nat.add_right_comm]
    exact hnum.2.2.2.2

theorem freeOpt_eq {o : Option Nat} {ids : List Nat} (h : Owns w.heap w.next (o.toList ++ ids)) :
    ∃ heap', freeOpt o w = .ret () { w with heap := heap' } ∧ Owns heap' w.next ids ∧
      ((∀ i b, w.heap i = some b → b.factory = false) → ∀ i b, heap' i = some b → b.factory = false) ∧
      (∀ i, some i ≠ o → heap' i = w.heap i) := by
  cases o with
  | none => exact ⟨w.heap, rfl, h, fun h => h, fun _ _ => rfl⟩
  | some id =>
    simp only [Option.toList_some, List.singleton_append] at h
    obtain ⟨data, hd⟩ := h.live id (by simp)
    refine ⟨_, by simp only [freeOpt, free, hd]; rfl, h.free, fun hf i b hb => ?_, fun i hi => ?_⟩
    · split at hb
      · cases hb
      · exact hf i b hb
    · simp only [ne_eq, Option.some.injEq] at hi
      simp [hi]

/-- Only these blocks are there. -/
def Left (w : World) (ids : List Nat) : Prop := w.stream = none ∧ w.doc = none ∧ ∀ i, (∃ b, w.heap i = some b) ↔ i ∈ ids

theorem Left.all (h : Left w []) : Spec.ParseMem.AllReleased w := by
  refine ⟨h.1, h.2.1, fun i => ?_⟩
  cases hi : w.heap i with
  | none => rfl
  | some b => exact absurd ((h.2.2 i).1 ⟨b, hi⟩) (by simp)

theorem Left.one {i : Nat} (h : Left w [i]) : Spec.ParseMem.OneLeft w := by
  obtain ⟨b, hb⟩ := (h.2.2 i).2 (by simp)
  refine ⟨h.1, h.2.1, i, b, hb, fun j hj => ?_⟩
  cases hi : w.heap j with
  | none => rfl
  | some b => exact absurd ((h.2.2 j).1 ⟨b, hi⟩) (by simpa using hj)

theorem streamFree_linked (hs : w.stream = some ms) (hd : w.doc = some d) (hl : ms.linked = true)
    {ids : List Nat} (ho : Owns w.heap w.next (d.encoding.toList ++ (ms.lastChunk.toList ++ (ms.nearTo.toList ++ (ms.following.toList ++ ids))))) :
    ∃ w', streamFree w = .ret () w' ∧ Left w' ids ∧ w'.errors = w.errors := by
  unfold streamFree docFree
  rw [bind_ret (getS_eq hs)]
  simp only [hl, if_true]
  let w1 : World := { w with heap := fun i => (w.heap i).filter fun b => !b.factory }
  have h1 : Owns w1.heap w1.next (d.encoding.toList ++ (ms.lastChunk.toList ++ (ms.nearTo.toList ++ (ms.following.toList ++ ids)))) := by
    refine ⟨ho.nodup, fun i hi => ?_, fun i b hb => ?_, fun i hi => ?_⟩
    · obtain ⟨data, e⟩ := ho.live i hi
      exact ⟨data, by simp [w1, e]⟩
    · simp only [w1, Option.filter_eq_some_iff] at hb
      exact ho.only i b hb.1
    · simp [w1, ho.fresh i hi]
  have hf1 : ∀ i b, w1.heap i = some b → b.factory = false := by
    intro i b hb
    simp only [w1, Option.filter_eq_some_iff] at hb
    simpa using hb.2
  obtain ⟨p2, e2, h2, hf2, _⟩ := freeOpt_eq h1
  obtain ⟨p3, e3, h3, hf3, _⟩ := freeOpt_eq (w := { w1 with heap := p2, doc := none }) h2
  obtain ⟨p4, e4, h4, hf4, _⟩ := freeOpt_eq (w := { w1 with heap := p3, doc := none }) h3
  obtain ⟨p5, e5, h5, hf5, _⟩ := freeOpt_eq (w := { w1 with heap := p4, doc := none }) h4
  refine ⟨{ w1 with heap := p5, doc := none, stream := none }, ?_, ⟨rfl, rfl, fun i => ⟨fun ⟨b, hp⟩ => ?_, fun hi => ?_⟩⟩, rfl⟩
  · refine (bind_ret (a := ()) (w' := { w1 with heap := p2, doc := none }) ?_).trans ?_
    · rw [bind_ret (getD_eq hd), bind_ret (m := freeFactory) (a := ()) (w' := w1) rfl, bind_ret e2]
      rfl
    · rw [bind_ret e3, bind_ret e4, bind_ret e5]
      rfl
  · rcases h5.only i b hp with hb | hb
    · rw [hf5 (hf4 (hf3 (hf2 hf1))) i b hp] at hb
      cases hb
    · exact hb
  · obtain ⟨data, hd⟩ := h5.live i hi
    exact ⟨_, hd⟩

theorem streamFree_unlinked (hs : w.stream = some ms) (hl : ms.linked = false) {ids : List Nat}
    (ho : Owns w.heap w.next (ms.lastChunk.toList ++ (ms.nearTo.toList ++ (ms.following.toList ++ ids)))) :
    ∃ heap', streamFree w = .ret () { w with heap := heap', stream := none } ∧ Owns heap' w.next ids ∧
      ∀ i ∈ ids, heap' i = w.heap i := by
  unfold streamFree
  rw [bind_ret (getS_eq hs)]
  simp only [hl, Bool.false_eq_true, if_false]
  obtain ⟨p2, e2, h2, _, k2⟩ := freeOpt_eq ho
  obtain ⟨p3, e3, h3, _, k3⟩ := freeOpt_eq (w := { w with heap := p2 }) h2
  obtain ⟨p4, e4, h4, _, k4⟩ := freeOpt_eq (w := { w with heap := p3 }) h3
  refine ⟨p4, ?_, h4, fun i hi => ?_⟩
  · rw [bind_ret e2, bind_ret e3, bind_ret e4]
    rfl
  · have hn : ∀ {o : Option Nat} {l : List Nat}, (o.toList ++ l).Nodup → i ∈ l → some i ≠ o := by
      intro o l hnd hil e
      subst e
      simp only [Option.toList_some, List.singleton_append] at hnd
      exact (List.nodup_cons.1 hnd).1 hil
    exact (k4 i (hn h3.nodup hi)).trans ((k3 i (hn h2.nodup (by simp [hi]))).trans (k2 i (hn ho.nodup (by simp [hi]))))

/-- The bytes of the memory up to a NUL are bytes of the text. -/
theorem cstr_prefix {mem : List Char} (hb : ∀ (j : Nat) c, mem[j]? = some c → c = NUL ∨ src[j]? = some c) :
    ∀ (n a : Nat), toStr ((mem.drop a).take n) <+: (src.drop a).take n := by
  intro n
  induction n with
  | zero => intro a; simp [toStr]
  | succ n ih =>
    intro a
    cases hm : mem[a]? with
    | none =>
      have : mem.drop a = [] := by simpa using hm
      simp [this, toStr]
    | some c =>
      have hlt := (List.getElem?_eq_some_iff.1 hm).1
      have e1 : mem.drop a = c :: mem.drop (a + 1) := by
        rw [List.drop_eq_getElem_cons hlt]
        congr 1
        exact (List.getElem?_eq_some_iff.1 hm).2
      rw [e1, List.take_succ_cons]
      by_cases hc : c = NUL
      · simp [toStr, hc]
      · have hs := (hb a c hm).resolve_left hc
        have hlt2 := (List.getElem?_eq_some_iff.1 hs).1
        have e2 : src.drop a = c :: src.drop (a + 1) := by
          rw [List.drop_eq_getElem_cons hlt2]
          congr 1
          exact (List.getElem?_eq_some_iff.1 hs).2
        rw [e2, List.take_succ_cons]
        have : toStr (c :: (mem.drop (a + 1)).take n) = c :: toStr ((mem.drop (a + 1)).take n) := by
          simp [toStr, hc]
        rw [this]
        exact List.prefix_cons_inj c |>.2 (ih (a + 1))

/-- The memory after a failure. -/
structure Dead (src : List Char) (ask : Bool) (w : World) : Prop where
  released : Spec.ParseMem.AllReleased w ∨ (Spec.ParseMem.StrayName src ∧ Spec.ParseMem.OneLeft w)
  error    : Spec.ParseMem.OneError src ask w

theorem near_bounds {count : Nat} (h : ms.index ≤ ms.size) :
    nearFirst ms count = ms.index - count ∧ nearSize ms count ≤ count + count + 1 ∧ nearFirst ms count + nearSize ms count ≤ ms.size := by
  unfold nearSize nearFirst
  refine ⟨?_, ?_, ?_⟩
  · split <;> omega
  · split <;> split <;> omega
  · split <;> split <;> omega

theorem getNear_spec {count : Nat} (hs : w.stream = some ms) (hi : ms.index ≤ ms.size)
    (hl : ms.mem.length = ms.size + 1) (hn : ms.nearTo = none) :
    getNear count w = .ret w.next { w with heap := fun i => if i = w.next then some ⟨(ms.mem.drop (nearFirst ms count)).take (nearSize ms count) ++ [NUL], false⟩ else w.heap i, next := w.next + 1, stream := some { ms with nearTo := some w.next } } := by
  unfold getNear
  rw [bind_ret (getS_eq hs)]
  simp only [hn, freeOpt]
  rw [bind_pure_run, bind_ret (getS_eq hs)]
  have hb := near_bounds (ms := ms) (count := count) hi
  rw [show copyBytes ms.mem (nearFirst ms count) (nearSize ms count) = some ((ms.mem.drop (nearFirst ms count)).take (nearSize ms count)) by
    unfold copyBytes
    rw [if_pos (by omega)]]
  rw [bind_some_run, bind_alloc, bind_ret (getS_eq (ms := ms) (by exact hs)), bind_setS]
  rfl

theorem getFollowing_spec {count : Nat} (hs : w.stream = some ms) (hi : ms.index < ms.size)
    (hl : ms.mem.length = ms.size + 1) (hn : ms.following = none) :
    ∃ n, getFollowing count w = .ret (some w.next) { w with heap := fun i => if i = w.next then some ⟨(ms.mem.drop ms.index).take n ++ [NUL], false⟩ else w.heap i, next := w.next + 1, stream := some { ms with following := some w.next } } ∧
      n = min count (ms.size - ms.index) := by
  unfold getFollowing
  rw [bind_ret (getS_eq hs), ite_run, if_neg (by omega)]
  simp only [hn, freeOpt]
  rw [bind_pure_run, bind_ret (getS_eq hs)]
  refine ⟨if ms.size < count + ms.index then ms.size - ms.index else count, ?_, by split <;> omega⟩
  rw [show copyBytes ms.mem ms.index (if ms.size < count + ms.index then ms.size - ms.index else count) = some ((ms.mem.drop ms.index).take (if ms.size < count + ms.index then ms.size - ms.index else count)) by
    unfold copyBytes
    rw [if_pos (by split <;> omega)]]
  rw [bind_some_run, bind_alloc, bind_ret (getS_eq (ms := ms) (by exact hs)), bind_setS]
  rfl

theorem bind_putError {β : Type} (e : Err) (f : Unit → M β) (w : World) :
    (putError e >>= f) w = f () { w with errors := w.errors.map (· ++ [e]) } := bind_ret rfl

theorem take_near {n m : Nat} {s : List Char} (h : n ≤ m) : s.take n <+: s.take m := List.take_prefix_take_left h

theorem perm_front {a b c : List Nat} : (a ++ (b ++ c)).Perm (b ++ (a ++ c)) := by
  rw [← List.append_assoc, ← List.append_assoc]
  exact List.Perm.append_right _ List.perm_append_comm

/-- A failure: one error, and everything is released. -/
theorem fail_spec (h : Live src ask tmp enc w ms d) {code : Int} {text : List Char} (hc : code < 0) (ht : text ≠ []) :
    ∃ w', fail code text w = .ret () w' ∧ Left w' tmp ∧ Spec.ParseMem.OneError src ask w' := by
  have ho : Owns w.heap w.next (ms.lastChunk.toList ++ (d.encoding.toList ++ tmp)) := h.owns
  unfold fail errorNew
  cases ask with
  | false =>
    have he : w.errors = none := by simpa using h.errors
    obtain ⟨w', e, h1, h2⟩ := streamFree_linked h.stream h.doc h.linked (by
      rw [h.near, h.foll]
      simpa using ho.perm perm_front)
    refine ⟨w', ?_, h1, by simp only [Spec.ParseMem.OneError]; simp [h2, he]⟩
    refine (bind_ret (a := ()) (w' := w) ?_).trans e
    rw [bind_ret (m := asked) (a := false) (w' := w) (by simp [asked, he])]
    rfl
  | true =>
    have he : w.errors = some [] := by simpa using h.errors
    have hask : asked w = .ret true w := by simp [asked, he]
    have hz := h.size
    have hix := h.idx
    have hlen := h.len
    by_cases hi : ms.index < ms.size
    · obtain ⟨n, ef, hn⟩ := getFollowing_spec (count := 10) h.stream hi (by omega) h.foll
      let ms1 : MStream := { ms with following := some w.next }
      let w1 : World := { w with heap := fun i => if i = w.next then some ⟨(ms.mem.drop ms.index).take n ++ [NUL], false⟩ else w.heap i, next := w.next + 1, stream := some ms1 }
      have en := getNear_spec (count := 10) (w := w1) (ms := ms1) rfl (by simp only [ms1]; omega) (by simp only [ms1]; omega) h.near
      let ms2 : MStream := { ms1 with nearTo := some w1.next }
      let near := (ms1.mem.drop (nearFirst ms1 10)).take (nearSize ms1 10)
      let w2 : World := { w1 with heap := fun i => if i = w1.next then some ⟨near ++ [NUL], false⟩ else w1.heap i, next := w1.next + 1, stream := some ms2 }
      let foll := (ms.mem.drop ms.index).take n
      let err : Err := ⟨code, text, some ⟨ms.size, ms.index, ms.global, toStr near, toStr foll⟩⟩
      let w3 : World := { w2 with errors := some [err] }
      have ho2 : Owns w2.heap w2.next (w1.next :: w.next :: (ms.lastChunk.toList ++ (d.encoding.toList ++ tmp))) :=
        (ho.alloc foll |> fun _ => (ho.alloc (foll ++ [NUL])).alloc (near ++ [NUL]))
      obtain ⟨w', e, h1, h2⟩ := streamFree_linked (w := w3) (ms := ms2) (d := d) rfl h.doc h.linked (by
        refine ho2.perm ?_
        simp only [ms2, ms1, Option.toList_some]
        refine (perm_front (a := [w1.next, w.next])).trans ?_
        refine (List.Perm.append_left _ perm_front).trans ?_
        exact perm_front)
      refine ⟨w', ?_, h1, ?_⟩
      · refine (bind_ret (a := ()) (w' := w3) ?_).trans e
        rw [bind_ret hask, ite_run, if_pos rfl, bind_ret ef, bind_ret en, bind_ret (getS_eq (ms := ms2) rfl)]
        rw [bind_ret (readStr_eq (t := near) (fac := false) (by simp [w2, w1, near]))]
        simp only [readOpt]
        rw [bind_ret (readStr_eq (t := foll) (fac := false) (by simp [w1, foll]))]
        simp only [putError, w3, w2, w1, he, Option.map_some, List.nil_append, err, ms2, ms1, near]
      · simp only [Spec.ParseMem.OneError, if_true]
        refine ⟨err, h2.trans rfl, hc, ht, fun p hp => ?_⟩
        simp only [err, Option.some.injEq] at hp
        subst hp
        refine ⟨hz, hix, ?_, ?_⟩
        · simp only [foll]
          rw [h.mem, List.take_append_of_le_length (by simp; omega)]
          have : (src.drop ms.index).take n = (src.drop ms.index).take 10 := by
            by_cases hle : 10 ≤ ms.size - ms.index
            · rw [hn, Nat.min_eq_left hle]
            · rw [hn, Nat.min_eq_right (by omega), List.take_of_length_le (by simp; omega), List.take_of_length_le (by simp; omega)]
          rw [this]
          rfl
        · have hb := near_bounds (ms := ms1) (count := 10) (by simp only [ms1]; omega)
          simp only [near]
          rw [hb.1]
          exact (cstr_prefix h.bytes _ _).trans (take_near hb.2.1)
    · have en := getNear_spec (count := 10) (w := w) (ms := ms) h.stream (by omega) (by omega) h.near
      let ms2 : MStream := { ms with nearTo := some w.next }
      let near := (ms.mem.drop (nearFirst ms 10)).take (nearSize ms 10)
      let w2 : World := { w with heap := fun i => if i = w.next then some ⟨near ++ [NUL], false⟩ else w.heap i, next := w.next + 1, stream := some ms2 }
      let err : Err := ⟨code, text, some ⟨ms.size, ms.index, ms.global, toStr near, []⟩⟩
      let w3 : World := { w2 with errors := some [err] }
      have ho2 : Owns w2.heap w2.next (w.next :: (ms.lastChunk.toList ++ (d.encoding.toList ++ tmp))) := ho.alloc (near ++ [NUL])
      obtain ⟨w', e, h1, h2⟩ := streamFree_linked (w := w3) (ms := ms2) (d := d) rfl h.doc h.linked (by
        refine ho2.perm ?_
        simp only [ms2, h.foll, Option.toList_some, Option.toList_none, List.nil_append]
        refine (perm_front (a := [w.next])).trans ?_
        refine (List.Perm.append_left _ perm_front).trans ?_
        exact perm_front)
      refine ⟨w', ?_, h1, ?_⟩
      · refine (bind_ret (a := ()) (w' := w3) ?_).trans e
        have ef : getFollowing 10 w = .ret none w := by
          unfold getFollowing
          rw [bind_ret (getS_eq h.stream), ite_run, if_pos (by omega)]
          rfl
        rw [bind_ret hask, ite_run, if_pos rfl, bind_ret ef, bind_ret en, bind_ret (getS_eq (ms := ms2) rfl)]
        rw [bind_ret (readStr_eq (t := near) (fac := false) (by simp [near]))]
        simp only [readOpt]
        rw [bind_pure_run]
        simp only [putError, w3, w2, he, Option.map_some, List.nil_append, err, ms2, near]
      · simp only [Spec.ParseMem.OneError, if_true]
        refine ⟨err, h2.trans rfl, hc, ht, fun p hp => ?_⟩
        simp only [err, Option.some.injEq] at hp
        subst hp
        refine ⟨hz, hix, ?_, ?_⟩
        · simp only
          rw [List.drop_of_length_le (by omega)]
          rfl
        · have hb := near_bounds (ms := ms) (count := 10) (by omega)
          simp only [near]
          rw [hb.1]
          exact (cstr_prefix h.bytes _ _).trans (take_near hb.2.1)

end

end Blocks
end Axl
