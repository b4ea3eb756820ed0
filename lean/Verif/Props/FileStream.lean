/-
Property C44: a document of a file is read as the same document in memory.
-/
import Verif.Proofs.FileRead

namespace Axl
open FileStream Spec.FileStream

/-- **C44**.  A stream opened over a file, whatever its first read gives, has all the content to give. -/
theorem C44_open (content : List Char) (sizes : List Nat) {bufSize : Nat} (hb : 0 < bufSize) :
    Plain (new ⟨content, sizes⟩ bufSize) ∧ pending (new ⟨content, sizes⟩ bufSize) = content := by
  obtain ⟨more, s', e1, e2, e3, -⟩ := prebuffer_plain 0
    (s := (⟨[], 0, bufSize, some ⟨content, sizes⟩, none, [], 0, false, none⟩ : FS Char))
    ⟨rfl, fun _ _ => rfl, rfl, by simp, by simp, hb⟩
  have hs : new ⟨content, sizes⟩ bufSize = s' := by
    simp only [prebuffer, shift] at e1
    rw [if_neg (by simp), if_neg (by simp; omega)] at e1
    simp only [Res.ok.injEq] at e1
    exact congrArg Prod.snd e1
  rw [hs]
  exact ⟨e2, by simpa [pending, unread] using e3⟩

/-- **C44**.  A refill, at any moment and whatever the read gives, loses nothing and repeats nothing; it says
that there is more exactly when the file has more. -/
theorem C44_refill (junk : Nat) {s : FS Char} (h : Plain s) :
    ∃ s', prebuffer junk s = .ok (decide (unread s.fd ≠ []), s') ∧ Plain s' ∧ pending s' = pending s := by
  obtain ⟨more, s', e1, e2, e3, e4, e5⟩ := prebuffer_plain junk h
  refine ⟨s', ?_, e2, e3⟩
  rw [e1]
  cases more with
  | true =>
    obtain ⟨-, -, bytes, q1, -, q2⟩ := e4 rfl
    have : unread s.fd ≠ [] := by rw [q2]; simp [q1]
    simp [this]
  | false => simp [(e5 rfl).2.1]

/-- **C44**.  The question whether something remains is answered for the file and not for the buffer. -/
theorem C44_remains (junk : Nat) {s : FS Char} (h : Plain s) :
    ∃ s', remains junk s = .ok (decide (pending s ≠ []), s') ∧ Plain s' ∧ pending s' = pending s := by
  unfold remains
  split
  · rename_i hi
    obtain ⟨s', a, b, c⟩ := C44_refill junk h
    refine ⟨s', ?_, b, c⟩
    have : s.data.drop s.index = [] := by simpa using hi
    rw [a]
    simp [pending, this]
  · rename_i hi
    refine ⟨s, ?_, h, rfl⟩
    have : pending s ≠ [] := by
      intro he
      simp only [pending, List.append_eq_nil_iff, List.drop_eq_nil_iff] at he
      omega
    simp [this]

/-- **C44**.  Skipping white space goes to the same place as over memory, and it ends. -/
theorem C44_skip (junk : Nat) {s : FS Char} (h : Plain s) :
    ∃ s', skip junk ((pending s).length + 1) s = .ok s' ∧ Plain s' ∧ pending s' = Stream.skip (pending s) :=
  skip_plain junk _ s h (by omega)

/-- **C44** (partial).  Looking for a chunk that is not the last thing of the file: the answer and what is left are
those over memory.  Missing: reads that give less than asked for, and a file that ends inside of the chunk
(then the bytes left in the buffer from before are compared; what is answered, if it is, is right:
`C44_inspect_sound`). -/
theorem C44_inspect_partial (junk : Nat) {s : FS Char} (h : Plain s) (hreg : ∀ src, s.fd = some src → src.sizes = [])
    {chunk : List Char} (hc : chunk.length ≤ s.bufSize)
    (hend : ¬ (pending s <+: chunk ∧ (pending s).length < chunk.length)) (accept : Bool) :
    ∃ l s', inspect junk s chunk accept = .ok (l, s') ∧ Plain s' ∧
      ((∃ rest, pending s = chunk ++ rest ∧ (∃ r, l = .yes r) ∧ pending s' = if accept then rest else pending s) ∨
       (¬ chunk <+: pending s ∧ (l = .no ∨ l = .short) ∧ pending s' = pending s)) := by
  have : ∃ x, inspect junk s chunk accept = .ok x := by
    apply Classical.byContradiction
    intro hn
    exact hend (inspect_ub junk h hreg chunk hc accept hn)
  obtain ⟨⟨l, s'⟩, hx⟩ := this
  obtain ⟨a, b⟩ := inspect_plain junk h chunk accept hx
  refine ⟨l, s', hx, a, ?_⟩
  simp only [Sees] at b
  cases he : Stream.eat (pending s) chunk with
  | some rest => rw [he] at b; exact .inl ⟨rest, eat_some_iff.1 he, b⟩
  | none => rw [he] at b; exact .inr ⟨eat_none_iff.1 he, b⟩

/-- **C44**.  Any answer of looking for a chunk is the one over memory, whatever the reads give. -/
theorem C44_inspect_sound (junk : Nat) {s : FS Char} (h : Plain s) (chunk : List Char) (accept : Bool)
    {l : Stream.Look} {s' : FS Char} (hr : inspect junk s chunk accept = .ok (l, s')) :
    Plain s' ∧
      ((∃ rest, pending s = chunk ++ rest ∧ (∃ r, l = .yes r) ∧ pending s' = if accept then rest else pending s) ∨
       (¬ chunk <+: pending s ∧ (l = .no ∨ l = .short) ∧ pending s' = pending s)) := by
  obtain ⟨a, b⟩ := inspect_plain junk h chunk accept hr
  refine ⟨a, ?_⟩
  simp only [Sees] at b
  cases he : Stream.eat (pending s) chunk with
  | some rest => rw [he] at b; exact .inl ⟨rest, eat_some_iff.1 he, b⟩
  | none => rw [he] at b; exact .inr ⟨eat_none_iff.1 he, b⟩

/-- **C44** (partial).  Reading up to one of some characters, whatever the reads give: the text, the character found and
what is left are those over memory, if something follows the character.  Missing: a character that is the last
byte of the file (see `C44_last_byte`) and chunks of several characters (see `C44_split_terminator`). -/
theorem C44_until_character_partial (junk : Nat) {s : FS Char} (h : Plain s) {chunks : List (List Char)}
    (hs : ∀ c ∈ chunks, c.length = 1) (accept : Bool) {fuel : Nat} (hf : 2 * (pending s).length < fuel) :
    ∃ got s', getUntil junk fuel chunks accept s = .ok (got, s') ∧ Plain s' ∧
      match Stream.getUntil chunks (pending s) with
      | none => got = none ∧ pending s' = pending s
      | some f => f.at_.length = 1 ∨
          (got = some ⟨f.text, f.chunk⟩ ∧ pending s' = if accept then f.after else f.at_) := by
  have hu : (unread s.fd).length ≤ (pending s).length := by simp [pending]
  obtain ⟨got, s', a, b, c⟩ := until_single junk (chunks := chunks) hs (maxLength_single hs) accept fuel (by omega)
    fuel 0 ((s.data.length : Int) - s.index) s h (by have := h.index; omega) (.inl (by omega)) (by omega) (by omega)
  refine ⟨got, s', a, b, ?_⟩
  cases hg : Stream.getUntil chunks (pending s) with
  | none =>
    rcases c with ⟨c1, c2⟩ | ⟨-, -, f, hf, -⟩
    · simp only [memUntil, hg] at c1 c2
      exact ⟨c1, c2⟩
    · rw [hg] at hf; simp at hf
  | some f =>
    rcases c with ⟨c1, c2⟩ | ⟨-, -, g, hf, hl⟩
    · simp only [memUntil, hg] at c1 c2
      exact .inr ⟨c1, c2⟩
    · rw [hg] at hf
      simp only [Option.some.injEq] at hf
      exact .inl (hf ▸ hl)

/-- **C44** (partial).  Reading up to any chunks when the file has no more to give: all is as over memory.  With
this, a file that fits in the buffer and that is read at once is read as memory. -/
theorem C44_until_buffered_partial (junk : Nat) {s : FS Char} (h : Plain s) (hu : unread s.fd = [])
    (chunks : List (List Char)) (accept : Bool) {fuel : Nat} (hf : (pending s).length < fuel) :
    ∃ got s', getUntil junk fuel chunks accept s = .ok (got, s') ∧ Plain s' ∧
      match Stream.getUntil chunks (pending s) with
      | none => got = none ∧ pending s' = pending s
      | some f => got = some ⟨f.text, f.chunk⟩ ∧ pending s' = if accept then f.after else f.at_ := by
  have hl : (pending s).length = s.data.length - s.index := by simp [pending, hu]
  have hi := h.index
  obtain ⟨got, s', a, b, c, d⟩ := until_buffered junk chunks (maxLength chunks) accept fuel (by omega)
    fuel 0 s h hu (by omega) (by omega) (by omega)
  have e : ((s.data.length - s.index - 0 : Nat) : Int) = (s.data.length : Int) - s.index := by omega
  rw [e] at a
  refine ⟨got, s', a, b, ?_⟩
  simp only [memUntil] at c d
  cases hg : Stream.getUntil chunks (pending s) with
  | none => rw [hg] at c d; exact ⟨c, d⟩
  | some f => rw [hg] at c d; exact ⟨c, d⟩

/-- A reader that gets the text before a chunk, or nothing. -/
def C44_textBefore (chunks : List (List Char)) (s : FS Char) : Option (Option (List Char)) :=
  match getUntil 0 50 chunks true s with
  | .ok (got, _) => some (got.map Got.text)
  | _ => none

/-- **C44**: not of the code.  The end of a comment that comes in two reads, `--` and `>`, is not found. -/
theorem C44_split_terminator :
    C44_textBefore [c!"-->"] (newMem c!"a--><b/>") = some (some c!"a") ∧
    C44_textBefore [c!"-->"] (new ⟨c!"a--><b/>", [3]⟩ 8) = some none := by
  decide +kernel

/-- **C44**: not of the code.  The end of a tag that comes in two reads, with the `>` the last byte of the file, is
not found. -/
theorem C44_last_byte :
    C44_textBefore [c!">"] (newMem c!"root>") = some (some c!"root") ∧
    C44_textBefore [c!">"] (new ⟨c!"root>", [2]⟩ 8) = some none := by
  decide +kernel

/-- **C44**: not of the code.  A file in UTF-8 with the content checked: a character that comes in two reads is taken as
an error although the text is right (here bytes are written as characters). -/
theorem C44_utf8_split :
    let check : List Char → Bool := fun bytes =>
      Babel.checkUtf8 (some (bytes.map fun c => UInt8.ofNat c.toNat)) bytes.length == some .good
    let content : List Char := ['a', 'b', Char.ofNat 0xC3, Char.ofNat 0xA9, 'c']
    check content = true ∧
    ((new ⟨content, [2, 1]⟩ 8 : FS Char) |> setupCheck check).elim none (fun s =>
      match prebuffer 0 s with
      | .ok (more, s') => some (more, pending s')
      | _ => none) = some (false, ['a', 'b', Char.ofNat 0xA9, 'c']) := by
  decide +kernel

/-- A stream in the middle of a file: a byte of the buffer consumed, two to read by one. -/
example : ∃ s : FS Char, Plain s ∧ s.index = 1 ∧ s.fd.isSome ∧ pending s = c!" =x" ∧
    ∃ s', skip 0 4 s = .ok s' ∧ pending s' = c!"=x" := by
  refine ⟨⟨c!"a ", 1, 2, some ⟨c!"=x", [1, 1]⟩, none, [], 0, false, none⟩, ⟨rfl, fun _ _ => rfl, rfl, by decide, by decide, by decide⟩,
    rfl, rfl, rfl, _, rfl, by decide +kernel⟩

example : C44_textBefore [c!"=", c!" "] (new ⟨c!"name='1'", [1, 2, 1, 3]⟩ 3) = some (some c!"name") := by
  decide +kernel

end Axl
