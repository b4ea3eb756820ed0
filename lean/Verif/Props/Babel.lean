/-
Properties C39 and C40: the check of UTF-8 and the decoding of ISO-8859.
-/
import Verif.Proofs.Babel
import Verif.Proofs.Single
import Verif.Proofs.FileStream

namespace Axl
open Babel Spec Spec.Utf8

/-! ### C39 -/

/-- **C39**.  The check accepts exactly the sequences of properly led and continued characters, for any bytes and
any length given for them. -/
theorem C39_accepts (mem : List UInt8) (length : Nat) (h : length ≤ mem.length) :
    checkUtf8 (some mem) length = some .good ↔ WellShaped (mem.take length) := by
  have : checkUtf8 (some mem) length = some (checkLoop (mem.take length) mem.length 0) := by
    simp only [checkUtf8]
    rw [if_neg (by omega), if_neg (by omega), if_pos (by simpa using h)]
    simp
  rw [this, Option.some.injEq, checkLoop_good]
  simp; omega

/-- **C39**.  It rejects all the rest, with the index of the first bad character. -/
theorem C39_rejects (mem : List UInt8) (length : Nat) (h : length ≤ mem.length) (k : Nat) :
    checkUtf8 (some mem) length = some (.bad k) ↔ FirstBad (mem.take length) k := by
  have : checkUtf8 (some mem) length = some (checkLoop (mem.take length) mem.length 0) := by
    simp only [checkUtf8]
    rw [if_neg (by omega), if_neg (by omega), if_pos (by simpa using h)]
    simp
  rw [this, Option.some.injEq, checkLoop_bad]
  simp; omega

/-- **C39**.  It always ends with one of both answers, and never reads outside of the bytes given. -/
theorem C39_answers (mem : List UInt8) (length : Nat) (h : length ≤ mem.length) :
    (checkUtf8 (some mem) length = some .good ∧ WellShaped (mem.take length)) ∨
    ∃ k, checkUtf8 (some mem) length = some (.bad k) ∧ FirstBad (mem.take length) k := by
  rcases checkLoop_spec (mem.take length) mem.length 0 (by omega) (by simp; omega) (by simpa using wellShaped_nil)
    with ⟨_, w⟩ | ⟨k, _, b⟩
  · exact .inl ⟨(C39_accepts mem length h).2 w, w⟩
  · exact .inr ⟨k, (C39_rejects mem length h k).2 b, b⟩

/-- **C39**.  With -1 for the length it is the string before the first NUL that is checked. -/
theorem C39_string (bytes rest : List UInt8) (h : 0 ∉ bytes) :
    (checkUtf8 (some (bytes ++ 0 :: rest)) (-1) = some .good ↔ WellShaped bytes) ∧
    ∀ k, checkUtf8 (some (bytes ++ 0 :: rest)) (-1) = some (.bad k) ↔ FirstBad bytes k := by
  have hs : ∀ l : List UInt8, 0 ∉ l → (l ++ 0 :: rest).takeWhile (fun b => decide (b ≠ 0)) = l := by
    intro l
    induction l with
    | nil => intro _; simp
    | cons b l ih =>
      intro hl
      simp only [List.mem_cons, not_or] at hl
      have hb : b ≠ 0 := fun e => hl.1 e.symm
      have := ih hl.2
      rw [List.cons_append, List.takeWhile_cons, if_pos (by simp [hb]), this]
  have : checkUtf8 (some (bytes ++ 0 :: rest)) (-1) =
      some (checkLoop bytes (bytes ++ 0 :: rest).length 0) := by
    simp only [checkUtf8]
    rw [if_neg (by decide), if_pos trivial, if_pos (by simp), hs bytes h]
  rw [this]
  constructor
  · rw [Option.some.injEq, checkLoop_good]
    simp
  · intro k
    rw [Option.some.injEq, checkLoop_bad]
    simp

/-- **C39**.  Every text encoded in UTF-8 is accepted. -/
theorem C39_text (text : List Char) :
    checkUtf8 (some (encode text)) (encode text).length = some .good := by
  rw [C39_accepts _ _ (Nat.le_refl _), List.take_length]
  exact wellShaped_encode text

/-- **C39**.  NULL and a length below -1 are rejected. -/
theorem C39_wrong_arguments :
    (∀ length, checkUtf8 none length = some (.bad 0)) ∧
    ∀ mem length, length < -1 → checkUtf8 (some mem) length = some (.bad 0) := by
  refine ⟨fun _ => rfl, fun mem length h => ?_⟩
  simp only [checkUtf8]
  rw [if_pos h]

/-- **C39**.  The form is all that is checked: the encoding too long of a character (here the NUL in two bytes), a
surrogate and a number over 10FFFF are accepted although they are not UTF-8 of any text. -/
theorem C39_form_only : ∀ bytes ∈ [[0xC0, 0x80], [0xED, 0xA0, 0x80], [0xF7, 0xBF, 0xBF, (0xBF : UInt8)]],
    checkUtf8 (some bytes) bytes.length = some .good ∧ ∀ text, encode text ≠ bytes := by
  have aux : ∀ {bytes : List UInt8} {text : List Char}, encode text = bytes →
      (∀ c : Char, ∀ rest, bytes ≠ String.utf8EncodeChar c ++ rest) → bytes = [] := by
    intro bytes text h hn
    cases text with
    | nil => rw [← h]; rfl
    | cons c t => exact absurd h.symm (hn c (encode t))
  have hval : ∀ c : Char, c.val.toNat < 0xD800 ∨ 0xDFFF < c.val.toNat ∧ c.val.toNat < 0x110000 := by
    intro c
    have := c.valid
    simpa only [UInt32.isValidChar, Nat.isValidChar] using this
  intro bytes hb
  simp only [List.mem_cons, List.not_mem_nil, or_false] at hb
  rcases hb with rfl | rfl | rfl
  all_goals
    refine ⟨by decide +kernel, fun text h => ?_⟩
    have := aux h (by
      intro c rest
      have hc := hval c
      rw [String.utf8EncodeChar.eq_1]
      intro he
      have he := congrArg (List.map UInt8.toNat) he
      revert he
      have hn : c.val.toNat = c.toNat := rfl
      simp only [hn] at hc ⊢
      simp only [List.map_append]
      split
      · simp; omega
      · split
        · simp; omega
        · split
          · simp <;> omega
          · simp <;> omega)
    simp at this

/-- A text with characters of one, two, three and four bytes. -/
example : checkUtf8 (some (encode c!"aé€𝄞")) 10 = some .good ∧ WellShaped ((encode c!"aé€𝄞").take 10) := by
  refine ⟨by decide +kernel, (C39_accepts _ 10 (by decide +kernel)).1 (by decide +kernel)⟩

/-- Cut inside of the last character. -/
example : checkUtf8 (some (encode c!"aé€𝄞")) 8 = some (.bad 6) := by decide +kernel

/-! ### C40 -/

/-- **C40**.  The decoder, for every part supported, every source, every output memory and every size given for
it: what it writes are the UTF-8 encodings of the characters of the source from the first one, as
many as fit; it writes nothing behind the size; it says 1 when all the source is converted, else 2 with
the index of the first byte not converted, whose encoding does not fit. -/
theorem C40_decoder {part : Nat} (hp : part ∈ Iso8859.parts) (source output : List UInt8) (size : Nat)
    (h : size ≤ output.length) :
    ∃ t d, tableOf part = some t ∧ single (entry t) source output size = some d ∧
      d.output.length = output.length ∧ d.output.drop size = output.drop size ∧ d.converted ≤ size ∧
      ((d.result = 1 ∧ d.output.take d.converted = encode (Iso8859.text part source) ∧
          d.converted = (encode (Iso8859.text part source)).length) ∨
       (d.result = 2 ∧ d.remain < source.length ∧
          d.output.take d.converted = encode (Iso8859.text part (source.take d.remain)) ∧
          d.converted = (encode (Iso8859.text part (source.take d.remain))).length ∧
          size < (encode (Iso8859.text part (source.take (d.remain + 1)))).length)) := by
  obtain ⟨t, ht⟩ := Option.isSome_iff_exists.1 (table_exists part hp)
  obtain ⟨d, hd, f⟩ := single_spec (entry t) source output size h
  refine ⟨t, d, ht, hd, f.length, f.rest, f.fits, ?_⟩
  rcases f.done with ⟨a, b⟩ | ⟨a, b, c, e⟩
  · left
    have := f.bytes
    rw [a, if_pos rfl, table_all hp ht] at this
    exact ⟨a, this, by rw [b, table_all hp ht]⟩
  · right
    have hb := f.bytes
    rw [a, if_neg (by decide), table_all hp ht] at hb
    refine ⟨a, b, hb, by rw [c, table_all hp ht], ?_⟩
    have hv := e source[d.remain] (by simp [b])
    rw [← table_all hp ht, List.take_succ_eq_append_getElem b]
    simp only [all, List.flatMap_append, List.flatMap_cons, List.flatMap_nil, List.append_nil, List.length_append]
    have := (table_size hp ht source[d.remain]).1
    simp only [all] at c
    omega

namespace FileStream
open Spec.FileStream

theorem isoDecoder_decodes (table : UInt8 → List UInt8) : Decodes (isoDecoder table) table := by
  intro source room
  obtain ⟨d, hd, f⟩ := single_spec table source (List.replicate room 0) room (by simp)
  have hfits := f.fits
  have hlen : d.output.length = room := by simpa using f.length
  rcases f.done with ⟨a, b⟩ | ⟨a, b, c, e⟩
  · refine ⟨source, [], by simp, ?_, ?_, by simp⟩
    · have := f.bytes
      simp only [a, if_true] at this
      simp only [isoDecoder, hd, a, if_true, this]
      rfl
    · simp only [all] at b; omega
  · refine ⟨source.take d.remain, source.drop d.remain, by simp, ?_, ?_, ?_⟩
    · have := f.bytes
      rw [a, if_neg (by decide)] at this
      simp only [isoDecoder, hd, a, this]
      rfl
    · simp only [all] at c; omega
    · intro v hv
      simp only [all] at c
      rw [← c]
      apply e v
      simpa [List.head?_drop] using hv

/-- After the decoder is set up on a stream over a file. -/
theorem setupDecode_spec {f : Decoder UInt8} {g : UInt8 → List UInt8} (hd : Decodes f g)
    (hg : ∀ v, 1 ≤ (g v).length) {s : FS UInt8} (h : Plain s) (hf : s.fd = none → pending s = []) :
    ∃ s', setupDecode f s = .ok s' ∧ Decoding f g s' ∧ s'.expand = false ∧ s'.bufSize = s.bufSize ∧
      pendingDecoded g s' = (pending s).flatMap g ∧ s'.fd = s.fd ∧ s'.index = s.index := by
  obtain ⟨taken, rest, e1, e2, e3, e4⟩ := hd (s.data.drop s.index) (s.bufSize - s.index)
  have h1 := h.index
  have h2 := h.size
  have h3 := h.room
  have e5 : setupDecode f s = .ok { s with
      decoder := some f, tempSize := s.bufSize * 2 + 1, temp := rest,
      data := s.data.take s.index ++ taken.flatMap g } := by simp only [setupDecode, e2]
  refine ⟨_, e5, ⟨rfl, hd, hg, ?_, ?_, h3, ?_, ?_⟩, h.expand, rfl, ?_, rfl, rfl⟩
  · simp only [List.length_append, List.length_take]; omega
  · simp only [List.length_append, List.length_take]; omega
  · show 0 < s.bufSize * 2 + 1
    omega
  · intro hn
    have := hf hn
    simp only [pending, List.append_eq_nil_iff] at this
    rw [this.1] at e1
    simp only
    cases rest with
    | nil => rfl
    | cons r rs => simp at e1
  · simp only [pendingDecoded, pending]
    rw [List.drop_left' (by simp; omega), e1]
    simp

theorem new_plain (content : List UInt8) (sizes : List Nat) {bufSize : Nat} (hb : 0 < bufSize) :
    Plain (new ⟨content, sizes⟩ bufSize) ∧ pending (new ⟨content, sizes⟩ bufSize) = content ∧
      ((new ⟨content, sizes⟩ bufSize).fd = none → content = []) ∧
      (new ⟨content, sizes⟩ bufSize).index = 0 ∧ (new ⟨content, sizes⟩ bufSize).bufSize = bufSize := by
  obtain ⟨more, s', e1, e2, e3, e4, e5⟩ := prebuffer_plain 0
    (s := (⟨[], 0, bufSize, some ⟨content, sizes⟩, none, [], 0, false, none⟩ : FS UInt8))
    ⟨rfl, fun _ _ => rfl, rfl, by simp, by simp, hb⟩
  have hn : (more, s') = readPlain ⟨[], 0, bufSize, some ⟨content, sizes⟩, none, [], 0, false, none⟩ ⟨content, sizes⟩ := by
    simp only [prebuffer, shift] at e1
    rw [if_neg (by simp), if_neg (by simp; omega)] at e1
    simp only [Res.ok.injEq] at e1
    rw [← e1]
    rfl
  have hs : new ⟨content, sizes⟩ bufSize = s' := by rw [new, ← hn]
  have hbuf : s'.bufSize = bufSize := by
    have := congrArg (fun x => x.2.bufSize) hn
    simp only [readPlain] at this
    rw [this]
    split
    · rfl
    · split <;> rfl
  have hidx : s'.index = 0 := by
    have := congrArg (fun x => x.2.index) hn
    simp only [readPlain] at this
    rw [this]
    split
    · rfl
    · split <;> rfl
  rw [hs]
  refine ⟨e2, by simpa [pending, unread] using e3, fun hnone => ?_, hidx, hbuf⟩
  cases more with
  | true => have := (e4 rfl).2.1; rw [hnone] at this; simp at this
  | false => simpa [unread] using (e5 rfl).2.1

end FileStream

open FileStream Spec.FileStream

/-- **C40** (partial).  A document of a file in any of the parts supported, read with any sizes of the reads and any
size of the buffer from 4 bytes on: when its header of `header` bytes is read and the decoder is set
up, a reader that asks for more until there is no more gets the UTF-8 encoding of all the rest of
the document, and it ends.  Missing: the variable not initialised may not have the value 2 (see
`C40_not_initialised`) and the reader does not consume the buffer meanwhile (see `C40_any_reader_partial`,
`C40_expansion`); a document in memory (see `C40_memory`). -/
theorem C40_file_partial {part : Nat} (hp : part ∈ Iso8859.parts) (content : List UInt8) (sizes : List Nat)
    {bufSize : Nat} (hb : 4 ≤ bufSize) (header : Nat)
    (hh : header ≤ (new ⟨content, sizes⟩ bufSize).data.length)
    (junk : Nat → Nat) (hj : ∀ n, junk n ≠ 2) :
    ∃ t s n, tableOf part = some t ∧
      setupDecode (isoDecoder (entry t)) (opened content sizes bufSize header) = .ok s ∧
      ∀ fuel ≥ n, gather junk fuel s = .ok (encode (Iso8859.text part (content.drop header))) := by
  obtain ⟨t, ht⟩ := Option.isSome_iff_exists.1 (table_exists part hp)
  obtain ⟨n1, n2, n3, n4, n5⟩ := new_plain content sizes (bufSize := bufSize) (by omega)
  have hplain : Plain (opened content sizes bufSize header) :=
    ⟨n1.decoder, n1.check, n1.expand, hh, n1.size, n1.room⟩
  have hpend : pending (opened content sizes bufSize header) = content.drop header := by
    have n2 := congrArg (List.drop header) n2
    simp only [pending] at n2
    rw [n4, List.drop_zero, List.drop_append_of_le_length hh] at n2
    exact n2
  obtain ⟨s, s1, s2, s3, s4, s5, s6, s7⟩ := setupDecode_spec (isoDecoder_decodes (entry t))
    (fun v => (table_size hp ht v).1) hplain (fun hn => by rw [hpend, n3 hn]; simp)
  refine ⟨t, s, 2 * ((pendingDecoded (entry t) s).length - (s.data.length - s.index)) + (if s.fd = none then 1 else 3) +
    (if s.expand = true then 0 else 1), ht, s1, fun fuel hf => ?_⟩
  rw [← table_all hp ht, all, ← hpend, ← s5]
  exact gather_spec (K := 4) (fun v => (table_size hp ht v).2) junk hj fuel s s2
    (by rw [s4, show (opened content sizes bufSize header).bufSize =
      (new ⟨content, sizes⟩ bufSize).bufSize from rfl, n5]; exact hb) (by simp [s3]) hf

/-- **C40** (partial).  Any reader of the same document: whatever it takes and whenever it asks for more, what it got
is the beginning of the UTF-8 encoding, and what it has still to get is the rest.  Missing: a
refill when the buffer is consumed and it was to be expanded (see `C40_expansion`). -/
theorem C40_any_reader_partial {part : Nat} (hp : part ∈ Iso8859.parts) (content : List UInt8) (sizes : List Nat)
    {bufSize : Nat} (hb : 0 < bufSize) (header : Nat)
    (hh : header ≤ (new ⟨content, sizes⟩ bufSize).data.length) :
    ∃ t s, tableOf part = some t ∧
      setupDecode (isoDecoder (entry t)) (opened content sizes bufSize header) = .ok s ∧
      ∀ got s', Reads s got s' →
        got ++ pendingDecoded (entry t) s' = encode (Iso8859.text part (content.drop header)) ∧
        (s'.fd = none → got ++ s'.data.drop s'.index = encode (Iso8859.text part (content.drop header))) := by
  obtain ⟨t, ht⟩ := Option.isSome_iff_exists.1 (table_exists part hp)
  obtain ⟨n1, n2, n3, n4, n5⟩ := new_plain content sizes (bufSize := bufSize) hb
  have hplain : Plain (opened content sizes bufSize header) :=
    ⟨n1.decoder, n1.check, n1.expand, hh, n1.size, n1.room⟩
  have hpend : pending (opened content sizes bufSize header) = content.drop header := by
    have n2 := congrArg (List.drop header) n2
    simp only [pending] at n2
    rw [n4, List.drop_zero, List.drop_append_of_le_length hh] at n2
    exact n2
  obtain ⟨s, s1, s2, s3, s4, s5, s6, s7⟩ := setupDecode_spec (isoDecoder_decodes (entry t))
    (fun v => (table_size hp ht v).1) hplain (fun hn => by rw [hpend, n3 hn]; simp)
  refine ⟨t, s, ht, s1, fun got s' hr => ?_⟩
  obtain ⟨d, e⟩ := reads_spec (K := 4) (fun v => (table_size hp ht v).2) hr s2
  rw [s5, hpend, ← all, table_all hp ht] at e
  refine ⟨e, fun hn => ?_⟩
  rw [← e]
  simp [pendingDecoded, hn, d.closed hn, unread]

/-- **C40**: not of the code.  A reader that asks for more when the next character does not fit, then consumes the
buffer and asks again gets the bytes consumed once more: `abc` twice for `abcé`. -/
theorem C40_expansion :
    (do
      let s ← setupDecode (isoDecoder (entry iso8859_1)) (new ⟨[0x61, 0x62, 0x63, 0xE9], []⟩ 4)
      let (_, s) ← prebuffer 0 s
      let got := s.data.drop s.index
      let (_, s) ← prebuffer 0 { s with index := s.data.length }
      Res.ok (got ++ s.data.drop s.index) : Res (List UInt8)) =
    .ok [0x61, 0x62, 0x63, 0x61, 0x62, 0x63, 0xC3, 0xA9] ∧
    encode (Iso8859.text 1 [0x61, 0x62, 0x63, 0xE9]) = [0x61, 0x62, 0x63, 0xC3, 0xA9] := by
  decide +kernel

/-- **C40**: not of the code.  A document in memory is cut to its size before decoding: `é!` gives only `é`. -/
theorem C40_memory :
    (do
      let s ← setupDecode (isoDecoder (entry iso8859_1)) (newMem [0xE9, 0x21])
      gather (fun _ => 0) 5 s : Res (List UInt8)) = .ok [0xC3, 0xA9] ∧
    encode (Iso8859.text 1 [0xE9, 0x21]) = [0xC3, 0xA9, 0x21] := by
  decide +kernel

/-- **C40**: not of the code.  When the variable that is not initialised happens to be 2, a refill answers that there is
more without reading: the reader does not end. -/
theorem C40_not_initialised :
    ∃ s, setupDecode (isoDecoder (entry iso8859_1)) (new ⟨[0x61], []⟩ 4) = .ok s ∧
      ∀ n, gather (fun _ => 2) n s = .loop := by
  refine ⟨⟨[0x61], 0, 4, some ⟨[], []⟩, some (isoDecoder (entry iso8859_1)), [], 9, false, none⟩, ?_, ?_⟩
  · have hd : isoDecoder (entry iso8859_1) [0x61] 4 = some ([0x61], []) := by decide +kernel
    show setupDecode (isoDecoder (entry iso8859_1)) ⟨[0x61], 0, 4, some ⟨[], []⟩, none, [], 0, false, none⟩ = _
    simp only [setupDecode, List.drop_zero, Nat.sub_zero, hd]
    rfl
  · intro n
    induction n with
    | zero => rfl
    | succ n ih => exact ih

/-- A header of two bytes, a buffer of eight bytes and reads of four, one and two bytes. -/
example : ∃ s, setupDecode (isoDecoder (entry iso8859_1))
      (opened [0x3C, 0x3F, 0xE9, 0x61, 0xFF, 0xE9, 0x62] [4, 1, 2] 8 2) = .ok s ∧
    gather (fun _ => 0) 20 s = .ok (encode c!"éaÿéb") := by
  refine ⟨_, rfl, by decide +kernel⟩

/-- `é` of part 1 and the euro of part 15 with room for four bytes: the euro does not fit after two. -/
example : single (entry iso8859_15) [0xE9, 0xA4] [1, 1, 1, 1, 1, 1] 4 = some ⟨2, [0xC3, 0xA9, 1, 1, 1, 1], 2, 1⟩ := by
  decide +kernel

end Axl
