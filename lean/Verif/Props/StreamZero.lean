/-
Property C65: a text is read to its end by pieces with axl_stream_get_until_zero.
-/
import Verif.Proofs.StreamZero
import Verif.Props.FileStream

namespace Axl
open FileStream StreamZero Spec.FileStream Spec.StreamZero

/-- **C65** (in memory).  Reading with axl_stream_get_until_zero until it says -2 gives the parts of the text between the
separators, all of them and in order, and it ends. -/
theorem C65_memory (junk : Nat) (content : List Char) (hc : content ≠ []) (sep : Char) (hsep : sep ≠ ' ') (fuel turns : Nat)
    (hf : 2 * content.length < fuel) (ht : content.length < turns) :
    ∃ s, pieces junk fuel sep turns (newMem content) = .ok (split sep content, s) := by
  have hl : 0 < content.length := List.length_pos_iff.2 hc
  have hp : Plain (newMem content) := ⟨rfl, fun _ _ => rfl, rfl, by simp [newMem], by simp [newMem], hl⟩
  have he : pending (newMem content) = content := by simp [pending, newMem, unread]
  obtain ⟨ps, s, h1, h2⟩ := pieces_spec junk hsep fuel False turns (newMem content) hp (by simp [newMem, unread])
    (by rw [he]; exact hf) (by rw [he]; exact ht)
  rcases h2 with h2 | ⟨h, -⟩
  · rw [he] at h2
    exact ⟨s, h2 ▸ h1⟩
  · exact h.elim

/-- **C65** (file, partial).  The same over a file, whatever the reads give, but for its last byte: if the file does not come
whole in the first read, the pieces can be those of the file without its last byte (see `C65_not_last_byte`). -/
theorem C65_file_partial (junk : Nat) (content : List Char) (sizes : List Nat) {bufSize : Nat} (hb : 0 < bufSize) (sep : Char)
    (hsep : sep ≠ ' ') (fuel turns : Nat) (hf : 2 * content.length < fuel) (ht : content.length < turns) :
    ∃ ps s, pieces junk fuel sep turns (new ⟨content, sizes⟩ bufSize) = .ok (ps, s) ∧
      (ps = split sep content ∨
        unread (new ⟨content, sizes⟩ bufSize).fd ≠ [] ∧ ∃ t c, content = t ++ [c] ∧ ps = split sep t) := by
  obtain ⟨h1, h2⟩ := C44_open content sizes hb
  obtain ⟨ps, s, h3, h4⟩ := pieces_spec junk hsep fuel (unread (new ⟨content, sizes⟩ bufSize).fd ≠ []) turns _ h1 id
    (by rw [h2]; exact hf) (by rw [h2]; exact ht)
  rw [h2] at h4
  exact ⟨ps, s, h3, h4⟩

/-- **C65** (one call).  For any separators of one character each, in any place of a text that is in the buffer: the text up
to the first separator and which one it is, or the rest of the text and -2. -/
theorem C65_call (junk : Nat) {s : FS Char} (h : Plain s) (hu : unread s.fd = []) {chunks : List (List Char)}
    (hs : ∀ c ∈ chunks, c.length = 1) (accept : Bool) {fuel : Nat} (hf : (pending s).length < fuel) :
    ∃ got s', getUntilZero junk fuel chunks accept s = .ok (got, s') ∧
      match Stream.getUntil chunks (pending s) with
      | none => got = ⟨pending s, none⟩
      | some f => got = ⟨f.text, some f.chunk⟩ ∧ Plain s' ∧ pending s' = if accept then f.after else f.at_ := by
  obtain ⟨got, s', a, b⟩ := zero_single junk (chunks := chunks) hs (maxLength_single hs) accept fuel (by omega) False
    fuel 0 ((s.data.length : Int) - s.index) 0 s h (by have := h.index; omega) (fun hn => absurd hu hn) (.inl (by omega))
    (by rw [hu]; simpa using hf) (by omega)
  refine ⟨got, s', a, ?_⟩
  rcases b with ⟨f, b1, b2, b3, b4, -⟩ | ⟨b1, b2, -⟩ | ⟨hR, -⟩
  · rw [b1]; exact ⟨b2, b3, b4⟩
  · rw [b1]; exact b2
  · exact hR.elim

/-- The texts that a reader gets. -/
def texts65 : Res (List (List Char) × FS Char) → Option (List (List Char))
  | .ok (ps, _) => some ps
  | _ => none

/-- The place where the reader is left, and the size of the text. -/
def place65 : Res (List (List Char) × FS Char) → Option (Nat × Nat)
  | .ok (_, s) => some (s.index, s.data.length)
  | _ => none

example : split '\n' c!"one\n\ntwo" = [c!"one", [], c!"two"] := by decide +kernel

/-- A file of three lines that comes in three reads, the second line in two of them: all is read. -/
example : texts65 (pieces 0 100 '\n' 100 (new ⟨c!"a\nbcdef\nxy", [3, 5, 2]⟩ 8)) = some [c!"a", c!"bcdef", c!"xy"] := by decide +kernel

/-- **C65**: not of the code for a file.  When a line comes in two reads and it is the last one, its last byte is lost: the
file `abcd`, read as `ab` and `cd`, gives `abc`. -/
theorem C65_not_last_byte : texts65 (pieces 0 100 '\n' 100 (new ⟨c!"abcd", [2, 2]⟩ 8)) = some [c!"abc"] := by decide +kernel

/-- **C65**: not of the code for the place of the stream.  At the end the size of a separator is added although there was
none, and the stream is left one byte after the end of its text. -/
theorem C65_not_place : place65 (pieces 0 100 '\n' 100 (newMem c!"abcd")) = some (5, 4) := by decide +kernel

end Axl
