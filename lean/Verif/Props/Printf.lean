/-
Property C58: printing with a format, copying a number of bytes, and arrays of strings.
-/
import Verif.Spec.Printf
import Verif.Model.Lit

namespace Axl
open Str Printf Printf.Spec

variable {Arg : Type}

/-- A C library that knows `%s`, and fails at `%!`. -/
private def lib : Libc (List Char) where
  render f a := go f a
  reads f := f.count '%'
where
  /-- The format from some place on. -/
  go : List Char → List (List Char) → Rendered
    | '%' :: 's' :: f, x :: a => match go f a with
      | .text s => .text (x ++ s)
      | .fail s => .fail (x ++ s)
    | '%' :: '!' :: _, _ => .fail []
    | c :: f, a => match go f a with
      | .text s => .text (c :: s)
      | .fail s => .fail (c :: s)
    | [], _ => .text []

theorem sizeT_nat (n : Nat) : sizeT n = n := by simp only [sizeT]; split <;> omega

/-- What `vsnprintf` does with a buffer that has room for the text and its end. -/
theorem vsnprintf_fits {L : Libc Arg} {f : List Char} {va : Option (List Arg)} {args : List Arg} {s b : List Char} {size : Nat}
    (ha : L.args f va = some args) (hr : L.render f args = .text s) (h0 : 0 < size) (hb : size ≤ b.length) :
    vsnprintf L (some b) size f va =
      some (some ((s.take (size - 1) ++ [NUL]) ++ b.drop (s.take (size - 1) ++ [NUL]).length), (s.length : Int)) := by
  have : (s.take (size - 1)).length + 1 ≤ b.length := by simp; omega
  simp [vsnprintf, ha, hr, Nat.ne_of_gt h0]
  omega

/-- **C58**.  `axl_strdup_printf`: for a format whose text is `s` it gives a block that holds `s`; if the C library
fails, NULL.  With `vasprintf`, as it is built where there is one. -/
theorem C58_strdup_printf (L : Libc Arg) (f : List Char) (args : List Arg) :
    (∀ s, L.render f args = .text s → ∃ b, strdupPrintf true L (some f) args = some (.block b) ∧ Holds b s) ∧
    (∀ s, L.render f args = .fail s → strdupPrintf true L (some f) args = some .null) := by
  constructor
  · intro s h
    refine ⟨s ++ [NUL], ?_, List.prefix_rfl⟩
    have : (s.length : Int) ≠ -1 := by omega
    simp [strdupPrintf, strdupPrintfv, vasprintf, Libc.args, h, this]
  · intro s h
    simp [strdupPrintf, strdupPrintfv, vasprintf, Libc.args, h]

example : strdupPrintf true lib (some c!"<a>%s</a>") [c!"xy"] = some (.block (c!"<a>xy</a>" ++ [NUL])) := by decide +kernel
example : strdupPrintf true lib (some c!"<a>%!</a>") [c!"xy"] = some .null := by decide +kernel

/-- **C58**.  `axl_stream_strdup_printf_len`, built with `vasprintf` or without: for a format whose text is `s` it gives a
block that holds `s`, and its length. -/
theorem C58_strdup_printf_len_partial (has : Bool) (L : Libc Arg) (f : List Char) (args : List Arg) (s : List Char)
    (h : L.render f args = .text s) :
    ∃ b, strdupPrintfLen has L (some f) args = some (.block b, some (s.length : Int)) ∧ Holds b s := by
  cases has with
  | true => exact ⟨s ++ [NUL], by simp [strdupPrintfLen, vasprintf, Libc.args, h], List.prefix_rfl⟩
  | false =>
    have hl : vprintfLen L (some f) (some args) = some ((s.length : Int) + 1) := by
      simp [vprintfLen, vsnprintf, Libc.args, h]
    have hs : sizeT ((s.length : Int) + 1 + 1) = s.length + 2 := by simp only [sizeT]; split <;> omega
    have ht : ((s.length : Int) + 1 + 2).toNat = s.length + 3 := by omega
    have hv := vsnprintf_fits (L := L) (f := f) (va := some args) (args := args) (s := s) (b := List.replicate (s.length + 3) NUL)
      (size := s.length + 2) rfl h (by omega) (by simp)
    rw [List.take_of_length_le (by omega : s.length ≤ s.length + 2 - 1)] at hv
    refine ⟨(s ++ [NUL]) ++ (List.replicate (s.length + 3) NUL).drop (s ++ [NUL]).length, ?_, List.prefix_append _ _⟩
    have hne : (s.length : Int) + 1 ≠ -1 := by omega
    simp only [strdupPrintfLen, Bool.false_eq_true, if_false, hl, Option.bind_some, bind, hne, hs, ht, hv]

example : strdupPrintfLen false lib (some c!"<a>%s</a>") [c!"xy"] = some (.block (c!"<a>xy</a>" ++ [NUL, NUL, NUL]), some 9) := by
  decide +kernel

/-- **C58**: not of the code.  When the C library fails, `axl_stream_strdup_printf_len` gives a pointer that must not be used
where there is `vasprintf`, and a block where there is not; never NULL. -/
theorem C58_printf_len_failure (L : Libc Arg) (f : List Char) (args : List Arg) (s : List Char) (h : L.render f args = .fail s) :
    strdupPrintfLen true L (some f) args = some (.wild, some (-1)) ∧
      ∃ b, strdupPrintfLen false L (some f) args = some (.block b, some (-1)) := by
  constructor
  · simp [strdupPrintfLen, vasprintf, Libc.args, h]
  · have hl : vprintfLen L (some f) (some args) = some 0 := by simp [vprintfLen, vsnprintf, Libc.args, h]
    exact ⟨[NUL, NUL], by simp [strdupPrintfLen, hl, sizeT, vsnprintf, Libc.args, h]⟩

example : lib.render c!"a%!" [] = .fail c!"a" := by decide +kernel

/-- **C58**: not of the code.  Where there is no `vasprintf`, `axl_stream_strdup_printfv` uses its arguments twice: it is not
defined for any format that reads one.  With `vasprintf` it gives the text, as `axl_strdup_printf`. -/
theorem C58_printfv_twice (L : Libc Arg) (f : List Char) (args : List Arg) (s : List Char) (h : L.render f args = .text s) :
    (0 < L.reads f → strdupPrintfv false L (some f) (some args) = none) ∧
      ∃ b, strdupPrintfv true L (some f) (some args) = some (.block b) ∧ Holds b s := by
  constructor
  · intro hr
    have hl : vprintfLen L (some f) (some args) = some ((s.length : Int) + 1) := by simp [vprintfLen, vsnprintf, Libc.args, h]
    have : (s.length : Int) + 1 ≠ -1 := by omega
    have hn : L.reads f ≠ 0 := by omega
    simp [strdupPrintfv, hl, this, vsnprintf, Libc.args, hn]
  · have := (C58_strdup_printf L f args).1 s h
    simpa [strdupPrintf] using this

example : 0 < lib.reads c!"%s" ∧ lib.render c!"%s" [c!"x"] = .text c!"x" := by decide +kernel

/-- **C58** (partial: a buffer of one byte at least).  `axl_stream_printf_buffer` leaves in the buffer the text, or as much
as there is room for, and the mark of its end; it writes nothing behind `size` bytes, gives the number of bytes of text it
has written, and the length of the whole text. -/
theorem C58_printf_buffer_partial (L : Libc Arg) (buffer f : List Char) (size : Nat) (args : List Arg) (s : List Char)
    (h : L.render f args = .text s) (h0 : 0 < size) (hb : size ≤ buffer.length) :
    ∃ b, printfBuffer L buffer size (some f) args = some (b, ((min s.length (size - 1) : Nat) : Int), (s.length : Int)) ∧
      Holds b (s.take (size - 1)) ∧ b.length = buffer.length ∧ b.drop size = buffer.drop size := by
  have hv := vsnprintf_fits (L := L) (f := f) (va := some args) (args := args) (s := s) (b := buffer) (size := size) rfl h h0 hb
  refine ⟨(s.take (size - 1) ++ [NUL]) ++ buffer.drop (s.take (size - 1) ++ [NUL]).length, ?_, List.prefix_append _ _, ?_, ?_⟩
  · simp only [printfBuffer, sizeT_nat, hv, Option.bind_some, bind]
    congr 3
    split <;> omega
  · simp; omega
  · rw [List.drop_append, List.drop_eq_nil_of_le (by simp; omega), List.nil_append, List.drop_drop]
    congr 1
    simp; omega

example : printfBuffer lib (List.replicate 6 '.') 5 (some c!"<%s>") [c!"xyz"] = some (c!"<xyz" ++ [NUL, '.'], 4, 5) := by decide +kernel

/-- **C58**: not of the code.  With a size of 0 `axl_stream_printf_buffer` says that it has written -1 bytes; with a negative
size there is no limit to what it writes. -/
theorem C58_printf_buffer_size (L : Libc Arg) (buffer f : List Char) (args : List Arg) (s : List Char) (h : L.render f args = .text s) :
    printfBuffer L buffer 0 (some f) args = some (buffer, -1, (s.length : Int)) ∧
    (buffer.length ≤ s.length → s.length < 2 ^ 63 → printfBuffer L buffer (-1) (some f) args = none) := by
  constructor
  · simp [printfBuffer, sizeT, vsnprintf, Libc.args, h]
    omega
  · intro hb hm
    have hs : sizeT (-1) = 2 ^ 64 - 1 := by decide
    rw [printfBuffer, hs]
    simp only [vsnprintf, Libc.args, h, bind, Option.bind_some]
    rw [if_neg (by decide), if_neg (by simp; omega)]
    rfl

example : lib.render c!"ab" [] = .text c!"ab" ∧ [NUL].length ≤ c!"ab".length := by decide +kernel

/-- **C58**.  `axl_stream_printf_len` is the number of bytes for the text and the mark of its end, which is what the
functions that allocate it need. -/
theorem C58_printf_len_partial (L : Libc Arg) (f : List Char) (args : List Arg) (s : List Char) (h : L.render f args = .text s) :
    printfLen L (some f) args = some ((s ++ [NUL]).length : Int) := by
  simp [printfLen, vprintfLen, vsnprintf, Libc.args, h]

example : printfLen lib (some c!"<%s>") [c!"xyz"] = some 6 := by decide +kernel

/-- **C58**: not of the code.  It is documented to give -1 for a format that is not correct; it gives 0. -/
theorem C58_printf_len_failure_is_zero (L : Libc Arg) (f : List Char) (args : List Arg) (s : List Char) (h : L.render f args = .fail s) :
    printfLen L (some f) args = some 0 := by
  simp [printfLen, vprintfLen, vsnprintf, Libc.args, h]

/-- **C58**.  `axl_stream_strdup_n` gives a block with the first `n` bytes and the mark of an end. -/
theorem C58_strdup_n (m : List Char) (n : Nat) (h0 : 0 < n) (hn : n ≤ m.length) :
    ∃ b, strdupN (some m) n = some (.block b) ∧ b = m.take n ++ [NUL] := by
  refine ⟨_, ?_, rfl⟩
  have : (n : Int) ≠ 0 := by omega
  simp only [strdupN, this, if_false, sizeT_nat, hn, if_true]

example : strdupN (some (c!"abc" ++ [NUL])) 2 = some (.block (c!"ab" ++ [NUL])) := by decide +kernel

/-- **C58**.  It asks for bytes that are there: it is not defined exactly for more than there are, and for a negative
number. -/
theorem C58_strdup_n_undefined (m : List Char) (n : Int) (hm : m.length < 2 ^ 63) (hn : -2 ^ 31 ≤ n) :
    strdupN (some m) n = none ↔ n < 0 ∨ (m.length : Int) < n := by
  have hz : sizeT n ≤ m.length ↔ 0 ≤ n ∧ n ≤ (m.length : Int) := by simp only [sizeT]; split <;> omega
  simp only [strdupN]
  by_cases h0 : n = 0
  · subst h0; simp
  · rw [if_neg h0]
    by_cases h1 : sizeT n ≤ m.length
    · rw [if_pos h1]
      have := hz.mp h1
      simp; omega
    · rw [if_neg h1]
      rw [hz] at h1
      simp; omega

/-- **C58**.  `axl_stream_strv_num` is the number of strings of the array. -/
theorem C58_strv_num (arr : List (Option Nat)) (strings : List Nat) (h : ArrayOf arr strings) :
    strvNumOf (some arr) = some (strings.length : Int) := by
  obtain ⟨rest, rfl⟩ := h
  have : ∀ (l : List Nat) (i : Int), strvNum (l.map some ++ none :: rest) i = some (i + l.length) := by
    intro l
    induction l with
    | nil => intro i; simp [strvNum]
    | cons a l ih => intro i; simp [strvNum, ih]; omega
  simpa [strvNumOf] using this strings 0

theorem freevLoop_ok (rest : List (Option Nat)) : ∀ (strings live other : List Nat), live.Perm (strings ++ other) →
    ∃ l, freevLoop live (strings.map some ++ none :: rest) = some l ∧ l.Perm other
  | [], live, other, h => ⟨live, rfl, by simpa using h⟩
  | a :: strings, live, other, h => by
    have hm : a ∈ live := h.mem_iff.mpr (by simp)
    have he : (live.erase a).Perm (strings ++ other) := by
      have := h.erase a
      simpa using this
    obtain ⟨l, e, p⟩ := freevLoop_ok rest strings (live.erase a) other he
    exact ⟨l, by simp [freevLoop, Printf.free, hm, e], p⟩

/-- **C58**.  `axl_stream_freev` gives back the array and every string of it, once each, and nothing else. -/
theorem C58_freev (arr : List (Option Nat)) (strings live other : List Nat) (a : Nat) (h : ArrayOf arr strings)
    (hl : live.Perm (strings ++ a :: other)) : ∃ l, freev live (some (a, arr)) = some l ∧ l.Perm other := by
  obtain ⟨rest, rfl⟩ := h
  obtain ⟨l, e, p⟩ := freevLoop_ok rest strings live (a :: other) hl
  refine ⟨l.erase a, ?_, by simpa using p.erase a⟩
  have : a ∈ l := p.mem_iff.mpr (by simp)
  simp [freev, e, Printf.free, this]

example : ArrayOf [some 3, some 5, none] [3, 5] ∧ [9, 5, 3, 4].Perm ([3, 5] ++ 4 :: [9]) := ⟨⟨[], rfl⟩, by decide +kernel⟩
example : freev [9, 5, 3, 4] (some (4, [some 3, some 5, none])) = some [9] := by decide +kernel

/-- **C58**.  NULL: no format has length 0 and gives NULL, a buffer is left as it is, nothing is copied from NULL, NULL
holds -1 strings, and freeing it does nothing. -/
theorem C58_null (L : Libc Arg) (has : Bool) (args : List Arg) (buffer : List Char) (size : Int) (live : List Nat) :
    printfLen L none args = some 0 ∧ printfBuffer L buffer size none args = some (buffer, 0, 0) ∧
      strdupPrintf has L none args = some .null ∧ strdupPrintfv has L none (some args) = some .null ∧
      strdupPrintfLen has L none args = some (.null, none) ∧ (∀ n, strdupN none n = some .null) ∧
      strvNumOf none = some (-1) ∧ freev live none = some live :=
  ⟨rfl, rfl, rfl, rfl, rfl, fun _ => rfl, rfl, rfl⟩

end Axl
