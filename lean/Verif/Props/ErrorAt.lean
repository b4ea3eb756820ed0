/- C82: an error with a stream. -/
import Verif.Spec.ErrorAt
import Verif.Props.Error

namespace Axl.Err
open Str Printf
open Spec.Err (Inside around next)

theorem takeWhile_noNul : ∀ {l : List Char}, NUL ∉ l → l.takeWhile (· ≠ NUL) = l
  | [], _ => rfl
  | c :: l, h => by
    simp only [List.mem_cons, not_or] at h
    have hc : c ≠ NUL := fun e => h.1 e.symm
    have := takeWhile_noNul h.2
    simp only [List.takeWhile_cons, hc, ne_eq, not_false_eq_true, decide_true, if_true]
    simpa using this

theorem copyText_of {m t : List Char} (h : t <+: m) (h0 : NUL ∉ t) {i n : Int} {a b : Nat} (hi : i = a) (hn : n = b) (hab : a + b ≤ t.length) :
    copyText m i n = some ((t.drop a).take b) := by
  obtain ⟨r, rfl⟩ := h
  subst hi; subst hn
  have hs : (((t ++ r).drop a).take b) = (t.drop a).take b := by
    rw [List.drop_append, List.take_append_of_le_length (by simp; omega)]
  have hw : ((t.drop a).take b).takeWhile (· ≠ NUL) = (t.drop a).take b :=
    takeWhile_noNul fun hm => h0 (List.mem_of_mem_drop (List.mem_of_mem_take hm))
  simp only [copyText, Int.toNat_natCast, hs]
  rw [if_pos (by simp; omega), hw]

theorem nearTo_of {s : At.Stream} {t : List Char} {i : Nat} (h : Inside s t i) : nearTo s 10 = some (some (around t i)) := by
  obtain ⟨h1, h2, h3, h4, h5⟩ := h
  simp only [nearTo, h2, h3, around]
  by_cases he : i + 11 < t.length
  · rw [copyText_of h1 h5 (a := i - 10) (b := i + 10 - (i - 10)) (by split <;> omega) (by split <;> split <;> omega) (by omega)]
    rw [if_neg (show ¬ i + 11 = t.length by omega)]
    rfl
  · rw [copyText_of h1 h5 (a := i - 10) (b := t.length - (i - 10)) (by split <;> omega) (by split <;> split <;> omega) (by omega)]
    simp only [show (10 : Int) > 0 by omega, if_true, Option.map_some]
    congr 2
    rw [List.take_of_length_le (by simp), List.take_of_length_le (by simp; split <;> omega)]

theorem following_of {s : At.Stream} {t : List Char} {i : Nat} (h : Inside s t i) :
    ∃ r, following s 10 = some r ∧ r.getD [] = next t i := by
  obtain ⟨h1, h2, h3, h4, h5⟩ := h
  simp only [following, h2, h3, next]
  by_cases he : i < t.length
  · refine ⟨some ((t.drop i).take (min 10 (t.length - i))), ?_, ?_⟩
    · rw [if_neg (by omega), copyText_of h1 h5 (a := i) (b := min 10 (t.length - i)) rfl (by split <;> omega) (by omega)]
      rfl
    · simp only [Option.getD_some]
      by_cases hl : 10 ≤ t.length - i
      · rw [Nat.min_eq_left hl]
      · rw [Nat.min_eq_right (by omega), List.take_of_length_le (by simp), List.take_of_length_le (by simp; omega)]
  · exact ⟨none, by rw [if_pos (by omega)], by simp [List.drop_eq_nil_of_le (show t.length ≤ i by omega)]⟩

/-- **C82** (with a stream).  Wherever the stream is, the places it reads are inside of its memory; and the report is that
of `C82_errors_partial` with the text that the format makes of the size, the place, the bytes around it, the bytes that
come next and the text given.  Missing: NUL bytes in the stream. -/
theorem C82_report_at_partial (L : Libc FArg) (s : St) (mem : Bool) (code : Int) (text : List Char) (stream : At.Stream)
    (out : Option Nat) (t : List Char) (i : Nat) (h : Inside stream t i) (msg : List Char)
    (hm : L.render atFormat [.int t.length, .int i, .int stream.globalIndex, .str (around t i), .str (next t i), .str text] =
      .text msg) :
    newAt true L s mem code text stream out = new s mem true code (some msg) out := by
  cases out with
  | none => rfl
  | some v =>
    cases mem with
    | false => rfl
    | true =>
      obtain ⟨r, h1, h2⟩ := following_of h
      have h3 := nearTo_of h
      have : (msg.length : Int) ≠ -1 := by omega
      rw [← h.size, ← h.at_, ← h2] at hm
      simp [newAt, h1, h3, strdupPrintf, strdupPrintfv, vasprintf, Libc.args, hm, this, new, strdup, alloc, store]

/-- **C82**.  The bytes around the place are a part of the text of the stream that has the place in it, with no more than
ten bytes before it and eleven after it. -/
theorem C82_around (t : List Char) (i : Nat) (hi : i ≤ t.length) :
    ∃ a b c d, t = a ++ b ++ c ++ d ∧ around t i = b ++ c ∧ (a ++ b).length = i ∧ b.length = min i 10 ∧ c.length ≤ 11 := by
  refine ⟨t.take (i - 10), (t.drop (i - 10)).take (i - (i - 10)), (t.drop i).take (if i + 11 = t.length then 11 else 10),
    (t.drop i).drop (if i + 11 = t.length then 11 else 10), ?_, ?_, ?_, ?_, ?_⟩
  · have e : t.drop i = (t.drop (i - 10)).drop (i - (i - 10)) := by rw [List.drop_drop]; congr 1; omega
    rw [List.append_assoc, List.append_assoc, List.take_append_drop, e, List.take_append_drop, List.take_append_drop]
  · have e : t.drop i = (t.drop (i - 10)).drop (i - (i - 10)) := by rw [List.drop_drop]; congr 1; omega
    rw [around, e, ← List.take_add]
    congr 1
    split <;> omega
  · simp; omega
  · simp; omega
  · simp; split <;> omega

/-- A stream that is near its end, and what is told of it. -/
def exampleText : List Char := "<?xml ?><a b='1'><c d>".toList

example : Inside ⟨exampleText ++ [NUL, 'x'], 22, 20, 20⟩ exampleText 20 ∧
    around exampleText 20 = " b='1'><c d>".toList ∧ next exampleText 20 = "d>".toList :=
  ⟨⟨⟨[NUL, 'x'], rfl⟩, by decide +kernel, rfl, by decide +kernel, by decide +kernel⟩, by decide +kernel, by decide +kernel⟩

/-- A C library for the example: the arguments of `%s`, one after the other. -/
def stringsLib : Libc FArg where
  render _ args := .text (args.flatMap fun a => match a with
    | .int _ => []
    | .str s => s ++ "|".toList)
  reads f := f.count '%'

example : (newAt true stringsLib (init 1) true (-2) "expected =".toList ⟨exampleText ++ [NUL, 'x'], 22, 20, 20⟩ (some 0)).bind (get · 0) =
    some (some (" b='1'><c d>|d>|expected =|".toList ++ [NUL])) := by decide +kernel

end Axl.Err
