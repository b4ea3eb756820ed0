/-
A stream in memory that is pushed back does what its view says.
-/
import Verif.Spec.StreamPush

namespace Axl
namespace StreamPush
open Str Spec.StreamPush

/-- The stream is as its view says, and its buffers have the size it thinks. -/
structure Shows (s : S) (v : View) : Prop where
  text   : s.mem.take s.size = v.text
  length : v.text.length = s.size
  room   : s.size ≤ s.buffer
  mem    : s.mem.length = s.buffer + 1
  temp   : ∀ t, s.temp = some t → t.length = s.buffer + 1
  index  : s.index = v.read
  prev   : s.prev = v.seen
  within : s.index + s.prev ≤ s.size

theorem zeros_length (n : Nat) : (zeros n).length = n := List.length_replicate

theorem memcpy_some {dst src : List Char} {a f n : Nat} (h1 : a + n ≤ dst.length) (h2 : f + n ≤ src.length) :
    memcpy dst a src f n = some (dst.take a ++ ((src.drop f).take n ++ dst.drop (a + n))) := if_pos ⟨h1, h2⟩

theorem memcpy_length {dst src r : List Char} {a f n : Nat} (h : memcpy dst a src f n = some r) : r.length = dst.length := by
  unfold memcpy at h
  split at h
  · rename_i hc
    cases h
    simp only [List.length_append, List.length_take, List.length_drop]
    omega
  · cases h

theorem displace_some {s : S} {temp mem content : List Char} {size : Nat} (hi : s.index ≤ s.size) (hs : s.size ≤ s.mem.length)
    (hc : size ≤ content.length) (ht : s.size - s.index + size ≤ temp.length) (hm : s.size - s.index + size ≤ mem.length) :
    ∃ t m, displace s temp mem content size = some (t, m) ∧ t.length = temp.length ∧ m.length = mem.length ∧
      m.take (s.size - s.index + size) = content.take size ++ (s.mem.take s.size).drop s.index := by
  unfold displace
  rw [if_pos hi, memcpy_some (by omega) (by omega)]
  simp only [Option.bind_eq_bind, Option.bind_some]
  generalize ht1 : List.take 0 temp ++ (List.take size (List.drop 0 content) ++ List.drop (0 + size) temp) = t1
  have ht1l : t1.length = temp.length := by
    rw [← ht1]
    simp only [List.length_append, List.length_take, List.length_drop]
    omega
  have ht1t : t1.take size = content.take size := by
    rw [← ht1]
    simp only [List.take_zero, List.nil_append, List.drop_zero]
    rw [List.take_append_of_le_length (by simp; omega), List.take_take, Nat.min_self]
  rw [memcpy_some (by omega) (by omega)]
  simp only [Option.bind_some]
  generalize ht2 : List.take size t1 ++ (List.take (s.size - s.index) (List.drop s.index s.mem) ++ List.drop (size + (s.size - s.index)) t1) = t2
  have ht2l : t2.length = temp.length := by
    rw [← ht2]
    simp only [List.length_append, List.length_take, List.length_drop]
    omega
  have hl : (List.take (s.size - s.index) (List.drop s.index s.mem)).length = s.size - s.index := by
    simp only [List.length_take, List.length_drop]
    omega
  have ht2t : t2.take (s.size - s.index + size) = content.take size ++ (s.mem.take s.size).drop s.index := by
    rw [← ht2, ← List.append_assoc, List.take_append_of_le_length, List.take_of_length_le, ht1t, List.drop_take]
    · simp only [List.length_append, hl, List.length_take]
      omega
    · simp only [List.length_append, hl, List.length_take]
      omega
  rw [memcpy_some (by omega) (by omega)]
  refine ⟨_, _, rfl, ht2l, ?_, ?_⟩
  · simp only [List.length_append, List.length_take, List.length_drop]
    omega
  · simp only [List.take_zero, List.nil_append, List.drop_zero]
    rw [List.take_append_of_le_length (by simp; omega), List.take_take, Nat.min_self, ht2t]

theorem shows_new {source : List Char} {size : Nat} (h : size ≤ source.length) : ∃ s, new source size = some s ∧ Shows s ⟨source.take size, 0, 0⟩ := by
  unfold new
  rw [memcpy_some (by rw [zeros_length]; omega) (by omega)]
  simp only [Option.bind_eq_bind, Option.bind_some]
  generalize hm : List.take 0 (zeros (size + 1)) ++ (List.take size (List.drop 0 source) ++ List.drop (0 + size) (zeros (size + 1))) = m
  have hl : m.length = size + 1 := by
    rw [← hm]
    simp only [List.length_append, List.length_take, List.length_drop, zeros_length]
    omega
  have ht : m.take size = source.take size := by
    rw [← hm]
    simp only [List.take_zero, List.nil_append, List.drop_zero]
    rw [List.take_append_of_le_length (by simp; omega), List.take_take, Nat.min_self]
  rw [memcpy_some (by omega) (by simp)]
  refine ⟨_, rfl, ?_, ?_, Nat.le_refl _, ?_, fun t ht => (nomatch ht), rfl, rfl, by simp⟩
  · simp only
    rw [List.take_append_of_le_length (by simp; omega), List.take_take, Nat.min_self, ht]
  · simp
    omega
  · simp only [List.length_append, List.length_take, List.length_drop, List.length_cons, List.length_nil]
    omega

theorem Shows.accept {s : S} {v : View} (h : Shows s v) : Shows (accept s) v.accept :=
  ⟨h.text, h.length, h.room, h.mem, h.temp, by simp [StreamPush.accept, View.accept, h.index, h.prev], rfl, by
    have := h.within
    simpa [StreamPush.accept] using this⟩

theorem Shows.left {s : S} {v : View} (h : Shows s v) : v.left.length = s.size - s.index := by
  unfold View.left
  rw [List.length_drop, h.length, ← h.index]

theorem sameBytes_eq {s : S} {v : View} (h : Shows s v) : ∀ {chunk : List Char} {i : Nat}, NUL ∉ chunk → chunk.length + i ≤ s.size →
    sameBytes s.mem chunk i = some (decide (chunk <+: v.text.drop i))
  | [], i, _, _ => by simp [sameBytes]
  | c :: cs, i, hn, hl => by
    simp only [List.length_cons] at hl
    have hi : i < v.text.length := by
      rw [h.length]
      omega
    have hget : s.mem[i]? = some v.text[i] := by
      have : v.text[i]? = s.mem[i]? := by
        rw [← h.text, List.getElem?_take_of_lt (by omega)]
      rw [← this, List.getElem?_eq_getElem hi]
    unfold sameBytes
    rw [hget]
    simp only
    have hpre : (c :: cs <+: v.text.drop i) ↔ c = v.text[i] ∧ cs <+: v.text.drop (i + 1) := by
      rw [List.drop_eq_getElem_cons hi, List.cons_prefix_cons]
    simp only [hpre]
    have ih := sameBytes_eq h (chunk := cs) (i := i + 1) (fun hx => hn (by simp [hx])) (by omega)
    by_cases hb : v.text[i] = NUL
    · have hne : c ≠ v.text[i] := fun hc => hn (by rw [← hb, ← hc]; simp)
      rw [if_pos hb]
      simp [hne]
    · rw [if_neg hb]
      by_cases hc : c = v.text[i]
      · rw [if_neg (by simp [hc]), ih]
        simp [hc]
      · rw [if_pos hc]
        simp [hc]

theorem shows_peek {s : S} {v : View} {chunk : List Char} (h : Shows s v) (hn : NUL ∉ chunk) :
    ∃ s', peek s chunk = some ((v.look chunk).1, s') ∧ Shows s' (v.look chunk).2 := by
  unfold peek View.look
  have hw := h.within
  by_cases h1 : chunk.length + s.index > s.size
  · rw [if_pos h1, if_pos (by rw [h.left]; omega)]
    exact ⟨s, rfl, h⟩
  · have h1' : ¬ v.left.length < chunk.length := by rw [h.left]; omega
    rw [if_neg h1, if_neg h1']
    by_cases h2 : chunk = []
    · subst h2
      exact ⟨s, rfl, h⟩
    · rw [if_neg (by simpa using h2), sameBytes_eq h hn (by omega)]
      have : v.text.drop s.index = v.left := by rw [h.index]; rfl
      rw [this]
      by_cases h3 : chunk <+: v.left
      · rw [decide_eq_true h3, if_pos ⟨h2, h3⟩]
        exact ⟨_, rfl, h.text, h.length, h.room, h.mem, h.temp, h.index, rfl, by simp only; omega⟩
      · rw [decide_eq_false h3, if_neg (fun hx => h3 hx.2)]
        exact ⟨s, rfl, h⟩

theorem shows_push {s : S} {v : View} {content : List Char} {size : Nat} (h : Shows s v) (hc : size ≤ content.length) :
    ∃ s', push s content size = some s' ∧ Shows s' (View.accept ⟨content.take size ++ v.left, 0, v.seen⟩) := by
  unfold push
  have hw := h.within
  have hr := h.room
  have hm := h.mem
  have hlen : (content.take size ++ v.left).length = s.size - s.index + size := by
    rw [List.length_append, h.left, List.length_take]
    omega
  have hleft : (s.mem.take s.size).drop s.index = v.left := by
    rw [h.text, h.index]
    rfl
  by_cases hi : s.index < size
  · rw [if_pos hi]
    obtain ⟨t, m, e, ht, hm', htk⟩ := displace_some (s := s) (temp := zeros (s.size + size - s.index + 1)) (mem := zeros (s.size + size - s.index + 1))
      (content := content) (size := size) (by omega) (by omega) hc (by rw [zeros_length]; omega) (by rw [zeros_length]; omega)
    rw [zeros_length] at ht hm'
    rw [hleft] at htk
    simp only [e, Option.bind_eq_bind, Option.bind_some]
    refine ⟨_, rfl, Shows.accept ⟨htk, hlen, by simp only; omega, hm', ?_, rfl, h.prev, by simp only; omega⟩⟩
    intro x hx
    cases hx
    exact ht
  · rw [if_neg hi]
    have htl : (s.temp.getD (zeros (s.buffer + 1))).length = s.buffer + 1 := by
      cases hx : s.temp with
      | none => exact zeros_length _
      | some t => exact h.temp t hx
    obtain ⟨t, m, e, ht, hm', htk⟩ := displace_some (s := s) (temp := s.temp.getD (zeros (s.buffer + 1))) (mem := s.mem)
      (content := content) (size := size) (by omega) (by omega) hc (by omega) (by omega)
    rw [hleft] at htk
    simp only [e, Option.bind_eq_bind, Option.bind_some]
    refine ⟨_, rfl, Shows.accept ⟨htk, hlen, by simp only; omega, by simp only; omega, ?_, rfl, h.prev, by simp only; omega⟩⟩
    intro x hx
    cases hx
    simp only
    omega

theorem shows_call {s : S} {v : View} (h : Shows s v) : ∀ {c : Call}, v.fits c → ∃ s', call s c = some ((v.call c).1, s') ∧ Shows s' (v.call c).2
  | .push content size, hf => by
    obtain ⟨s', e, h'⟩ := shows_push h hf
    exact ⟨s', by simp [call, e, View.call], h'⟩
  | .peek chunk, hf => shows_peek h hf
  | .inspect chunk, hf => by
    obtain ⟨s', e, h'⟩ := shows_peek h hf
    unfold call inspect
    simp only [e, View.call]
    by_cases h1 : (v.look chunk).1 = 1
    · rw [if_pos h1, if_pos h1, h1]
      exact ⟨_, rfl, h'.accept⟩
    · rw [if_neg h1, if_neg h1]
      exact ⟨_, rfl, h'⟩
  | .accept, _ => ⟨_, rfl, h.accept⟩
  | .move index, hf => by
    refine ⟨_, rfl, h.text, h.length, h.room, h.mem, h.temp, rfl, rfl, ?_⟩
    have : index ≤ v.text.length := hf
    rw [h.length] at this
    simpa [move, accept] using this
  | .step bytes, hf => by
    refine ⟨_, rfl, h.text, h.length, h.room, h.mem, h.temp, by simp [step, accept, View.call, h.index, h.prev], rfl, ?_⟩
    have : bytes + v.seen ≤ v.left.length := hf
    rw [h.left] at this
    have hw := h.within
    have hp := h.prev
    simp only [step, accept]
    omega

theorem shows_calls : ∀ {cs : List Call} {s : S} {v : View}, Shows s v → v.fitsAll cs → ∃ s', calls s cs = some ((v.calls cs).1, s') ∧ Shows s' (v.calls cs).2
  | [], s, v, h, _ => ⟨s, rfl, h⟩
  | c :: cs, s, v, h, hf => by
    obtain ⟨s1, e1, h1⟩ := shows_call h hf.1
    obtain ⟨s2, e2, h2⟩ := shows_calls h1 hf.2
    exact ⟨s2, by simp [calls, e1, e2, View.calls], h2⟩

end StreamPush
end Axl
