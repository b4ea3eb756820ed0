/-
C63: content that is pushed back to a stream in memory.
-/
import Verif.Proofs.StreamPush
import Verif.Model.Lit

namespace Axl
namespace StreamPush
open Str Spec.StreamPush

/-- **C63**: whatever is pushed, looked for, accepted and skipped, in any order and any number of times, no byte is read or written
out of the buffers, and the answers are those of a text: what is left to read after a push is the content pushed and then
what was left. -/
theorem C63_history {source : List Char} {size : Nat} (h : size ≤ source.length) {cs : List Call} (hf : View.fitsAll ⟨source.take size, 0, 0⟩ cs) :
    ∃ s s', new source size = some s ∧ calls s cs = some ((View.calls ⟨source.take size, 0, 0⟩ cs).1, s') ∧
      (s'.mem.take s'.size).drop s'.index = (View.calls ⟨source.take size, 0, 0⟩ cs).2.left := by
  obtain ⟨s, e, hs⟩ := shows_new h
  obtain ⟨s', e', hs'⟩ := shows_calls hs hf
  refine ⟨s, s', e, e', ?_⟩
  rw [hs'.text, hs'.index]
  rfl

/-- **C63**, one push: after any history that leaves no look to accept, what is left to read is the content and then what
was left. -/
theorem C63_push_partial {source : List Char} {size : Nat} (h : size ≤ source.length) {cs : List Call} (hf : View.fitsAll ⟨source.take size, 0, 0⟩ cs)
    (content : List Char) {s s1 : S} (hs : new source size = some s) {rs : List Int} (hc : calls s cs = some (rs, s1)) (hp : s1.prev = 0) :
    ∃ s2, push s1 content content.length = some s2 ∧ (s2.mem.take s2.size).drop s2.index = content ++ (s1.mem.take s1.size).drop s1.index ∧ s2.prev = 0 := by
  obtain ⟨s', e, hs'⟩ := shows_new h
  rw [hs] at e
  cases e
  obtain ⟨s'', e', h1⟩ := shows_calls hs' hf
  rw [hc] at e'
  cases e'
  obtain ⟨s2, e2, h2⟩ := shows_push h1 (content := content) (Nat.le_refl _)
  refine ⟨s2, e2, ?_, h2.prev⟩
  rw [h2.text, h2.index, h1.text, h1.index]
  have : (View.calls ⟨source.take size, 0, 0⟩ cs).2.seen = 0 := by rw [← h1.prev, hp]
  simp [View.accept, this, View.left]

/-- **C63**: not of the code.  `axl_stream_push` accepts the look that came before it, so the first characters that were
pushed are skipped: the look saw others. -/
theorem C63_not_after_peek : ∃ s s1 s2, new c!"ab" 2 = some s ∧ peek s c!"a" = some (1, s1) ∧ push s1 c!"xy" 2 = some s2 ∧
    (s1.mem.take s1.size).drop s1.index = c!"ab" ∧ (s2.mem.take s2.size).drop s2.index = c!"yab" :=
  ⟨_, _, _, rfl, rfl, rfl, rfl, rfl⟩

/-- A history with pushes that grow the buffer and one that does not, looks that succeed and fail. -/
def sample63 : List Call :=
  [.inspect c!"abc", .push c!"XY" 2, .peek c!"Q", .inspect c!"XYd", .push c!"0123456789" 10, .peek c!"01", .accept, .step 3, .push c!"--" 1, .inspect c!"-56", .move 0, .inspect c!"-5"]

theorem sample63_fits : View.fitsAll ⟨c!"abcdef", 0, 0⟩ sample63 := by
  simp [sample63, View.fitsAll, View.fits, View.call, View.calls, View.look, View.left, View.accept, NUL]

example : ∃ s s', new c!"abcdef" 6 = some s ∧ calls s sample63 = some ([1, 0, 0, 1, 0, 1, 0, 0, 0, 1, 0, 1], s') ∧
    (s'.mem.take s'.size).drop s'.index = c!"6789ef" :=
  C63_history (source := c!"abcdef") (size := 6) (by decide) sample63_fits

end StreamPush
end Axl
