/-
A document with a long text, read from a file step by step: what is behind the end of the buffer is not found.
-/
import Verif.Proofs.FileDump

namespace Axl
namespace FileParse
open Str Parse FileStream

/-- A stream that has gone over some bytes of its buffer. -/
def on (n : Nat) (fd : Option (Source Char)) (pre u : List Char) : FS Char :=
  ⟨pre ++ u, pre.length, n, fd, none, [], 0, false, none⟩

section
variable {n : Nat} {fd : Option (Source Char)} {pre u : List Char}

theorem on_skip {c : Char} (hc : isWhite c = false) : skip (on n fd pre (c :: u)) = .ok (on n fd pre (c :: u)) := by
  unfold skip FileStream.skip
  have : (on n fd pre (c :: u)).data[(on n fd pre (c :: u)).index]? = some c := by simp [on]
  rw [this]
  simp [hc]

theorem on_skip_one {w c : Char} (hw : isWhite w = true) (hc : isWhite c = false) :
    skip (on n fd pre (w :: c :: u)) = .ok (on n fd (pre ++ [w]) (c :: u)) := by
  have h := on_skip (n := n) (fd := fd) (pre := pre ++ [w]) (u := u) hc
  unfold skip at h ⊢
  obtain ⟨f, hf⟩ : ∃ f, left (on n fd pre (w :: c :: u)) + 1 = f + 1 + 1 := ⟨left (on n fd pre (w :: c :: u)) - 1, by
    simp only [left, on, List.length_append, List.length_cons]; omega⟩
  rw [hf]
  unfold FileStream.skip
  have h1 : (on n fd pre (w :: c :: u)).data[(on n fd pre (w :: c :: u)).index]? = some w := by simp [on]
  have h2 : ({ on n fd pre (w :: c :: u) with index := (on n fd pre (w :: c :: u)).index + 1 } : FS Char) = on n fd (pre ++ [w]) (c :: u) := by simp [on]
  rw [h1]
  simp only [hw, if_true]
  rw [h2]
  unfold FileStream.skip
  have h3 : (on n fd (pre ++ [w]) (c :: u)).data[(on n fd (pre ++ [w]) (c :: u)).index]? = some c := by
    simp only [on]
    rw [List.getElem?_append_right (by simp)]
    simp
  rw [h3]
  simp [hc]

theorem compare_append : ∀ (chunk u : List Char), FileStream.compare chunk (chunk ++ u) = some true
  | [], _ => by simp [FileStream.compare]
  | c :: chunk, u => by simp [FileStream.compare, compare_append chunk u]

theorem on_look_yes {chunk : List Char} (accept : Bool) : FileStream.inspect 0 (on n fd pre (chunk ++ u)) chunk accept =
    .ok (.yes u, if accept then on n fd (pre ++ chunk) u else on n fd pre (chunk ++ u)) := by
  unfold FileStream.inspect
  rw [if_neg (by simp [on]; omega)]
  unfold inspectHere
  have h1 : (on n fd pre (chunk ++ u)).data.drop (on n fd pre (chunk ++ u)).index = chunk ++ u := by simp [on]
  rw [h1, compare_append]
  have h2 : (on n fd pre (chunk ++ u)).data.drop ((on n fd pre (chunk ++ u)).index + chunk.length) = u := by
    simp [on, List.drop_append]
  rw [h2]
  cases accept <;> simp [on]

/-- The chunk is not there, and there is as much in the buffer. -/
theorem on_look_no {chunk : List Char} (accept : Bool) (hl : chunk.length ≤ u.length) (hc : FileStream.compare chunk u = some false) :
    FileStream.inspect 0 (on n fd pre u) chunk accept = .ok (.no, on n fd pre u) := by
  unfold FileStream.inspect
  rw [if_neg (by simp [on]; omega)]
  unfold inspectHere
  have h1 : (on n fd pre u).data.drop (on n fd pre u).index = u := by simp [on]
  rw [h1, hc]

theorem on_eat {chunk : List Char} : eat (on n fd pre (chunk ++ u)) chunk = .ok (true, on n fd (pre ++ chunk) u) := by
  unfold eat look
  rw [on_look_yes]
  rfl

theorem on_eat_no {chunk : List Char} (hl : chunk.length ≤ u.length) (hc : FileStream.compare chunk u = some false) :
    eat (on n fd pre u) chunk = .ok (false, on n fd pre u) := by
  unfold eat look
  rw [on_look_no _ hl hc]
  rfl

theorem on_peek_no {chunk : List Char} (hl : chunk.length ≤ u.length) (hc : FileStream.compare chunk u = some false) :
    peek (on n fd pre u) chunk = .ok (false, on n fd pre u) := by
  unfold peek
  rw [on_look_no _ hl hc]
  rfl

theorem on_lookTwo_no {a b : List Char} (hl : a.length ≤ u.length) (hc : FileStream.compare a u = some false)
    (hl' : b.length ≤ u.length) (hc' : FileStream.compare b u = some false) : lookTwo (on n fd pre u) a b = .ok (.no, on n fd pre u) := by
  unfold lookTwo look
  rw [on_look_no _ hl hc, ok_bind]
  exact on_look_no _ hl' hc'

/-- A text up to one of the chunks, all of them in the buffer. -/
theorem on_until {chunks : List (List Char)} {accept : Bool} {t : List Char} {d : Char} {k len : Nat}
    (hm : maxLength chunks = 1) (hno : ∀ c ∈ t, ∀ r, Stream.matchAt chunks c r = none) (hd : Stream.matchAt chunks d u = some (k, len)) (hlen : len = 1) :
    untilOne chunks accept (on n fd pre (t ++ d :: u)) =
      .ok (some ⟨t, k⟩, if accept then on n fd (pre ++ t ++ [d]) u else on n fd (pre ++ t) (d :: u)) := by
  subst hlen
  unfold untilOne getUntil
  rw [hm]
  generalize hs : on n fd pre (t ++ d :: u) = s
  have key : ∀ (j i fuel fuel2 : Nat) (r : Int), i + j = t.length → j < fuel → 0 < fuel2 → r = (u.length : Int) + 1 + j →
      untilLoop 0 chunks 1 accept fuel2 fuel r i s = .ok (some ⟨t, k⟩, if accept then on n fd (pre ++ t ++ [d]) u else on n fd (pre ++ t) (d :: u)) := by
    intro j
    induction j with
    | zero =>
      intro i fuel fuel2 r hi hf hf2 hr
      obtain ⟨fuel, rfl⟩ : ∃ f, fuel = f + 1 := ⟨fuel - 1, by omega⟩
      obtain ⟨fuel2, rfl⟩ : ∃ f, fuel2 = f + 1 := ⟨fuel2 - 1, by omega⟩
      have hi : i = t.length := by omega
      subst hi
      unfold untilLoop
      rw [if_neg (by omega)]
      unfold scan matchHere
      have h1 : s.data.drop (s.index + t.length) = d :: u := by
        rw [← hs]
        simp [on, List.drop_append]
      rw [h1]
      simp only [hd]
      rw [if_neg (by omega)]
      rw [ok_bind]
      unfold finish
      have h2 : (s.data.drop s.index).take t.length = t := by
        rw [← hs]
        simp [on]
      simp only [h2]
      rw [← hs]
      cases accept <;> simp [on] <;> omega
    | succ j ih =>
      intro i fuel fuel2 r hi hf hf2 hr
      obtain ⟨fuel, rfl⟩ : ∃ f, fuel = f + 1 := ⟨fuel - 1, by omega⟩
      obtain ⟨fuel2, rfl⟩ : ∃ f, fuel2 = f + 1 := ⟨fuel2 - 1, by omega⟩
      unfold untilLoop
      rw [if_neg (by omega)]
      unfold scan matchHere
      have hlt : i < t.length := by omega
      have h1 : s.data.drop (s.index + i) = t[i] :: (t.drop (i + 1) ++ d :: u) := by
        rw [← hs]
        simp only [on]
        rw [List.drop_append, List.drop_of_length_le (by omega)]
        simp only [Nat.add_sub_cancel_left, List.nil_append]
        rw [List.drop_append_of_le_length (by omega), List.drop_eq_getElem_cons hlt, List.cons_append]
      rw [h1]
      simp only [hno t[i] (List.getElem_mem hlt)]
      rw [ok_bind]
      exact ih (i + 1) fuel (fuel2 + 1) _ (by omega) (by omega) (by omega) (by omega)
  refine key t.length 0 _ _ _ (by omega) ?_ (by omega) ?_
  · rw [← hs]
    simp only [left, on, List.length_append, List.length_cons]
    omega
  · rw [← hs]
    simp only [on, List.length_append, List.length_cons]
    omega

/-- Nothing found in the buffer: what is before the text does not matter for what the refill gives. -/
theorem on_until_end {chunks : List (List Char)} {accept : Bool} {t v : List Char} {x : Char}
    (hm : maxLength chunks = 1) (hno : ∀ c ∈ t, ∀ r, Stream.matchAt chunks c r = none) (hpre : pre ≠ []) (ht : t ≠ []) :
    untilOne chunks accept (on n (some ⟨v, []⟩) pre t) = untilOne chunks accept (on n (some ⟨v, []⟩) [x] t) := by
  have key : ∀ (p : List Char) (j i fuel fuel2 : Nat) (r : Int), i + j = t.length → j ≤ fuel → 0 < fuel2 → r = (j : Int) →
      untilLoop 0 chunks 1 accept fuel2 fuel r i (on n (some ⟨v, []⟩) p t) =
        untilLoop 0 chunks 1 accept fuel2 (fuel - j) 0 t.length (on n (some ⟨v, []⟩) p t) := by
    intro p j
    induction j with
    | zero =>
      intro i fuel fuel2 r hi hf hf2 hr
      rw [show i = t.length by omega, hr]
      rfl
    | succ j ih =>
      intro i fuel fuel2 r hi hf hf2 hr
      obtain ⟨fuel, rfl⟩ : ∃ f, fuel = f + 1 := ⟨fuel - 1, by omega⟩
      obtain ⟨fuel2, rfl⟩ : ∃ f, fuel2 = f + 1 := ⟨fuel2 - 1, by omega⟩
      rw [untilLoop, if_neg (by omega)]
      unfold scan matchHere
      have hlt : i < t.length := by omega
      have h1 : (on n (some ⟨v, []⟩) p t).data.drop ((on n (some ⟨v, []⟩) p t).index + i) = t[i] :: t.drop (i + 1) := by
        simp only [on]
        rw [List.drop_append, List.drop_of_length_le (by omega)]
        simp only [Nat.add_sub_cancel_left, List.nil_append]
        exact List.drop_eq_getElem_cons hlt
      rw [h1]
      simp only [hno t[i] (List.getElem_mem hlt)]
      rw [ok_bind, ih (i + 1) fuel (fuel2 + 1) _ (by omega) (by omega) (by omega) (by omega), show fuel + 1 - (j + 1) = fuel - j by omega]
  have hshift : ∀ p : List Char, p ≠ [] → shift (on n (some ⟨v, []⟩) p t) = on n (some ⟨v, []⟩) [] t := by
    intro p hp
    have h1 := List.length_pos_iff.2 hp
    have h2 := List.length_pos_iff.2 ht
    unfold shift
    rw [if_pos (by simp [on]; omega)]
    simp [on]
  have hpb : ∀ p : List Char, p ≠ [] → prebuffer 0 (on n (some ⟨v, []⟩) p t) = .ok (readPlain (on n (some ⟨v, []⟩) [] t) ⟨v, []⟩) := by
    intro p hp
    show Res.ok (readPlain (shift (on n (some ⟨v, []⟩) p t)) ⟨v, []⟩) = _
    rw [hshift p hp]
  have hF : ∀ p : List Char, left (on n (some ⟨v, []⟩) p t) = t.length + v.length := by
    intro p
    simp [left, on]
  have hr : ∀ p : List Char, (((on n (some ⟨v, []⟩) p t).data.length : Int) - (on n (some ⟨v, []⟩) p t).index) = t.length := by
    intro p
    simp [on]
    omega
  unfold untilOne getUntil
  rw [hm, hF, hF, hr, hr, key pre t.length 0 _ _ _ (by omega) (by omega) (by omega) rfl, key [x] t.length 0 _ _ _ (by omega) (by omega) (by omega) rfl]
  obtain ⟨f, hf⟩ : ∃ f, 2 * (t.length + v.length) + 1 - t.length = f + 1 := ⟨2 * (t.length + v.length) - t.length, by omega⟩
  rw [hf, untilLoop, if_pos (by omega), untilLoop, if_pos (by omega), hpb pre hpre, hpb [x] (by simp)]

end

/-- The text of an element with a long text. -/
def lostText (k : Nat) : List Char := c!"<?xml version='1.0' ?>" ++ (c!"<abcdefghijklmnop>" ++ (List.replicate k 'x' ++ c!"</abcdefghijklmnop"))

section
variable {n : Nat} {fd : Option (Source Char)} {pre : List Char} {u : List Char}

theorem lost_header (hu : 20 ≤ u.length) : parseHeader (on n fd [] (c!"<?xml version='1.0' ?>" ++ (c!"<a" ++ u))) =
    .ok (none, false, St.new, on n fd c!"<?xml version='1.0' ?>" (c!"<a" ++ u)) := by
  have hbom : skipBom (on n fd [] (c!"<?xml version='1.0' ?>" ++ (c!"<a" ++ u))) = on n fd [] (c!"<?" ++ (c!"xml" ++ (' ' :: 'v' :: (c!"ersion='1.0' ?>" ++ (c!"<a" ++ u))))) := by
    unfold skipBom
    rw [if_neg (by simp [on])]
    rfl
  have hdecl : ∀ pre, xmlDecl (on n fd pre (c!"xml" ++ (' ' :: 'v' :: (c!"ersion='1.0' ?>" ++ (c!"<a" ++ u))))) =
      .ok (none, false, on n fd (pre ++ c!"xml version='1.0' ?>") (c!"<a" ++ u)) := by
    intro pre
    unfold xmlDecl
    rw [on_eat, ok_bind]
    simp only [if_true]
    rw [on_skip_one (by decide) (by decide), ok_bind]
    unfold look
    have e1 : 'v' :: (c!"ersion='1.0' ?>" ++ (c!"<a" ++ u)) = c!"version=" ++ ('\'' :: (c!"1.0' ?>" ++ (c!"<a" ++ u))) := rfl
    rw [e1, on_look_yes, ok_bind]
    simp only [notZero, if_true]
    rw [on_skip (by decide), ok_bind]
    have e2 : '\'' :: (c!"1.0' ?>" ++ (c!"<a" ++ u)) = c!"'1.0'" ++ (' ' :: '?' :: ('>' :: (c!"<a" ++ u))) := rfl
    unfold lookTwo look
    rw [on_look_no _ (by simp) (by rfl), ok_bind]
    simp only
    rw [e2, on_look_yes, ok_bind]
    simp only [if_true]
    unfold declEnd
    rw [on_skip_one (by decide) (by decide), ok_bind]
    unfold encoding
    rw [on_lookTwo_no (by simp; omega) (by rfl) (by simp; omega) (by rfl), ok_bind]
    simp only
    rw [ok_bind]
    simp only
    rw [on_skip (by decide), ok_bind]
    unfold standalone
    rw [on_lookTwo_no (by simp; omega) (by rfl) (by simp; omega) (by rfl), ok_bind]
    simp only
    rw [ok_bind]
    simp only
    rw [on_skip (by decide), ok_bind]
    have e3 : '?' :: ('>' :: (c!"<a" ++ u)) = c!"?>" ++ (c!"<a" ++ u) := rfl
    rw [e3, on_eat, ok_bind]
    simp
  have hcomments : ∀ pre f, comments false (f + 1) St.new (on n fd pre (c!"<a" ++ u)) = .ok (St.new, on n fd pre (c!"<a" ++ u)) := by
    intro pre f
    have hsk : skip (on n fd pre (c!"<a" ++ u)) = .ok (on n fd pre (c!"<a" ++ u)) := on_skip (by decide)
    unfold comments comment instruction
    rw [hsk, ok_bind, on_eat_no (by simp; omega) (by rfl)]
    simp only [ok_bind, Bool.false_eq_true, if_false, hsk, Bool.or_self]
  unfold parseHeader look
  rw [hbom, on_look_yes, ok_bind]
  simp only [notZero, if_true]
  rw [hdecl, ok_bind]
  simp only
  rw [hcomments, ok_bind]
  simp only
  unfold doctype
  rw [on_eat_no (by simp; omega) (by rfl), ok_bind]
  simp [ok_bind]

theorem lost_node (hu : 1 ≤ u.length) : parseNode St.new (on n fd pre (c!"<a" ++ (c!"bcdefghijklmnop" ++ ('>' :: ('x' :: u))))) =
    .ok (St.new.push c!"abcdefghijklmnop", on n fd (pre ++ c!"<abcdefghijklmnop>") ('x' :: u), false) := by
  have hcomments : ∀ f, comments true (f + 1) St.new (on n fd pre (c!"<a" ++ (c!"bcdefghijklmnop" ++ ('>' :: ('x' :: u))))) =
      .ok (St.new, on n fd pre (c!"<a" ++ (c!"bcdefghijklmnop" ++ ('>' :: ('x' :: u))))) := by
    intro f
    have hsk : skip (on n fd pre (c!"<a" ++ (c!"bcdefghijklmnop" ++ ('>' :: ('x' :: u))))) = .ok (on n fd pre (c!"<a" ++ (c!"bcdefghijklmnop" ++ ('>' :: ('x' :: u))))) :=
      on_skip (by decide)
    unfold comments comment instruction
    rw [hsk, ok_bind, on_eat_no (by simp) (by rfl)]
    simp only [ok_bind, Bool.false_eq_true, if_false, hsk, Bool.or_self, if_true]
    rw [on_peek_no (by simp) (by rfl)]
    simp only [ok_bind, Bool.false_eq_true, if_false, hsk, Bool.or_self]
  unfold parseNode
  rw [hcomments, ok_bind]
  simp only
  unfold openAngle
  have e1 : c!"<a" ++ (c!"bcdefghijklmnop" ++ ('>' :: ('x' :: u))) = c!"<" ++ (c!"abcdefghijklmnop" ++ ('>' :: ('x' :: u))) := rfl
  rw [e1, on_eat, ok_bind]
  simp only [if_true]
  rw [ok_bind]
  simp only [if_true]
  unfold parseTag
  rw [on_until (k := 0) (len := 1) (by decide) ?_ ?_ rfl, ok_bind]
  · simp only [if_true]
    have h1 : toStr c!"abcdefghijklmnop" = c!"abcdefghijklmnop" := by decide
    rw [h1, if_neg (by decide), if_neg (by decide), if_neg (by decide)]
    unfold endOfName
    rw [on_eat_no (by simp; omega) (by rfl), ok_bind]
    simp
  · intro c hc r
    have : Stream.matchAt [c!">", c!" "] c r = Stream.matchAt [c!">", c!" "] c [] := by
      simp [Stream.matchAt, Stream.firstChunk]
    rw [this]
    clear this
    revert c
    decide +kernel
  · simp [Stream.matchAt, Stream.firstChunk, isWhite]

theorem lost_text {st : St} (hp : st.preserves = false) (k : Nat) : pass st (on n fd pre ('x' :: (List.replicate k 'x' ++ ('<' :: '/' :: (c!"abcdefghijklmnop" ++ u))))) =
    .ok (st.addLeaf (.content (List.replicate (k + 1) 'x')), on n fd (pre ++ List.replicate (k + 1) 'x') (c!"</" ++ (c!"abcdefghijklmnop" ++ u)), true) := by
  unfold pass skipUnless
  rw [hp]
  simp only [Bool.false_eq_true, if_false]
  rw [on_skip (by decide), ok_bind]
  unfold peekTwo
  rw [on_peek_no (by simp; try omega) (by rfl)]
  simp only [ok_bind, Bool.false_eq_true, if_false]
  rw [on_peek_no (by simp; try omega) (by rfl)]
  simp only [ok_bind, Bool.false_eq_true, if_false]
  rw [on_eat_no (by simp; try omega) (by rfl)]
  simp only [ok_bind, Bool.false_eq_true, if_false]
  rw [on_eat_no (by simp; try omega) (by rfl)]
  simp only [ok_bind, Bool.false_eq_true, if_false]
  rw [on_eat_no (by simp; try omega) (by rfl)]
  simp only [ok_bind, Bool.false_eq_true, if_false]
  have hres : ∀ s : FS Char, restore s.index s = s := by
    intro s
    simp [restore]
  rw [hres]
  unfold content
  have e1 : 'x' :: (List.replicate k 'x' ++ ('<' :: '/' :: (c!"abcdefghijklmnop" ++ u))) =
      List.replicate (k + 1) 'x' ++ '<' :: ('/' :: (c!"abcdefghijklmnop" ++ u)) := by
    simp [List.replicate_succ]
  rw [e1, on_until (k := 0) (len := 1) (by decide) ?_ ?_ rfl, ok_bind]
  · simp only [Bool.false_eq_true, if_false]
    have : toStr (List.replicate (k + 1) 'x') = List.replicate (k + 1) 'x' := by
      apply Parse.toStr_id
      intro h
      have := (List.mem_replicate.1 h).2
      revert this
      decide
    rw [this]
    rfl
  · intro c hc r
    have := (List.mem_replicate.1 hc).2
    subst this
    simp [Stream.matchAt, Stream.firstChunk]
  · simp [Stream.matchAt, Stream.firstChunk]

theorem lost_close {st : St} (hp : st.preserves = false) (hpre : pre ≠ []) :
    pass st (on 8192 (some ⟨c!">", []⟩) pre (c!"</" ++ c!"abcdefghijklmnop")) = .error := by
  unfold pass skipUnless
  rw [hp]
  simp only [Bool.false_eq_true, if_false]
  have hsk : skip (on 8192 (some ⟨c!">", []⟩) pre (c!"</" ++ c!"abcdefghijklmnop")) = .ok (on 8192 (some ⟨c!">", []⟩) pre (c!"</" ++ c!"abcdefghijklmnop")) :=
    on_skip (by decide)
  rw [hsk, ok_bind]
  unfold peekTwo
  rw [on_peek_no (by simp) (by rfl)]
  simp only [ok_bind, Bool.false_eq_true, if_false]
  rw [on_peek_no (by simp) (by rfl)]
  simp only [ok_bind, Bool.false_eq_true, if_false]
  rw [on_eat]
  simp only [ok_bind, if_true]
  unfold closeNode untilRef
  rw [on_until_end (x := 'x') (by decide) ?_ (by simp) (by simp)]
  · have h1 : (match untilOne [c!">"] true (on 8192 (some ⟨c!">", []⟩) ['x'] c!"abcdefghijklmnop") with | .ok (none, _) => true | _ => false) = true := by
      decide +kernel
    cases h : untilOne [c!">"] true (on 8192 (some ⟨c!">", []⟩) ['x'] c!"abcdefghijklmnop") with
    | ok x =>
      obtain ⟨g, s⟩ := x
      rw [h] at h1
      cases g with
      | none => rfl
      | some g => cases h1
    | error => rw [h] at h1; cases h1
    | ub => rw [h] at h1; cases h1
    | loop => rw [h] at h1; cases h1
  · intro c hc r
    have : Stream.matchAt [c!">"] c r = Stream.matchAt [c!">"] c [] := by
      simp [Stream.matchAt, Stream.firstChunk]
    rw [this]
    clear this
    revert c
    decide +kernel

theorem lost_parse (k : Nat) : parseStream (on 8192 (some ⟨c!">", []⟩) [] (lostText (k + 1))) = .error := by
  have e : lostText (k + 1) = c!"<?xml version='1.0' ?>" ++ (c!"<a" ++ (c!"bcdefghijklmnop" ++ ('>' :: ('x' :: (List.replicate k 'x' ++ ('<' :: '/' :: (c!"abcdefghijklmnop" ++ []))))))) := by
    simp [lostText, List.replicate_succ]
  rw [e]
  unfold parseStream
  rw [lost_header (by simp), ok_bind]
  simp only
  unfold body
  rw [lost_node (by simp; try omega), ok_bind]
  simp only [Bool.false_eq_true, if_false]
  have hrem : ∀ pre c u, FileStream.remains 0 (on 8192 (some ⟨c!">", []⟩) pre (c :: u)) = .ok (true, on 8192 (some ⟨c!">", []⟩) pre (c :: u)) := by
    intro pre c u
    unfold FileStream.remains
    rw [if_neg (by simp [on])]
  unfold mainLoop
  rw [hrem, ok_bind]
  simp only [if_true]
  rw [lost_text rfl, ok_bind]
  simp only [if_true]
  obtain ⟨f, hf⟩ : ∃ f, left (on 8192 (some ⟨c!">", []⟩) (c!"<?xml version='1.0' ?>" ++ c!"<abcdefghijklmnop>") ('x' :: (List.replicate k 'x' ++ ('<' :: '/' :: (c!"abcdefghijklmnop" ++ []))))) = f + 1 :=
    ⟨left (on 8192 (some ⟨c!">", []⟩) (c!"<?xml version='1.0' ?>" ++ c!"<abcdefghijklmnop>") ('x' :: (List.replicate k 'x' ++ ('<' :: '/' :: (c!"abcdefghijklmnop" ++ []))))) - 1, by
      simp only [left, on, List.length_append, List.length_cons]; omega⟩
  rw [hf]
  unfold mainLoop
  have e2 : c!"</" ++ (c!"abcdefghijklmnop" ++ []) = c!"</" ++ c!"abcdefghijklmnop" := rfl
  rw [e2]
  have := hrem ((c!"<?xml version='1.0' ?>" ++ c!"<abcdefghijklmnop>") ++ List.replicate (k + 1) 'x') '<' ('/' :: c!"abcdefghijklmnop")
  rw [show c!"</" ++ c!"abcdefghijklmnop" = '<' :: ('/' :: c!"abcdefghijklmnop") from rfl, this, ok_bind]
  simp only [if_true]
  have h := lost_close (st := (St.new.push c!"abcdefghijklmnop").addLeaf (.content (List.replicate (k + 1) 'x')))
    (pre := (c!"<?xml version='1.0' ?>" ++ c!"<abcdefghijklmnop>") ++ List.replicate (k + 1) 'x') rfl (by simp)
  rw [show c!"</" ++ c!"abcdefghijklmnop" = '<' :: ('/' :: c!"abcdefghijklmnop") from rfl] at h
  rw [h]
  rfl

end
end FileParse
end Axl
