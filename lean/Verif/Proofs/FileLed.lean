/-
A document behind white space: where the parse goes when it has skipped it.  The buffer is kept as it is, so that
what happens at its end can be computed.
-/
import Verif.Proofs.FileWhole

namespace Axl
namespace FileParse
open Str Parse FileStream

/-- A stream with `k` spaces at the beginning of its buffer. -/
def led (k : Nat) (u : List Char) (i n : Nat) (fd : Option (Source Char)) : FS Char :=
  ⟨List.replicate k ' ' ++ u, i, n, fd, none, [], 0, false, none⟩

theorem led_skip {k n : Nat} {c : Char} {u : List Char} {fd : Option (Source Char)} (hc : isWhite c = false) :
    ∀ (j i fuel : Nat), i + j = k → j < fuel →
      FileStream.skip 0 fuel (led k (c :: u) i n fd) = .ok (led k (c :: u) k n fd) := by
  intro j
  induction j with
  | zero =>
    intro i fuel hi hf
    obtain ⟨fuel, rfl⟩ : ∃ f, fuel = f + 1 := ⟨fuel - 1, by omega⟩
    have hi : i = k := by omega
    subst hi
    unfold FileStream.skip
    have : (led i (c :: u) i n fd).data[(led i (c :: u) i n fd).index]? = some c := by simp [led]
    rw [this]
    simp [hc]
  | succ j ih =>
    intro i fuel hi hf
    obtain ⟨fuel, rfl⟩ : ∃ f, fuel = f + 1 := ⟨fuel - 1, by omega⟩
    unfold FileStream.skip
    have : (led k (c :: u) i n fd).data[(led k (c :: u) i n fd).index]? = some ' ' := by
      simp only [led]
      rw [List.getElem?_append_left (by simp; omega)]
      simp [List.getElem?_replicate]
      omega
    rw [this]
    exact ih (i + 1) fuel (by omega) (by omega)

theorem led_no {k n : Nat} {u chunk : List Char} {fd : Option (Source Char)} {d : Char} (hd : d ≠ ' ') (hk : chunk.length < k) (accept : Bool) :
    FileStream.inspect 0 (led k u 0 n fd) (d :: chunk) accept = .ok (.no, led k u 0 n fd) := by
  unfold FileStream.inspect
  rw [if_neg (by simp [led]; omega)]
  unfold inspectHere
  obtain ⟨k, rfl⟩ : ∃ f, k = f + 1 := ⟨k - 1, by omega⟩
  have : FileStream.compare (d :: chunk) ((led (k + 1) u 0 n fd).data.drop (led (k + 1) u 0 n fd).index) = some false := by
    simp [led, List.replicate_succ, FileStream.compare, hd]
  rw [this]

/-- The parse of a document behind spaces that are all in the buffer. -/
theorem parse_led {k n : Nat} {c : Char} {u : List Char} {fd : Option (Source Char)} (hc : isWhite c = false) (hk : 9 ≤ k) :
    parseStream (led k (c :: u) 0 n fd) = (do
      let st ← (do
        let (st, s, empty) ← (do
          let (st, s) ← comments true (left (led k (c :: u) 0 n fd) + 1) St.new (led k (c :: u) k n fd)
          let (opened, s) ← openAngle s
          if opened then parseTag st s else .error)
        if empty then .ok st else mainLoop (left s + 1) st s)
      if !st.opened.isEmpty then .error
      else
        match st.root with
        | none => .ub
        | some root => .ok ⟨none, false, root, st.pis, st.noValue⟩) := by
  have hs0 : skip (led k (c :: u) 0 n fd) = .ok (led k (c :: u) k n fd) := by
    unfold skip
    refine led_skip hc k 0 _ (by omega) ?_
    simp only [left, led, List.length_append, List.length_replicate]
    omega
  have hs1 : skip (led k (c :: u) k n fd) = .ok (led k (c :: u) k n fd) := by
    unfold skip
    exact led_skip hc 0 k _ (by omega) (by omega)
  have hcm : ∀ f, comments true (f + 1) St.new (led k (c :: u) 0 n fd) = comments true (f + 1) St.new (led k (c :: u) k n fd) := by
    intro f
    unfold comments comment
    rw [hs0, hs1]
  have hbom : skipBom (led k (c :: u) 0 n fd) = led k (c :: u) 0 n fd := by
    unfold skipBom
    obtain ⟨k, rfl⟩ : ∃ f, k = f + 1 := ⟨k - 1, by omega⟩
    rw [if_neg]
    simp [led, List.replicate_succ]
  have hhead : parseHeader (led k (c :: u) 0 n fd) = .ok (none, false, St.new, led k (c :: u) 0 n fd) := by
    unfold parseHeader look
    rw [hbom, led_no (by decide) (by simp; omega), ok_bind]
    simp only [notZero, Bool.false_eq_true, if_false]
    unfold doctype eat look
    rw [led_no (by decide) (by simp; omega)]
    rfl
  unfold parseStream
  rw [hhead, ok_bind]
  simp only
  unfold body parseNode
  rw [hcm]
  rfl

/-- A file that begins with spaces, when the first read fills the buffer. -/
theorem new_led {k n : Nat} {u v : List Char} (hk : 0 < n) (hn : k + u.length = n) :
    FileStream.new ⟨List.replicate k ' ' ++ (u ++ v), []⟩ n = led k u 0 n (some ⟨v, []⟩) := by
  have htake : (List.replicate k ' ' ++ (u ++ v)).take n = List.replicate k ' ' ++ u := by
    rw [← List.append_assoc, List.take_append_of_le_length (by simp; omega), List.take_of_length_le (by simp; omega)]
  have hdrop : (List.replicate k ' ' ++ (u ++ v)).drop n = v := by
    rw [← List.append_assoc, List.drop_append, List.drop_of_length_le (by simp; omega)]
    simp [hn]
  have hb : (List.replicate k ' ' ++ u).isEmpty = false := by
    cases h : List.replicate k ' ' ++ u with
    | nil =>
      have := congrArg List.length h
      simp only [List.length_append, List.length_replicate, List.length_nil] at this
      omega
    | cons a b => rfl
  unfold FileStream.new readPlain
  simp only [accepts, Source.read, List.length_nil, Nat.sub_zero, Bool.not_true, Bool.false_eq_true, if_false, htake, hdrop]
  simp [hb, led]

/-- What is behind a `>`: white space only before a `<` or the end. -/
def leadAfter (t : List Char) : Bool :=
  match t.dropWhile isWhite with
  | [] => true
  | d :: _ => d == '<' || t.head? == some d

/-- A check of `NoLead`. -/
def leadCheck : List Char → Bool
  | [] => true
  | c :: t => (c != '>' || leadAfter t) && leadCheck t

theorem farLead_of_noLead {t : List Char} (h : Spec.File.NoLead t) : Spec.File.FarLead t :=
  fun a b c d h1 h2 h3 h4 => .inl (h a b c d h1 h2 h3 h4)

theorem noLead_of_check : ∀ {t : List Char}, leadCheck t = true → Spec.File.NoLead t := by
  have after : ∀ (w : List Char) (c : Char) (rest : List Char), leadAfter (w ++ c :: rest) = true → (∀ x ∈ w, Spec.Xml.White x) →
      ¬ Spec.Xml.White c → c ≠ '<' → w = [] := by
    intro w c rest h hw hc hlt
    have hcw : isWhite c = false := by
      cases hx : isWhite c with
      | false => rfl
      | true => exact absurd ((Stream.white_iff c).1 hx) hc
    have hd : (w ++ c :: rest).dropWhile isWhite = c :: rest := by
      rw [List.dropWhile_append_of_pos (fun x hx => (Stream.white_iff x).2 (hw x hx))]
      simp [List.dropWhile, hcw]
    unfold leadAfter at h
    rw [hd] at h
    cases w with
    | nil => rfl
    | cons a w =>
      simp only [Bool.or_eq_true, beq_iff_eq, hlt, List.cons_append, List.head?_cons, Option.some.injEq, false_or] at h
      exact absurd (h ▸ hw a (by simp)) hc
  intro t h pre
  induction pre generalizing t with
  | nil =>
    intro w c rest he hw hc hlt
    rw [he] at h
    simp only [leadCheck, List.nil_append, Bool.and_eq_true, Bool.or_eq_true] at h
    exact after w c rest (by simpa using h.1) hw hc hlt
  | cons a pre ih =>
    intro w c rest he hw hc hlt
    rw [he] at h
    simp only [leadCheck, List.cons_append, Bool.and_eq_true] at h
    exact ih h.2 w c rest rfl hw hc hlt

/-- A check of `FarLead`. -/
def farCheck : List Char → Bool
  | [] => true
  | c :: t => (c != '>' || leadAfter t || decide (9 ≤ (t.dropWhile isWhite).length)) && farCheck t

theorem farLead_of_check : ∀ {t : List Char}, farCheck t = true → Spec.File.FarLead t := by
  have hw' : ∀ (w : List Char) (c : Char) (rest : List Char), (∀ x ∈ w, Spec.Xml.White x) → ¬ Spec.Xml.White c →
      (w ++ c :: rest).dropWhile isWhite = c :: rest := by
    intro w c rest hw hc
    have hcw : isWhite c = false := by
      cases hx : isWhite c with
      | false => rfl
      | true => exact absurd ((Stream.white_iff c).1 hx) hc
    rw [List.dropWhile_append_of_pos (fun x hx => (Stream.white_iff x).2 (hw x hx))]
    simp [List.dropWhile, hcw]
  intro t h pre
  induction pre generalizing t with
  | nil =>
    intro w c rest he hw hc hlt
    rw [he] at h
    simp only [farCheck, List.nil_append, Bool.and_eq_true, Bool.or_eq_true, hw' w c rest hw hc, decide_eq_true_eq] at h
    rcases h.1 with (h | h) | h
    · simp at h
    · unfold leadAfter at h
      rw [hw' w c rest hw hc] at h
      cases w with
      | nil => exact .inl rfl
      | cons a w =>
        simp only [Bool.or_eq_true, beq_iff_eq, hlt, List.cons_append, List.head?_cons, Option.some.injEq, false_or] at h
        exact absurd (h ▸ hw a (by simp)) hc
    · exact .inr h
  | cons a pre ih =>
    intro w c rest he hw hc hlt
    rw [he] at h
    simp only [farCheck, List.cons_append, Bool.and_eq_true] at h
    exact ih h.2 w c rest rfl hw hc hlt

end FileParse
end Axl
