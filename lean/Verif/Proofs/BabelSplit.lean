/-
A declaration of UTF-8 read from a file, byte by byte, up to the check of what is behind it in the buffer.
-/
import Verif.Proofs.BabelFile
import Verif.Proofs.FileLost

namespace Axl
namespace BabelFile
open Str Parse FileParse FileStream
open Spec.Encoding

section
variable {n : Nat} {fd : Option (Source Char)} {u enc : List Char}

theorem split_decl {c : Char} (hu : 10 ≤ u.length) (he : '"' ∉ enc ∧ '\'' ∉ enc ∧ NUL ∉ enc) (hc : c ≠ '!') :
    declaration (on n fd [] (c!"<?xml version='1.0' encoding='" ++ enc ++ c!"'?>" ++ '<' :: c :: u)) =
    .ok (some enc, false, St.new, on n fd (c!"<?xml version='1.0' encoding='" ++ enc ++ c!"'?>") ('<' :: c :: u)) := by
  have hbom : FileParse.skipBom (on n fd [] (c!"<?xml version='1.0' encoding='" ++ enc ++ c!"'?>" ++ '<' :: c :: u)) =
      on n fd [] (c!"<?" ++ (c!"xml" ++ (' ' :: 'v' :: (c!"ersion='1.0' encoding='" ++ (enc ++ ('\'' :: (c!"?>" ++ '<' :: c :: u))))))) := by
    unfold FileParse.skipBom
    rw [if_neg (by simp [on])]
    simp [on]
  have hdecl : ∀ pre, FileParse.xmlDecl (on n fd pre (c!"xml" ++ (' ' :: 'v' :: (c!"ersion='1.0' encoding='" ++ (enc ++ ('\'' :: (c!"?>" ++ '<' :: c :: u))))))) =
      .ok (some enc, false, on n fd (pre ++ (c!"xml version='1.0' encoding='" ++ enc ++ c!"'?>")) ('<' :: c :: u)) := by
    intro pre
    unfold FileParse.xmlDecl
    rw [on_eat, ok_bind]
    simp only [if_true]
    rw [on_skip_one (by decide) (by decide), ok_bind]
    unfold look
    generalize hv : enc ++ ('\'' :: (c!"?>" ++ '<' :: c :: u)) = v
    have hvl : 4 ≤ v.length := by rw [← hv]; simp; omega
    have e1 : 'v' :: (c!"ersion='1.0' encoding='" ++ v) = c!"version=" ++ ('\'' :: (c!"1.0' encoding='" ++ v)) := rfl
    rw [e1, on_look_yes, ok_bind]
    simp only [FileParse.notZero, if_true]
    rw [on_skip (by decide), ok_bind]
    have e2 : '\'' :: (c!"1.0' encoding='" ++ v) = c!"'1.0'" ++ (' ' :: 'e' :: (c!"ncoding='" ++ v)) := rfl
    unfold FileParse.lookTwo look
    rw [on_look_no _ (by simp) (by rfl), ok_bind]
    simp only
    rw [e2, on_look_yes, ok_bind]
    simp only [if_true]
    unfold FileParse.declEnd
    rw [on_skip_one (by decide) (by decide), ok_bind]
    unfold FileParse.encoding
    have e4 : FileParse.lookTwo (on n fd (pre ++ c!"xml" ++ [' '] ++ c!"version=" ++ c!"'1.0'" ++ [' ']) ('e' :: (c!"ncoding='" ++ v))) c!"encoding=\"" c!"encoding='" =
        .ok (.yes v, on n fd (pre ++ c!"xml" ++ [' '] ++ c!"version=" ++ c!"'1.0'" ++ [' '] ++ c!"encoding='") v) := by
      unfold FileParse.lookTwo look
      rw [on_look_no _ (by simp) (by rfl), ok_bind]
      have e : 'e' :: (c!"ncoding='" ++ v) = c!"encoding='" ++ v := rfl
      simp only
      rw [e, on_look_yes]
      rfl
    rw [e4, ok_bind]
    simp only
    unfold FileParse.headerValue
    rw [← hv, on_until (k := 0) (len := 1) (by decide) (by
      intro x hx r
      have h1 : x ≠ '\'' := fun h => he.2.1 (h ▸ hx)
      have h2 : x ≠ '"' := fun h => he.1 (h ▸ hx)
      simp [Stream.matchAt, Stream.firstChunk, Stream.eat, h1, h2, Ne.symm h1, Ne.symm h2]) (by rfl) rfl, ok_bind]
    simp only [ok_bind, if_true]
    have hx : '?' :: '>' :: '<' :: c :: u = c!"?>" ++ '<' :: c :: u := rfl
    have hsk : ∀ p, skip (on n fd p (c!"?>" ++ '<' :: c :: u)) = .ok (on n fd p (c!"?>" ++ '<' :: c :: u)) := fun p => on_skip (by decide)
    rw [hsk, ok_bind]
    unfold FileParse.standalone
    rw [on_lookTwo_no (by simp; omega) (by rfl) (by simp; omega) (by rfl), ok_bind]
    simp only
    rw [ok_bind]
    simp only
    rw [hsk, ok_bind, on_eat, ok_bind]
    have ht : toStr enc = enc := by
      have := List.takeWhile_append_of_pos (p := fun c => decide (c ≠ NUL)) (l₁ := enc) (l₂ := []) (by
        intro c hc
        have : c ≠ NUL := by rintro rfl; exact he.2.2 hc
        simpa using this)
      simpa [toStr] using this
    simp [ht]
  have hcomments : ∀ pre f, FileParse.comments false (f + 1) St.new (on n fd pre ('<' :: c :: u)) = .ok (St.new, on n fd pre ('<' :: c :: u)) := by
    intro pre f
    have hsk : skip (on n fd pre ('<' :: c :: u)) = .ok (on n fd pre ('<' :: c :: u)) := on_skip (by decide)
    unfold FileParse.comments FileParse.comment FileParse.instruction
    rw [hsk, ok_bind, on_eat_no (by simp; omega) (by simp [FileStream.compare, Ne.symm hc])]
    simp only [ok_bind, Bool.false_eq_true, if_false, hsk, Bool.or_self]
  unfold declaration look
  rw [hbom, on_look_yes, ok_bind]
  simp only [FileParse.notZero, if_true]
  rw [hdecl, ok_bind]
  simp only
  rw [hcomments, ok_bind]
  simp

end

/-- What is behind the declaration in the first 8192 bytes has not the form of UTF-8. -/
theorem split_none {enc u v : List Char} {c : Char} (hu : 10 ≤ u.length) (he : '"' ∉ enc ∧ '\'' ∉ enc ∧ NUL ∉ enc) (hc : c ≠ '!')
    (hn : Named enc c!"utf8") {n : Nat} (hlen : (c!"<?xml version='1.0' encoding='" ++ enc ++ c!"'?>" ++ '<' :: c :: u).length = n)
    (hw : ¬ Spec.Utf8.WellShaped (octets ('<' :: c :: u))) :
    parseStream (FileStream.new ⟨c!"<?xml version='1.0' encoding='" ++ enc ++ c!"'?>" ++ '<' :: c :: u ++ v, []⟩ n) = .ok none := by
  generalize hx : c!"<?xml version='1.0' encoding='" ++ enc ++ c!"'?>" ++ '<' :: c :: u = x at *
  have hxl : 10 ≤ x.length := by rw [← hx]; simp
  obtain ⟨fd, e, -⟩ := new_eq (x ++ v) (n := n) (by omega)
  have htake : (x ++ v).take n = x := by rw [← hlen, List.take_left]
  rw [htake] at e
  rw [e]
  unfold parseStream
  have hd : Babel.detect x = .found none 0 := by
    rw [← hx]
    unfold Babel.detect
    simp [Babel.code]
  simp only [hd]
  have hs := split_decl (n := n) (fd := fd) hu he hc
  rw [hx] at hs
  have h0 : (⟨x, 0, n, fd, none, [], 0, false, none⟩ : FS Char) = on n fd [] x := by simp [on]
  rw [h0, hs, ok_bind]
  simp only
  unfold configureEncoding
  simp only
  rw [Babel.normalized_spec he.2.2 hn]
  simp only [Res.ofOption, ok_bind]
  rw [Babel.configure_utf8]
  unfold setUp setupCheck
  have hdrop : ∀ p t, (on n fd p t).data.drop (on n fd p t).index = t := fun p t => by simp [on]
  have hno : isUtf8 ('<' :: c :: u) = false := by
    cases h : isUtf8 ('<' :: c :: u) with
    | false => rfl
    | true => exact absurd ((isUtf8_iff _).1 h) hw
  simp only [hdrop, hno]
  rfl

/-! ### Which encodings are declared, as a test -/

/-- White space and what is left out of a name. -/
def passed (c : Char) : Bool := isWhite c || c == '-' || c == '_'

/-- No name of ISO 8859 can begin here. -/
def noName (r : List Char) : Bool :=
  match r.dropWhile passed with
  | [] => true
  | c :: _ => small c != 'i'

/-- No name of ISO 8859 can begin behind `encoding=` and a quote. -/
def isoFree : List Char → Bool
  | [] => true
  | c :: t => (!(c!"encoding=".isPrefixOf (c :: t)) || noName ((c :: t).drop 10)) && isoFree t

theorem isoFree_suffix {a : List Char} : ∀ {pre : List Char}, isoFree (pre ++ a) = true → isoFree a = true
  | [], h => h
  | c :: pre, h => by
    rw [List.cons_append, isoFree, Bool.and_eq_true] at h
    exact isoFree_suffix h.2

theorem noIso_of_check {s : List Char} (h : isoFree s = true) : NoIso s := by
  rintro p hp pre q enc rest rfl ⟨t, ⟨w, w', e, hw, hw', h1, h2⟩, hn⟩
  rw [List.append_assoc] at h
  have h := isoFree_suffix h
  rw [List.cons_append, isoFree, Bool.and_eq_true, Bool.or_eq_true] at h
  have h := h.1
  have hpre : c!"encoding=".isPrefixOf ('e' :: (c!"ncoding=" ++ q :: (enc ++ rest))) = true := by
    rw [List.isPrefixOf_iff_prefix]
    exact ⟨q :: (enc ++ rest), rfl⟩
  rw [hpre] at h
  simp only [Bool.not_true, Bool.false_eq_true, false_or] at h
  have hd : (('e' :: (c!"ncoding=" ++ q :: (enc ++ rest))).drop 10) = enc ++ rest := rfl
  rw [hd] at h
  have hi : (isoName p).head? = some 'i' := rfl
  rw [hn, List.head?_map, Option.map_eq_some_iff] at hi
  obtain ⟨c, hc, hs⟩ := hi
  have hcp : passed c = false := by
    have : c = 'i' ∨ c = 'I' := by
      unfold small at hs
      split at hs
      · have h3 := congrArg Char.toNat hs
        rw [toNat_ofNat_small _ (by omega)] at h3
        have h4 : c.toNat = 73 := by
          have : 'i'.toNat = 105 := by decide
          omega
        right
        rw [← Char.ofNat_toNat c, h4]
      · exact .inl hs
    rcases this with rfl | rfl <;> decide
  have key : ∀ (t : List Char), (t.filter fun c => decide (c ≠ '-' ∧ c ≠ '_')).head? = some c → ∀ r, ∃ r', (t ++ r).dropWhile passed = c :: r' := by
    intro t
    induction t with
    | nil => intro h; simp at h
    | cons d t ih =>
      intro h r
      rw [List.filter_cons] at h
      split at h
      · simp only [List.head?_cons, Option.some.injEq] at h
        subst h
        exact ⟨t ++ r, by rw [List.cons_append, List.dropWhile_cons, hcp]; rfl⟩
      · rename_i hx
        obtain ⟨r', hr⟩ := ih h r
        refine ⟨r', ?_⟩
        rw [List.cons_append, List.dropWhile_cons, if_pos, hr]
        simp only [ne_eq, decide_eq_true_eq, not_and, Classical.not_not] at hx
        unfold passed
        by_cases hd : d = '-'
        · simp [hd]
        · simp [hx hd]
  obtain ⟨r', hr⟩ := key t hc (w' ++ rest)
  have hdw : (enc ++ rest).dropWhile passed = c :: r' := by
    rw [e, ← hr]
    have : ∀ (w : List Char), (∀ c ∈ w, Spec.Xml.White c) → ∀ r, (w ++ r).dropWhile passed = r.dropWhile passed := by
      intro w
      induction w with
      | nil => intro _ _; rfl
      | cons d w ih =>
        intro h r
        rw [List.cons_append, List.dropWhile_cons, if_pos, ih (fun c hc => h c (by simp [hc]))]
        simp [passed, (Stream.white_iff d).2 (h d (by simp))]
    rw [List.append_assoc, List.append_assoc, this w hw]
  unfold noName at h
  rw [hdw] at h
  simp [hs] at h

end BabelFile
end Axl
