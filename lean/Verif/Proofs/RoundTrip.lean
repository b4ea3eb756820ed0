/-
The text of a dump is read back: a forward simulation of the parser.
-/
import Verif.Proofs.ParseHeader
import Verif.Proofs.Dump
import Verif.Spec.RoundTrip

namespace Axl
namespace Parse
open Str Stream Spec.Xml Spec.RoundTrip Spec.Dump

/-- The result, if the steps are enough, satisfies `P`. -/
def _root_.Axl.Res.Ends {α : Type} (P : α → Prop) : Res α → Prop
  | .ok a => P a
  | .error => False
  | .ub => False
  | .loop => True

theorem ends_bind {α β : Type} {P : α → Prop} {Q : β → Prop} {r : Res α} {f : α → Res β}
    (h : r.Ends P) (hf : ∀ a, P a → (f a).Ends Q) : (r >>= f).Ends Q := by
  cases r with
  | ok a => exact hf a h
  | error => exact h
  | ub => exact h
  | loop => trivial

theorem ends_sat {α : Type} {P Q : α → Prop} {r : Res α} (h : r.Ends P) (hs : r.Sat Q) : ∃ a, r = .ok a ∧ P a := by
  cases r with
  | ok a => exact ⟨a, rfl, h⟩
  | error => exact h.elim
  | ub => exact h.elim
  | loop => exact hs.elim

/-- The loop of the parser, from this state, ends with `P`. -/
def Goes (st : St) (s : List Char) (P : St → Prop) : Prop := ∀ fuel, (mainLoop fuel st s).Ends P

/-- Nothing is preserved. -/
def Quiet (st : St) : Prop := ∀ b ∈ st.preserve, b = false

theorem Quiet.preserves {st : St} (h : Quiet st) : st.preserves = false := by
  unfold St.preserves
  cases hp : st.preserve with
  | nil => rfl
  | cons b bs => exact h b (by simp [hp])

/-- All but the nodes that are open. -/
def Alike (st st' : St) : Prop := st'.root = st.root ∧ st'.pis = st.pis ∧ st'.noValue = st.noValue

theorem Alike.refl (st : St) : Alike st st := ⟨rfl, rfl, rfl⟩
theorem Alike.trans {a b c : St} (h : Alike a b) (g : Alike b c) : Alike a c :=
  ⟨g.1.trans h.1, g.2.1.trans h.2.1, g.2.2.trans h.2.2⟩

/-! ### One pass -/

theorem goes_pass {st : St} {s : List Char} {P : St → Prop} (hs : s ≠ [])
    (h : (pass st s).Ends fun x => if x.2.2 then Goes x.1 x.2.1 P else P x.1) : Goes st s P := by
  intro fuel
  cases fuel with
  | zero => trivial
  | succ fuel =>
    unfold mainLoop
    split
    · exact absurd rfl hs
    · refine ends_bind h ?_
      rintro ⟨st', s', more⟩ hx
      cases more with
      | true => exact hx fuel
      | false => exact hx

theorem more_ok {st : St} {s : List Char} {P : St → Prop} (h : Goes st s P) :
    (Res.ok (st, s, true)).Ends fun x : St × List Char × Bool => if x.2.2 then Goes x.1 x.2.1 P else P x.1 := by
  show (if true = true then Goes st s P else P st)
  rw [if_pos rfl]
  exact h

/-- The stream has a "<" after some white spaces. -/
def Lt (s : List Char) : Prop := ∃ r, skip s = '<' :: r

theorem lt_append {b s : List Char} (hb : Blank b) (h : Lt s) : Lt (b ++ s) := by
  obtain ⟨r, h⟩ := h
  exact ⟨r, by rw [skip_blank hb, h]⟩

theorem lt_cons (r : List Char) : Lt ('<' :: r) := ⟨r, skip_cons_not (by simp [White])⟩

theorem Lt.ne {s : List Char} (h : Lt s) : s ≠ [] := by
  rintro rfl
  obtain ⟨r, h⟩ := h
  cases h

theorem pass_blank {st : St} (hq : Quiet st) {b s : List Char} (hb : Blank b) (h : Lt s) : pass st (b ++ s) = pass st s := by
  obtain ⟨r, hr⟩ := h
  unfold pass
  simp only [hq.preserves, Bool.false_eq_true, if_false, skip_blank hb, hr]
  rw [show eat ('<' :: r) c!"<" = some r from eat_append c!"<" r]

theorem goes_blank_iff {st : St} (hq : Quiet st) {b s : List Char} (hb : Blank b) (h : Lt s) {P : St → Prop} :
    Goes st (b ++ s) P ↔ Goes st s P := by
  have hne := h.ne
  have hne' : b ++ s ≠ [] := by simp [hne]
  have key : ∀ fuel, mainLoop fuel st (b ++ s) = mainLoop fuel st s := by
    intro fuel
    cases fuel with
    | zero => rfl
    | succ fuel =>
      unfold mainLoop
      split
      · rename_i he; exact absurd he hne'
      · rw [pass_blank hq hb h]
  unfold Goes
  simp only [key]

theorem goes_blank {st : St} (hq : Quiet st) {b s : List Char} (hb : Blank b) (h : Lt s) {P : St → Prop}
    (hg : Goes st s P) : Goes st (b ++ s) P := (goes_blank_iff hq hb h).2 hg

/-! ### Comments and instructions -/

theorem not_prefix_cons {a b : Char} {m s : List Char} (h : a ≠ b) : ¬ a :: m <+: b :: s := by
  rw [List.cons_prefix_cons]; exact fun g => h g.1

/-- After a comment or an instruction the rest is read as if it came next in the loop of the parser. -/
def Next (s : List Char) : Prop := Lt s ∨ skip s = s ∧ s ≠ []

theorem comments_none {header : Bool} {st : St} {s : List Char} (h1 : ¬ c!"<!--" <+: skip s) (h2 : header = true → ¬ c!"<?" <+: skip s)
    (fuel : Nat) : comments header (fuel + 1) st s = .ok (st, skip s) := by
  unfold comments comment
  rw [eat_none.2 h1]
  simp only [Res.ok_bind]
  unfold instruction
  cases header with
  | false => simp only [Bool.false_and, Bool.false_eq_true, if_false, Res.ok_bind, Bool.or_self, skip_skip]
  | true =>
    rw [skip_skip, peek_false.2 (h2 rfl)]
    simp only [Bool.and_false, Bool.false_eq_true, if_false, Res.ok_bind, Bool.or_self, skip_skip]

theorem comments_fuel {header : Bool} : ∀ (f g : Nat) (st : St) (s : List Char), comments header f st s ≠ .loop →
    comments header g st s ≠ .loop → comments header f st s = comments header g st s
  | 0, _, _, _, h, _ => absurd rfl h
  | _ + 1, 0, _, _, _, h => absurd rfl h
  | f + 1, g + 1, st, s, h1, h2 => by
    unfold comments at h1 h2 ⊢
    cases hc : comment st s with
    | ok x =>
      obtain ⟨b, st1, s1⟩ := x
      rw [hc] at h1 h2
      simp only [Res.ok_bind] at h1 h2 ⊢
      cases hi : instruction header st1 s1 with
      | ok x =>
        obtain ⟨b2, st2, s2⟩ := x
        rw [hi] at h1 h2
        simp only [Res.ok_bind] at h1 h2 ⊢
        split
        · rename_i hb
          rw [if_pos hb] at h1 h2
          exact comments_fuel f g st2 s2 h1 h2
        · rfl
      | error => rfl
      | ub => rfl
      | loop => rfl
    | error => rfl
    | ub => rfl
    | loop => rfl

theorem comments_skip {header : Bool} (fuel : Nat) (st : St) (s : List Char) :
    comments header fuel st (skip s) = comments header fuel st s := by
  cases fuel with
  | zero => rfl
  | succ fuel =>
    unfold comments comment
    rw [skip_skip]

theorem comments_no_loop {header : Bool} {fuel : Nat} {st : St} {s : List Char} (h : s.length < fuel) :
    comments header fuel st s ≠ .loop := by
  have := comments_sat header fuel st s h
  intro he
  rw [he] at this
  exact this

theorem goes_comments {st : St} (hq : Quiet st) {s : List Char} (hn : Next s) {P : St → Prop} (hg : Goes st s P) (fuel : Nat) :
    (comments true fuel st s).Ends fun x => Goes x.1 x.2 P := by
  by_cases hc : c!"<!--" <+: skip s ∨ c!"<?" <+: skip s
  · -- the pass does the same
    have hsk : (peek (skip s) c!"<?" || peek (skip s) c!"<!--") = true := by
      rcases hc with ⟨r, h⟩ | ⟨r, h⟩
      · rw [Bool.or_eq_true]; right; exact peek_iff.2 ⟨r, h.symm⟩
      · rw [Bool.or_eq_true]; left; exact peek_iff.2 ⟨r, h.symm⟩
    have hp : pass st s = (comments true ((skip s).length + 1) st (skip s) >>= fun x => .ok (x.1, x.2, true)) := by
      unfold pass
      simp only [hq.preserves, Bool.false_eq_true, if_false, hsk, if_true]
    have hne : s ≠ [] := by
      rintro rfl
      rcases hc with h | h <;> simp [skip] at h
    have hl : comments true ((skip s).length + 1) st (skip s) ≠ .loop := comments_no_loop (by omega)
    by_cases hf : comments true fuel st s = .loop
    · rw [hf]; trivial
    · rw [← comments_skip] at hf ⊢
      rw [comments_fuel _ _ _ _ hf hl]
      have key : ∀ n, mainLoop (n + 1) st s = (comments true ((skip s).length + 1) st (skip s) >>= fun x => mainLoop n x.1 x.2) := by
        intro n
        conv => lhs; unfold mainLoop
        split
        · exact absurd rfl hne
        · rw [hp]
          cases comments true ((skip s).length + 1) st (skip s) <;> rfl
      cases hr : comments true ((skip s).length + 1) st (skip s) with
      | ok x =>
        intro n
        have := hg (n + 1)
        rw [key, hr] at this
        exact this
      | error =>
        have := hg 1
        rw [key, hr] at this
        exact this
      | ub =>
        have := hg 1
        rw [key, hr] at this
        exact this
      | loop => trivial
  · cases fuel with
    | zero => trivial
    | succ fuel =>
      rw [comments_none (fun h => hc (Or.inl h)) (fun _ h => hc (Or.inr h))]
      show Goes st (skip s) P
      rcases hn with h | ⟨h, _⟩
      · obtain ⟨b, hb, hs, _⟩ := skip_spec s
        obtain ⟨r, hr⟩ := h
        rw [hs] at hg
        exact (goes_blank_iff hq hb (by rw [hr]; exact lt_cons r)).1 hg
      · rw [h]; exact hg

/-! ### The items -/

theorem toStr_id {t : List Char} (h : NUL ∉ t) : toStr t = t := by
  unfold toStr
  induction t with
  | nil => rfl
  | cons c t ih =>
    have hne : c ≠ NUL := by rintro rfl; exact h (by simp)
    rw [List.takeWhile_cons_of_pos (by simpa using hne), ih (fun hh => h (by simp [hh]))]

/-- The state with one more item in the node at the top. -/
def St.with_ (st : St) (i : Items) : St :=
  match st.opened with
  | [] => st
  | o :: os => { st with opened := { o with items := o.items.append i } :: os }

theorem addLeaf_eq (st : St) (l : Leaf) : st.addLeaf l = st.with_ (.leaf l .nil) := by
  unfold St.addLeaf St.with_
  cases st.opened <;> rfl

theorem with_quiet {st : St} (h : Quiet st) (i : Items) : Quiet (st.with_ i) := by
  unfold St.with_
  cases st.opened <;> exact h

theorem with_with (st : St) (i j : Items) : (st.with_ i).with_ j = st.with_ (i.append j) := by
  obtain ⟨os, r, p, q, n⟩ := st
  cases os with
  | nil => rfl
  | cons o os => simp only [St.with_, append_assoc]

theorem pass_misc {st : St} (hq : Quiet st) {s : List Char} (h : c!"<!--" <+: s ∨ c!"<?" <+: s) :
    pass st s = (comments true (s.length + 1) st s >>= fun x => .ok (x.1, x.2, true)) := by
  have hs : skip s = s := by
    rcases h with ⟨r, rfl⟩ | ⟨r, rfl⟩ <;> exact skip_cons_not (by simp [White])
  have hsk : (peek s c!"<?" || peek s c!"<!--") = true := by
    rcases h with ⟨r, h⟩ | ⟨r, h⟩
    · rw [Bool.or_eq_true]; right; exact peek_iff.2 ⟨r, h.symm⟩
    · rw [Bool.or_eq_true]; left; exact peek_iff.2 ⟨r, h.symm⟩
  unfold pass
  simp only [hq.preserves, Bool.false_eq_true, if_false, hs, hsk, if_true]

theorem goes_comment {st : St} (hq : Quiet st) {t s : List Char} (ht : t ≠ []) (hu : UpTo c!"-->" t) (hn : Next s) {P : St → Prop}
    (hg : Goes (st.addLeaf (.comment t)) s P) : Goes st (c!"<!--" ++ t ++ c!"-->" ++ s) P := by
  refine goes_pass (by simp) ?_
  rw [pass_misc hq (Or.inl ⟨t ++ c!"-->" ++ s, by simp⟩)]
  refine ends_bind (P := fun x => Goes x.1 x.2 P) ?_ (fun x hx => by show (if true = true then Goes x.1 x.2 P else P x.1); rw [if_pos rfl]; exact hx)
  generalize (c!"<!--" ++ t ++ c!"-->" ++ s).length = k
  have h1 : comment st (c!"<!--" ++ t ++ c!"-->" ++ s) = .ok (true, st.addLeaf (.comment t), s) := by
    unfold comment
    rw [show skip (c!"<!--" ++ t ++ c!"-->" ++ s) = c!"<!--" ++ (t ++ c!"-->" ++ s) by
      rw [List.append_assoc, List.append_assoc]; simp only [List.cons_append]; rw [skip_cons_not (by simp [White])]; simp]
    rw [eat_append]
    simp only
    unfold getUntilRef
    rw [getUntil_mark (by decide) hu]
    simp only [ht, if_false]
  unfold comments
  rw [h1]
  simp only [Res.ok_bind]
  by_cases hi : c!"<?" <+: skip s
  · -- an instruction follows
    have := goes_comments (st := st.addLeaf (.comment t)) (by rw [addLeaf_eq]; exact with_quiet hq _) hn hg (k + 1)
    have hc : ¬ c!"<!--" <+: skip s := by
      obtain ⟨r, hr⟩ := hi
      rw [← hr]; simp
    unfold comments comment at this
    rw [eat_none.2 hc] at this
    simp only [Res.ok_bind] at this
    rw [show instruction true (st.addLeaf (.comment t)) (skip s) = instruction true (st.addLeaf (.comment t)) s by
      unfold instruction; rw [skip_skip]] at this
    cases hr : instruction true (st.addLeaf (.comment t)) s with
    | ok x =>
      obtain ⟨b, st2, s2⟩ := x
      have hb : b = true := by
        unfold instruction at hr
        rw [peek_iff.2 ⟨_, hi.choose_spec.symm⟩] at hr
        simp only [Bool.and_self, if_true] at hr
        cases hp : consumePi (st.addLeaf (.comment t)) (skip s) with
        | ok y => rw [hp] at hr; cases hr; rfl
        | _ => rw [hp] at hr; cases hr
      subst hb
      rw [hr] at this
      simp only [Res.ok_bind, Bool.or_true, if_true] at this ⊢
      exact this
    | error => rw [hr] at this; exact this
    | ub => rw [hr] at this; exact this
    | loop => trivial
  · have h2 : instruction true (st.addLeaf (.comment t)) s = .ok (false, st.addLeaf (.comment t), skip s) := by
      unfold instruction
      rw [peek_false.2 hi]
      rfl
    rw [h2]
    simp only [Res.ok_bind, Bool.or_false, if_true, comments_skip]
    exact goes_comments (by rw [addLeaf_eq]; exact with_quiet hq _) hn hg k

theorem goes_pi {st : St} (hq : Quiet st) (ho : st.opened ≠ []) {name c s : List Char} (hname : IsName name) (hres : ¬ Reserved name)
    (hc : NUL ∉ c) (hu : UpTo c!"?>" c) (hl : c.getLast? ≠ some ' ') (hn : Next s) {P : St → Prop}
    (hg : Goes (st.addLeaf (.pi ⟨name, some c⟩)) s P) : Goes st (c!"<?" ++ name ++ [' '] ++ c ++ c!"?>" ++ s) P := by
  refine goes_pass (by simp) ?_
  rw [pass_misc hq (Or.inr ⟨name ++ [' '] ++ c ++ c!"?>" ++ s, by simp⟩)]
  refine ends_bind (P := fun x => Goes x.1 x.2 P) ?_ (fun x hx => by show (if true = true then Goes x.1 x.2 P else P x.1); rw [if_pos rfl]; exact hx)
  generalize (c!"<?" ++ name ++ [' '] ++ c ++ c!"?>" ++ s).length = k
  generalize hS : c!"<?" ++ name ++ [' '] ++ c ++ c!"?>" ++ s = S
  have hsk : skip S = S := by rw [← hS]; simp only [List.cons_append, List.append_assoc]; rw [skip_cons_not (by simp [White])]
  have hS2 : S = c!"<?" ++ (name ++ ' ' :: (c ++ c!"?>" ++ s)) := by rw [← hS]; simp
  have hnulname : NUL ∉ name := fun h => by
    have := (hname.2 _ h).2
    simp [NUL] at this
  have h1 : comment st S = .ok (false, st, S) := by
    unfold comment
    rw [hsk, eat_none.2 (by rw [hS2]; simp)]
  have hname1 : getUntil [c!" ?>", c!"?>", c!" "] (name ++ ' ' :: (c ++ c!"?>" ++ s)) =
      some ⟨name, 2, ' ' :: (c ++ c!"?>" ++ s), c ++ c!"?>" ++ s⟩ := by
    refine getUntil_of (n := 1) (by rw [matchAt_pi]; rfl) name ?_
    intro x d y hx
    have hd := hname.2 d (by rw [hx]; simp)
    rw [matchAt_pi, if_neg (by rw [white_iff]; exact hd.1), if_neg]
    rw [List.cons_prefix_cons]
    rintro ⟨rfl, -⟩
    exact hd.2 (by simp)
  have hcont : getUntil [c!" ?>", c!"?>"] (c ++ c!"?>" ++ s) = some ⟨c, 1, c!"?>" ++ s, s⟩ := by
    rw [List.append_assoc]
    refine getUntil_of (n := 2) ?_ c ?_
    · rw [matchAt_piEnd, if_neg (not_prefix_cons (by decide)), if_pos ⟨s, rfl⟩]
    · intro x d y hx
      have h3 := (upTo_iff.1 hu).2 x d y hx
      have h4 : ¬ c!"?>" <+: d :: (y ++ '?' :: ('>' :: s)) := by
        intro h
        refine h3 ((prefix_cut (rest := s)).1 ?_)
        simpa using h
      rw [matchAt_piEnd, if_neg, if_neg (show ¬ c!"?>" <+: d :: (y ++ '?' :: c!">".append s) from h4)]
      rw [List.cons_prefix_cons]
      rintro ⟨rfl, hp⟩
      cases y with
      | nil => rw [hx] at hl; simp at hl
      | cons e y =>
        simp only [List.cons_append, List.cons_prefix_cons] at hp
        obtain ⟨rfl, hp⟩ := hp
        have h3' := (upTo_iff.1 hu).2 (x ++ [' ']) '?' y (by rw [hx]; simp)
        apply h3'
        cases y with
        | nil => simp at hp
        | cons e y =>
          simp only [List.cons_append, List.cons_prefix_cons] at hp
          obtain ⟨rfl, hp⟩ := hp
          exact ⟨_, rfl⟩
  have h2 : instruction true st S = .ok (true, st.addLeaf (.pi ⟨name, some c⟩), s) := by
    unfold instruction
    rw [hsk, peek_iff.2 ⟨_, hS2⟩]
    simp only [Bool.and_self, if_true]
    unfold consumePi
    rw [hS2, eat_append]
    simp only [hname1, hcont, toStr_id hnulname, toStr_id hc]
    rw [if_neg (fun h => hres ((reserved_iff name).1 h)), if_neg (by decide)]
    unfold St.addPI
    cases hop : st.opened with
    | nil => exact absurd hop ho
    | cons o os => rfl
  unfold comments
  rw [h1]
  simp only [Res.ok_bind, h2, Bool.or_true, if_true]
  exact goes_comments (by rw [addLeaf_eq]; exact with_quiet hq _) hn hg k

theorem goes_cdata {st : St} (hq : Quiet st) {t s : List Char} (hu : UpTo c!"]]>" t) (hnul : NUL ∉ t) {P : St → Prop}
    (hg : Goes (st.addLeaf (.cdata t)) s P) : Goes st (c!"<![CDATA[" ++ t ++ c!"]]>" ++ s) P := by
  refine goes_pass (by simp) ?_
  have hS : c!"<![CDATA[" ++ t ++ c!"]]>" ++ s = c!"<![CDATA[" ++ (t ++ c!"]]>" ++ s) := by simp
  have hsk : skip (c!"<![CDATA[" ++ (t ++ c!"]]>" ++ s)) = c!"<![CDATA[" ++ (t ++ c!"]]>" ++ s) :=
    skip_cons_not (by simp [White])
  rw [hS]
  unfold pass
  simp only [hq.preserves, Bool.false_eq_true, if_false, hsk]
  rw [peek_false.2 (by simp), peek_false.2 (by simp)]
  simp only [Bool.or_self, Bool.false_eq_true, if_false]
  rw [eat_none.2 (by simp), eat_append]
  simp only
  unfold cdata
  rw [getUntil_mark (by decide) hu]
  simp only [Res.ok_bind, toStr_id hnul]
  exact hg

theorem skip_not_lt {t : List Char} (hb : ¬ Blank t) (hlt : '<' ∉ t) (s : List Char) : ∃ c r, skip (t ++ s) = c :: r ∧ c ≠ '<' := by
  induction t with
  | nil => exact absurd (fun _ h => by simp at h) hb
  | cons d t ih =>
    by_cases hw : White d
    · have := ih (fun h => hb (by
        intro c hc
        rcases List.mem_cons.1 hc with rfl | hc
        · exact hw
        · exact h c hc)) (fun h => hlt (by simp [h]))
      rw [List.cons_append, ← List.singleton_append, skip_blank (fun c hc => by simp at hc; subst hc; exact hw)]
      exact this
    · exact ⟨d, t ++ s, skip_cons_not hw, fun h => hlt (by simp [h])⟩

theorem goes_content {st : St} (hq : Quiet st) {t s : List Char} (hb : ¬ Blank t) (hlt : '<' ∉ t) (hnul : NUL ∉ t) {P : St → Prop}
    (hg : Goes (st.addLeaf (.content t)) ('<' :: s) P) : Goes st (t ++ '<' :: s) P := by
  refine goes_pass (by simp) ?_
  obtain ⟨c, r, h1, h2⟩ := skip_not_lt hb hlt ('<' :: s)
  have hno : ∀ m, ¬ '<' :: m <+: c :: r := fun m => not_prefix_cons (Ne.symm h2)
  unfold pass
  simp only [hq.preserves, Bool.false_eq_true, if_false, h1]
  rw [peek_false.2 (hno _), peek_false.2 (hno _)]
  simp only [Bool.or_self, Bool.false_eq_true, if_false]
  rw [eat_none.2 (hno _), eat_none.2 (hno _), eat_none.2 (hno _)]
  simp only
  unfold content
  have := getUntil_mark (mark := c!"<") (text := t) (rest := s) (by decide) (upTo_char.2 hlt)
  rw [List.append_assoc] at this
  rw [show t ++ '<' :: s = t ++ (c!"<" ++ s) from rfl, this]
  simp only [Res.ok_bind, toStr_id hnul]
  exact hg

/-! ### Tags -/

theorem name_char {n : List Char} (h : IsName n) : ∃ c r, n = c :: r ∧ NameChar c := by
  cases n with
  | nil => exact absurd rfl h.1
  | cons c r => exact ⟨c, r, rfl, h.2 c (by simp)⟩

theorem name_nul {n : List Char} (h : IsName n) : NUL ∉ n := fun hn => by
  have := (h.2 _ hn).2
  simp [NUL] at this

theorem name_not {n : List Char} (h : IsName n) {d : Char} (hd : d ∈ [Char.ofNat 0, '<', '>', '/', '=', '\'', '"', '!', '?', '&']) : d ∉ n :=
  fun hn => (h.2 d hn).2 hd

theorem skip_name {n : List Char} (h : IsName n) (s : List Char) : skip (n ++ s) = n ++ s := by
  obtain ⟨c, r, rfl, hc⟩ := name_char h
  exact skip_cons_not hc.1

/-- The quote used for a value. -/
def quoteOf (v : List Char) : Char := if '\'' ∈ v then '"' else '\''

theorem attrText_eq (n v : List Char) : attrText (n, v) = ' ' :: (n ++ '=' :: quoteOf v :: v ++ [quoteOf v]) := by
  simp [attrText, quoteOf]

theorem quoteOf_spec {v : List Char} (h : Quotable v) : quoteOf v ∉ v ∧ (quoteOf v = '"' ∨ quoteOf v = '\'') := by
  unfold quoteOf
  by_cases hq : '\'' ∈ v
  · rw [if_pos hq]; exact ⟨fun h2 => h.2 ⟨hq, h2⟩, Or.inl rfl⟩
  · rw [if_neg hq]; exact ⟨hq, Or.inr rfl⟩

theorem quote_of {q : Char} (hq : q = '"' ∨ q = '\'') (r : List Char) : quote (q :: r) = some (q, r) := by
  unfold quote
  rcases hq with rfl | rfl
  · rw [show eat ('"' :: r) c!"\"" = some r from eat_append c!"\"" r]
  · rw [eat_none.2 (not_prefix_cons (by decide)), show eat ('\'' :: r) c!"'" = some r from eat_append c!"'" r]

theorem attrib_fine {st : St} {o : Open} {os : List Open} (ho : st.opened = o :: os) {as : List (List Char × Option (List Char))}
    (hok : OpenOk o as) (hq : Quiet st) {n v : List Char} (hf : FineAttr n v) (hn : n ∉ as.map (·.1)) (s : List Char) :
    ∃ st' o', attrib st (n ++ '=' :: quoteOf v :: v ++ [quoteOf v] ++ s) = .ok (st', skip s) ∧ st'.opened = o' :: os ∧
      OpenOk o' (as ++ [(n, some v)]) ∧ o'.name = o.name ∧ o'.items = o.items ∧ Quiet st' ∧ Alike st st' := by
  obtain ⟨hname, hval, hspace⟩ := hf
  obtain ⟨hq1, hq2⟩ := quoteOf_spec hval
  have hnul := name_nul hname
  have hS : n ++ '=' :: quoteOf v :: v ++ [quoteOf v] ++ s = n ++ c!"=" ++ (quoteOf v :: (v ++ [quoteOf v] ++ s)) := by simp
  have hg : getUntil [c!"="] (skip (n ++ '=' :: quoteOf v :: v ++ [quoteOf v] ++ s)) =
      some ⟨n, 0, c!"=" ++ (quoteOf v :: (v ++ [quoteOf v] ++ s)), quoteOf v :: (v ++ [quoteOf v] ++ s)⟩ := by
    rw [hS, List.append_assoc, skip_name hname, ← List.append_assoc]
    exact getUntil_mark (by decide) (upTo_char.2 (name_not hname (by simp)))
  have hne : quoteOf v ≠ ' ' := by rcases hq2 with h | h <;> rw [h] <;> decide
  have hv : attrValue (quoteOf v) (v ++ [quoteOf v] ++ s) = (some v, s) := by
    unfold attrValue
    rw [getUntil_mark (by simpa using hne) (upTo_char.2 hq1)]
    simp only [toStr_id hval.1]
  obtain ⟨o', h1, h2, h3, h4⟩ := setAttr_sat hok hn (v := some v) hnul (by intro x hx; cases hx; exact hval.1)
  obtain ⟨b, hb1, hb2⟩ := has_spec hok n
  have hbf : ¬ (b || o.noValue.contains n) = true := fun h => hn (hb2.1 h)
  have hspace' : ∃ st', space { st with opened := o' :: os } n (some v) = .ok st' ∧ st'.opened = o' :: os ∧ Quiet st' ∧ Alike st st' := by
    unfold space
    rw [Attrs.cmp_beq]
    by_cases hx : n = c!"xml:space"
    · have := hspace hx
      subst this
      subst hx
      refine ⟨{ st with opened := o' :: os, preserve := false :: st.preserve }, ?_, rfl, ?_, rfl, rfl, rfl⟩
      · rw [if_pos (by decide), Attrs.cmp_beq, if_neg (by decide), Attrs.cmp_beq, if_pos (by decide)]
      · intro b hb
        simp only [List.mem_cons] at hb
        rcases hb with h | h
        · exact h
        · exact hq b h
    · rw [if_neg (by rw [beq_iff_eq]; exact hx)]
      refine ⟨_, rfl, ?_, ?_, ?_⟩
      · unfold St.inherit; simp only; split <;> rfl
      · unfold St.inherit
        simp only
        split
        · intro b hb; simpa using hb
        · rename_i b bs hp
          intro c hc
          simp only [List.mem_cons] at hc
          refine hq c ?_
          rw [hp]
          simpa using hc
      · unfold St.inherit
        simp only
        split <;> exact ⟨rfl, rfl, rfl⟩
  obtain ⟨st', g1, g2, g3, g4⟩ := hspace'
  refine ⟨st', o', ?_, g2, h2, h3, h4, g3, g4⟩
  unfold attrib
  rw [hg]
  simp only [toStr_id hnul]
  rw [if_neg hname.1, quote_of hq2]
  simp only [ho, hb1, hv]
  show (if (b || o.noValue.contains n) = true then Res.error else _) = _
  rw [if_neg hbf, h1]
  show (space _ _ _ >>= _) = _
  rw [g1]
  rfl

theorem attrLoop_fine (empty : Bool) (tail r : List Char) (ht : skip tail = (if empty then c!"/>" else c!">") ++ r) :
    ∀ (ps : List (List Char × List Char)) (fuel : Nat) (st : St) {o : Open} {os : List Open}, st.opened = o :: os →
    ∀ {as : List (List Char × Option (List Char))}, OpenOk o as → Quiet st → (∀ p ∈ ps, FineAttr p.1 p.2) →
    ((as ++ ps.map fun p => (p.1, some p.2)).map (·.1)).Nodup →
    (attrLoop fuel st (skip (ps.flatMap attrText ++ tail))).Ends fun x => ∃ o' st',
      OpenOk o' (as ++ ps.map fun p => (p.1, some p.2)) ∧ o'.name = o.name ∧ o'.items = o.items ∧
      st'.opened = o' :: os ∧ Quiet st' ∧ Alike st st' ∧ x = (if empty then st'.pop else st', r, empty)
  | _, 0, _, _, _, _, _, _, _, _, _ => trivial
  | [], fuel + 1, st, o, os, ho, as, hok, hq, _, _ => by
    simp only [List.flatMap_nil, List.nil_append, ht]
    unfold attrLoop
    cases empty with
    | true =>
      simp only [if_true]
      rw [eat_append]
      exact ⟨o, st, by simpa using hok, rfl, rfl, ho, hq, Alike.refl st, rfl⟩
    | false =>
      simp only [Bool.false_eq_true, if_false]
      rw [eat_none.2 (by simp), eat_append]
      exact ⟨o, st, by simpa using hok, rfl, rfl, ho, hq, Alike.refl st, rfl⟩
  | (n, v) :: ps, fuel + 1, st, o, os, ho, as, hok, hq, hf, hd => by
    have hfn : FineAttr n v := hf (n, v) (by simp)
    have hn : n ∉ as.map (·.1) := by
      rw [List.map_append, List.nodup_append] at hd
      intro h
      exact hd.2.2 n h n (by simp) rfl
    obtain ⟨st', o', h1, h2, h3, h4, h5, h6, h7⟩ := attrib_fine ho hok hq hfn hn (ps.flatMap attrText ++ tail)
    have hS : skip (((n, v) :: ps).flatMap attrText ++ tail) = n ++ '=' :: quoteOf v :: v ++ [quoteOf v] ++ (ps.flatMap attrText ++ tail) := by
      rw [List.flatMap_cons, attrText_eq, List.append_assoc]
      show skip (' ' :: ((n ++ '=' :: quoteOf v :: v ++ [quoteOf v]) ++ (ps.flatMap attrText ++ tail))) = _
      rw [← List.singleton_append, skip_blank (by intro c hc; simp at hc; subst hc; exact Or.inl rfl)]
      simp only [List.append_assoc]
      rw [skip_name hfn.1]
    rw [hS]
    obtain ⟨c, r', hcr, hc⟩ := name_char hfn.1
    have hc1 : '/' ≠ c := fun h => hc.2 (by simp [← h])
    have hc2 : '>' ≠ c := fun h => hc.2 (by simp [← h])
    unfold attrLoop
    have e1 : eat (n ++ '=' :: quoteOf v :: v ++ [quoteOf v] ++ (ps.flatMap attrText ++ tail)) c!"/>" = none := by
      rw [eat_none, hcr]; exact not_prefix_cons hc1
    have e2 : eat (n ++ '=' :: quoteOf v :: v ++ [quoteOf v] ++ (ps.flatMap attrText ++ tail)) c!">" = none := by
      rw [eat_none, hcr]; exact not_prefix_cons hc2
    rw [e1, e2, h1]
    simp only [Res.ok_bind]
    have ih := attrLoop_fine empty tail r ht ps fuel st' h2 h3 h6 (fun p hp => hf p (by simp [hp])) (by simpa using hd)
    have hassoc : as ++ [(n, some v)] ++ ps.map (fun p => (p.1, some p.2)) = as ++ ((n, v) :: ps).map (fun p => (p.1, some p.2)) := by simp
    rw [hassoc] at ih
    generalize attrLoop fuel st' (skip (ps.flatMap attrText ++ tail)) = R at ih
    cases R with
    | ok x =>
      obtain ⟨o2, st2, k1, k2, k3, k4, k5, k6, k7⟩ := ih
      exact ⟨o2, st2, k1, k2.trans h4, k3.trans h5, k4, k5, h7.trans k6, k7⟩
    | error => exact ih
    | ub => exact ih
    | loop => trivial

/-- The tag that opens a node, or is the whole of it. -/
theorem parseTag_fine {st : St} {name : List Char} (hname : IsName name) (hq : Quiet st) (empty : Bool) {ps : List (List Char × List Char)}
    (hf : ∀ p ∈ ps, FineAttr p.1 p.2) (hd : (ps.map (·.1)).Nodup) (r : List Char)
    (hr : ps = [] → empty = false → ¬ c!"/>" <+: r) :
    (parseTag st (name ++ ps.flatMap attrText ++ (if empty then c!" />" else c!">") ++ r)).Ends fun x => ∃ o' st',
      OpenOk o' (ps.map fun p => (p.1, some p.2)) ∧ o'.name = name ∧ o'.items = .nil ∧
      st'.opened = o' :: st.opened ∧ Quiet st' ∧ Alike st st' ∧ x = (if empty then st'.pop else st', r, empty) := by
  have hnul := name_nul hname
  have hpush : (st.push name).opened = ⟨name, Attrs.empty, [], .nil⟩ :: st.opened := rfl
  have hgen : ∀ d y, isWhite d = false → d ≠ '>' → matchAt [c!">", c!" "] d y = none := by
    intro d y h1 h2
    rw [matchAt_tag, h1]
    simp [h2]
  have hchars : ∀ x d y, name = x ++ d :: y → ∀ z, matchAt [c!">", c!" "] d z = none := by
    intro x d y hx z
    have hd := hname.2 d (by rw [hx]; simp)
    exact hgen d z ((white_false d).2 hd.1) (by rintro rfl; exact hd.2 (by simp))
  by_cases hcase : ps = [] ∧ empty = false
  · obtain ⟨rfl, rfl⟩ := hcase
    unfold parseTag
    have hg : getUntil [c!">", c!" "] (name ++ [].flatMap attrText ++ (if false = true then c!" />" else c!">") ++ r) =
        some ⟨name, 0, '>' :: r, r⟩ := by
      simp only [List.flatMap_nil, List.append_nil, Bool.false_eq_true, if_false, List.append_assoc, List.cons_append, List.nil_append]
      exact getUntil_of (n := 1) (by rw [matchAt_tag]; rfl) name (fun x d y hx => hchars x d y hx _)
    rw [hg]
    simp only [toStr_id hnul]
    rw [if_neg hname.1, if_neg (by decide), if_neg]
    · unfold endOfName
      rw [eat_none.2 (hr rfl rfl)]
      exact ⟨_, st.push name, by simpa using openOk_new name, rfl, rfl, hpush, hq, ⟨rfl, rfl, rfl⟩, rfl⟩
    · intro h
      exact name_not hname (d := '/') (by simp) (List.mem_of_getLast? h)
  · -- a white space follows the name
    have hw : ∃ u, ps.flatMap attrText ++ (if empty then c!" />" else c!">") ++ r = ' ' :: u ∧
        skip u = skip (ps.flatMap attrText ++ ((if empty then c!" />" else c!">") ++ r)) := by
      have hex : ∃ u, ps.flatMap attrText ++ (if empty then c!" />" else c!">") ++ r = ' ' :: u := by
        cases ps with
        | nil =>
          cases empty with
          | true => exact ⟨c!"/>" ++ r, rfl⟩
          | false => exact absurd ⟨rfl, rfl⟩ hcase
        | cons p ps => exact ⟨_, by rw [List.flatMap_cons, attrText_eq]; rfl⟩
      obtain ⟨u, hu⟩ := hex
      refine ⟨u, hu, ?_⟩
      rw [← List.append_assoc, hu, ← List.singleton_append, skip_blank]
      intro c hc; simp at hc; subst hc; exact Or.inl rfl
    obtain ⟨u, hu, hsk⟩ := hw
    have hg : getUntil [c!">", c!" "] (name ++ ps.flatMap attrText ++ (if empty then c!" />" else c!">") ++ r) =
        some ⟨name, 1, ' ' :: u, u⟩ := by
      rw [List.append_assoc name, List.append_assoc name, hu]
      exact getUntil_of (n := 1) (by rw [matchAt_tag]; rfl) name (fun x d y hx => hchars x d y hx _)
    unfold parseTag
    rw [hg]
    simp only [toStr_id hnul]
    rw [if_neg hname.1, if_pos trivial, hsk]
    have htail : skip ((if empty then c!" />" else c!">") ++ r) = (if empty then c!"/>" else c!">") ++ r := by
      cases empty with
      | true => exact skip_blank (b := [' ']) (by intro c hc; simp at hc; subst hc; exact Or.inl rfl) (c!"/>" ++ r) ▸ (skip_cons_not (by simp [White]))
      | false => exact skip_cons_not (by simp [White])
    have := attrLoop_fine empty _ r htail ps ((skip (ps.flatMap attrText ++ ((if empty then c!" />" else c!">") ++ r))).length + 1)
      (st.push name) hpush (openOk_new name) hq hf (by simpa [Function.comp_def] using hd)
    generalize attrLoop _ _ _ = R at this ⊢
    cases R with
    | ok x =>
      obtain ⟨o2, st2, k1, k2, k3, k4, k5, k6, k7⟩ := this
      exact ⟨o2, st2, by simpa using k1, k2, k3, k4, k5, k6, k7⟩
    | error => exact this
    | ub => exact this
    | loop => trivial

theorem parseNode_plain {st : St} {name : List Char} (hname : IsName name) (r : List Char) :
    parseNode st (name ++ r) = parseTag st (name ++ r) := by
  obtain ⟨c, n, rfl, hc⟩ := name_char hname
  have hlt : '<' ≠ c := by rintro rfl; exact hc.2 (by simp)
  have hsk := skip_name hname r
  unfold parseNode
  rw [comments_none (by rw [hsk]; exact not_prefix_cons hlt) (by rw [hsk]; exact fun _ => not_prefix_cons hlt), hsk, Res.ok_bind]
  unfold openAngle
  simp only
  rw [eat_none.2 (by exact not_prefix_cons hlt)]
  rfl

theorem parseNode_angle {st : St} {name : List Char} (hname : IsName name) (r : List Char) :
    parseNode st ('<' :: (name ++ r)) = parseTag st (name ++ r) := by
  obtain ⟨c, n, rfl, hc⟩ := name_char hname
  have h1 : c ≠ '!' := by rintro rfl; exact hc.2 (by simp)
  have h2 : c ≠ '?' := by rintro rfl; exact hc.2 (by simp)
  have hsk : skip ('<' :: (c :: n ++ r)) = '<' :: (c :: n ++ r) := skip_cons_not (by simp [White])
  unfold parseNode
  rw [comments_none (by rw [hsk, List.cons_prefix_cons]; exact fun h => not_prefix_cons h1.symm h.2)
    (by rw [hsk, List.cons_prefix_cons]; exact fun _ h => not_prefix_cons h2.symm h.2), hsk, Res.ok_bind]
  unfold openAngle
  simp only
  rw [show eat ('<' :: (c :: n ++ r)) c!"<" = some (c :: n ++ r) from eat_append c!"<" _]

theorem pass_open {st : St} (hq : Quiet st) {name : List Char} (hname : IsName name) (r : List Char) :
    pass st ('<' :: (name ++ r)) = (parseTag st (name ++ r) >>= fun x => .ok (x.1, x.2.1, true)) := by
  obtain ⟨c, n, rfl, hc⟩ := name_char hname
  have h1 : '!' ≠ c := by rintro rfl; exact hc.2 (by simp)
  have h2 : '?' ≠ c := by rintro rfl; exact hc.2 (by simp)
  have h3 : '/' ≠ c := by rintro rfl; exact hc.2 (by simp)
  have hsk : skip ('<' :: (c :: n ++ r)) = '<' :: (c :: n ++ r) := skip_cons_not (by simp [White])
  have hno : ∀ a m, a ≠ c → ¬ '<' :: a :: m <+: '<' :: (c :: n ++ r) := by
    intro a m ha h
    exact not_prefix_cons ha (List.cons_prefix_cons.1 h).2
  unfold pass
  simp only [hq.preserves, Bool.false_eq_true, if_false, hsk]
  rw [peek_false.2 (hno _ _ h2), peek_false.2 (hno _ _ h1)]
  simp only [Bool.or_self, Bool.false_eq_true, if_false]
  rw [eat_none.2 (hno _ _ h3), eat_none.2 (hno _ _ h1), show eat ('<' :: (c :: n ++ r)) c!"<" = some (c :: n ++ r) from eat_append c!"<" _]
  simp only
  rw [parseNode_plain hname]

theorem pass_close {st : St} (hq : Quiet st) {o : Open} {os : List Open} (ho : st.opened = o :: os) (hname : IsName o.name) (s : List Char) :
    pass st (c!"</" ++ (o.name ++ c!">" ++ s)) =
      .ok ({ st.pop with preserve := st.preserve.tail }, s, !os.isEmpty) := by
  have hsk : skip (c!"</" ++ (o.name ++ c!">" ++ s)) = c!"</" ++ (o.name ++ c!">" ++ s) := skip_cons_not (by simp [White])
  unfold pass
  simp only [hq.preserves, Bool.false_eq_true, if_false, hsk]
  rw [peek_false.2 (by simp), peek_false.2 (by simp)]
  simp only [Bool.or_self, Bool.false_eq_true, if_false]
  rw [eat_append]
  simp only
  have hr : getUntilRef [c!">"] (o.name ++ c!">" ++ s) = (some o.name, s) := by
    unfold getUntilRef
    rw [getUntil_mark (by decide) (upTo_char.2 (name_not hname (by simp)))]
    simp only [hname.1, if_false]
  have hcl : closeName o.name = o.name := by
    unfold closeName
    cases hl : o.name.getLast? with
    | none => exact absurd (List.getLast?_eq_none_iff.1 hl) hname.1
    | some c =>
      have := (hname.2 c (List.mem_of_getLast? hl)).1
      simp only [(white_false c).2 this, Bool.false_eq_true, if_false]
      exact toStr_id (name_nul hname)
  unfold closeNode
  rw [hr]
  simp only [ho, hcl, Attrs.cmp_beq, beq_self_eq_true, if_true, Res.ok_bind]
  have : st.pop.opened.isEmpty = os.isEmpty := by
    unfold St.pop
    rw [ho]
    cases os <;> rfl
  rw [this]

/-! ### The tree -/

theorem pad_blank (y : Layout) (level : Nat) : Blank (y.pad level) := by
  cases y with
  | plain => intro c hc; simp [Layout.pad] at hc
  | pretty t =>
    intro c hc
    simp only [Layout.pad, List.mem_replicate] at hc
    exact Or.inl hc.2

theorem line_blank (y : Layout) : Blank y.line := by
  cases y with
  | plain => intro c hc; simp [Layout.line] at hc
  | pretty t =>
    intro c hc
    simp only [Layout.line, List.mem_singleton] at hc
    exact Or.inr (Or.inl hc)

theorem nodeText_lt (y : Layout) (level : Nat) : ∀ (n : Node) (s : List Char),
    ∃ r, nodeText Dump.written y level n ++ s = y.pad level ++ '<' :: r
  | .mk name attrs items, s => by
    simp only [nodeText, List.append_assoc, List.cons_append, List.nil_append]
    exact ⟨_, rfl⟩

theorem lt_node (y : Layout) (level : Nat) (n : Node) (s : List Char) : Lt (nodeText Dump.written y level n ++ s) := by
  obtain ⟨r, h⟩ := nodeText_lt y level n s
  rw [h]
  exact lt_append (pad_blank y level) (lt_cons r)

/-- What the tail of a text must be for this layout. -/
def Closes (y : Layout) (items : Items) (tail : List Char) : Prop :=
  y = .plain ∧ (∃ r, tail = '<' :: r) ∨ NoContent items ∧ Lt tail

theorem Closes.lt {y : Layout} {items : Items} {tail : List Char} (h : Closes y items tail) : Lt tail := by
  rcases h with ⟨_, r, rfl⟩ | ⟨_, h⟩
  · exact lt_cons r
  · exact h

theorem commentText_eq (s : List Char) : commentText s = c!"<!--" ++ padded s ++ c!"-->" := by
  simp [commentText, padded]

theorem padded_ne {s : List Char} (h : s ≠ []) : padded s ≠ [] := by
  unfold padded; simp [h]

/-- What follows a comment or an instruction. -/
theorem items_next {y : Layout} {level : Nat} : ∀ {items : Items} {tail : List Char}, FineItems y .misc items → Closes y items tail →
    Lt (itemsText Dump.written y level items ++ tail) ∨
    y = .plain ∧ skip (itemsText Dump.written y level items ++ tail) = itemsText Dump.written y level items ++ tail ∧
      itemsText Dump.written y level items ++ tail ≠ []
  | .nil, tail, _, ht => Or.inl (by simpa [itemsText] using ht.lt)
  | .node n next, tail, _, _ => by
    left
    simp only [itemsText, List.append_assoc]
    exact lt_node y _ n _
  | .leaf l next, tail, hf, ht => by
    obtain ⟨h1, h2, _⟩ := hf
    cases l with
    | content s =>
      rcases ht with ⟨hy, _⟩ | ⟨h, _⟩
      · right
        cases s with
        | nil => exact absurd (fun _ h => by simp at h) h1.1
        | cons c s =>
          refine ⟨hy, ?_, by simp [itemsText, leafText]⟩
          simp only [itemsText, leafText, List.cons_append]
          exact skip_cons_not (h2 c rfl)
      · exact absurd h (by simp [NoContent])
    | cdata s => left; simp only [itemsText, leafText, List.cons_append]; exact lt_cons _
    | pi p => left; simp only [itemsText, leafText, List.cons_append]; exact lt_cons _
    | comment s =>
      left
      simp only [itemsText, leafText, List.append_assoc, commentText_eq]
      exact lt_append (pad_blank y _) (lt_cons _)
    | ref s => exact h1.elim

/-- Without texts it does not matter what comes before. -/
theorem noContent_fine {y : Layout} : ∀ {items : Items} {b b' : Before}, NoContent items → FineItems y b items → FineItems y b' items
  | .nil, _, _, _, _ => trivial
  | .node _ _, _, _, _, h => h
  | .leaf l next, b, b', hn, h => by
    refine ⟨h.1, ?_, h.2.2⟩
    cases l with
    | content s => exact hn.elim
    | _ => cases b' <;> trivial

/-- What follows a text. -/
theorem items_lt {level : Nat} : ∀ {items : Items} {tail : List Char}, FineItems .plain .text items → (∃ r, tail = '<' :: r) →
    ∃ r, itemsText Dump.written .plain level items ++ tail = '<' :: r
  | .nil, tail, _, ht => by simpa [itemsText] using ht
  | .node n next, tail, _, _ => by
    simp only [itemsText, List.append_assoc]
    obtain ⟨r, h⟩ := nodeText_lt .plain (level + 1) n (itemsText Dump.written .plain level next ++ tail)
    exact ⟨r, h⟩
  | .leaf l next, tail, hf, ht => by
    obtain ⟨h1, h2, _⟩ := hf
    cases l with
    | content s => exact h2.elim
    | cdata s => exact ⟨_, rfl⟩
    | pi p => exact ⟨_, rfl⟩
    | comment s => exact ⟨_, by simp only [itemsText, leafText, commentText_eq]; rfl⟩
    | ref s => exact h1.elim

theorem plain_items {y : Layout} {level : Nat} : ∀ {items : Items} {b : Before}, FineItems y b items → ¬ hasBlocks items →
    FineItems .plain b items ∧ itemsText Dump.written y level items = itemsText Dump.written .plain level items
  | .nil, _, _, _ => ⟨trivial, rfl⟩
  | .node _ _, _, _, hb => absurd trivial hb
  | .leaf l next, b, hf, hb => by
    have hn : ¬ hasBlocks next := fun h => hb (by unfold hasBlocks; exact Or.inr h)
    obtain ⟨h1, h2, h3⟩ := hf
    obtain ⟨k1, k2⟩ := plain_items (level := level) h3 hn
    refine ⟨⟨h1, h2, k1⟩, ?_⟩
    simp only [itemsText, k2]
    cases l with
    | comment s => exact absurd (by unfold hasBlocks; exact Or.inl trivial) hb
    | _ => rfl

theorem lt_noSlash {s : List Char} (h : Lt s) : ¬ c!"/>" <+: s := by
  rintro ⟨r, rfl⟩
  obtain ⟨x, h⟩ := h
  rw [show c!"/>" ++ r = '/' :: ('>' :: r) from rfl, skip_cons_not (by simp [White])] at h
  cases h

theorem line_noSlash (y : Layout) {s : List Char} (h : ¬ c!"/>" <+: s) : ¬ c!"/>" <+: y.line ++ s := by
  cases y with
  | plain => exact h
  | pretty t => intro h; obtain ⟨r, hr⟩ := h; cases hr

theorem items_noSlash {y : Layout} {level : Nat} {b : Before} : ∀ {items : Items} {tail : List Char}, FineItems y b items → Closes y items tail →
    ¬ SlashFirst items → ¬ c!"/>" <+: itemsText Dump.written y level items ++ tail
  | .nil, tail, _, ht, _ => lt_noSlash (by simpa [itemsText] using ht.lt)
  | .node n next, tail, _, _, _ => by
    simp only [itemsText, List.append_assoc]
    exact lt_noSlash (lt_node y _ n _)
  | .leaf l next, tail, hf, ht, hs => by
    obtain ⟨h1, h2, h3⟩ := hf
    cases l with
    | content s =>
      rcases ht with ⟨rfl, hy⟩ | ⟨h, _⟩
      · obtain ⟨r, hr⟩ := items_lt (level := level) h3 hy
        simp only [itemsText, leafText, List.append_assoc]
        rw [hr]
        intro hp
        have hs' : ¬ c!"/>" <+: s := hs
        match s, h1.1, hs', hp with
        | [], hb, _, _ => exact hb (by intro c hc; simp at hc)
        | [c], _, _, hp =>
          simp only [List.cons_append, List.nil_append, List.cons_prefix_cons] at hp
          exact absurd hp.2.1 (by decide)
        | c :: d :: s, _, hs', hp =>
          simp only [List.cons_append, List.cons_prefix_cons] at hp hs'
          exact hs' ⟨hp.1, hp.2.1, List.nil_prefix⟩
      · exact h.elim
    | cdata s => intro ⟨r, h⟩; cases h
    | pi p => intro ⟨r, h⟩; cases h
    | comment s =>
      simp only [itemsText, leafText, commentText_eq, List.append_assoc]
      exact lt_noSlash (lt_append (pad_blank y _) (lt_cons _))
    | ref s => exact h1.elim

theorem written_bare {a : Attrs} (hm : a.Made) (h : Dump.written a = []) : Bare a := by
  intro n v hv
  have := ((Dump.written_lists hm).mem n v).2 hv
  rw [h] at this
  cases this

theorem items_nil {y : Layout} : ∀ {items : Items} {b : Before}, FineItems y b items → ¬ hasBlocks items → ¬ hasTexts items → items = .nil
  | .nil, _, _, _, _ => rfl
  | .node _ _, _, _, hb, _ => absurd trivial hb
  | .leaf l next, b, hf, hb, ht => by
    cases l with
    | content s => exact absurd (by unfold hasTexts; exact Or.inl trivial) ht
    | cdata s => exact absurd (by unfold hasTexts; exact Or.inl trivial) ht
    | pi s => exact absurd (by unfold hasBlocks; exact Or.inl trivial) hb
    | comment s => exact absurd (by unfold hasBlocks; exact Or.inl trivial) hb
    | ref s => exact hf.1.elim

/-- The attributes set one after the other, all with other names, are the pairs. -/
theorem pairs_calls : ∀ (l : List (List Char × List Char)), (l.map (·.1)).Nodup →
    Spec.Attr.pairs (l.map fun p => Spec.Attr.Op.setRef p.1 p.2 true) = l
  | [], _ => rfl
  | p :: l, h => by
    rw [List.map_cons, List.nodup_cons] at h
    rw [List.map_cons, Spec.Attr.pairs, pairs_calls l h.2, if_neg]
    intro hh
    rw [List.any_eq_true] at hh
    obtain ⟨q, hq, he⟩ := hh
    exact h.1 (List.mem_map.2 ⟨q, hq, by simpa using he⟩)

theorem atMostTen_calls : ∀ (l : List (List Char × List Char)), (l.map (·.1)).Nodup → l.length ≤ 10 →
    AtMostTen (l.map fun p => Spec.Attr.Op.setRef p.1 p.2 true)
  | [], _, _ => trivial
  | p :: l, h, hl => by
    have h' := h
    rw [List.map_cons, List.nodup_cons] at h'
    simp only [List.length_cons] at hl
    refine ⟨?_, atMostTen_calls l h'.2 (by omega)⟩
    have := pairs_calls (p :: l) h
    rw [List.map_cons] at this
    rw [this]
    exact hl

theorem foreach_written {a : Attrs} {ps : List (List Char × List Char)} (hr : Attrs.Rep a ps) (h : ps.length ≤ 10) :
    a.foreach (fun _ _ => false) = some ((Dump.written a).reverse.map fun p => (p.1, some p.2)) := by
  have hnum := (Attrs.rep_num hr).1
  obtain ⟨hd, hr⟩ := hr
  obtain ⟨num, ptr⟩ := a
  have fl : ∀ l : List Attr, Attrs.foreachList (fun _ _ => false) l = l.map fun x => (x.name, some x.value) := by
    intro l
    induction l with
    | nil => rfl
    | cons x l ih => simp only [Attrs.foreachList, Bool.false_eq_true, if_false, ih, List.map_cons]
  cases ptr with
  | list l =>
    obtain ⟨h1, h2, h3⟩ := hr
    simp only at h1
    unfold Attrs.foreach Dump.written
    simp only [Attrs.hasAttributes_list, Bool.not_not]
    cases l with
    | nil => rfl
    | cons x l =>
      rw [if_neg (by simp), if_pos (by rw [h1]; omega), fl, List.reverse_reverse, List.map_map]
      rfl
  | hash t =>
    exfalso
    obtain ⟨h1, h2, h3⟩ := hr
    have := h1.items
    omega

/-- The attributes read are written in the order they were read. -/
theorem written_read {o : Open} {ps : List (List Char × List Char)} (ho : OpenOk o (ps.map fun p => (p.1, some p.2)))
    (h : ps.length ≤ 10) : Dump.written o.attrs = ps := by
  have hw : withValue (ps.map fun p => (p.1, some p.2)) = ps := by
    unfold withValue
    rw [List.filterMap_map]
    simp [Function.comp_def]
  have hn : (ps.map (·.1)).Nodup := by
    have := ho.nodup
    rw [List.map_map] at this
    exact this
  have hrun := ho.run
  have hnul := ho.nul
  unfold calls at hrun
  rw [hw] at hrun hnul
  have hn' : (ps.reverse.map (·.1)).Nodup := by
    rw [List.map_reverse]; exact (List.reverse_perm _).nodup_iff.2 hn
  have hrev : (ps.map fun p => Spec.Attr.Op.setRef p.1 p.2 true).reverse = ps.reverse.map fun p => Spec.Attr.Op.setRef p.1 p.2 true := by
    rw [List.map_reverse]
  have := Dump.written_good.oldest (ps.map fun p => .setRef p.1 p.2 true) o.attrs (by
    intro op hop
    obtain ⟨p, hp, rfl⟩ := List.mem_map.1 hop
    have := hnul p hp
    simpa [Spec.Attr.Op.texts] using this) (by rw [hrev]; exact atMostTen_calls _ hn' (by simpa using h)) hrun
  rw [this, hrev, pairs_calls _ hn', List.reverse_reverse]

theorem sameAttrs {a : Attrs} (hm : a.Made) {o : Open} (ho : OpenOk o ((Dump.written a).map fun p => (p.1, some p.2))) :
    SameAttrs a o.attrs := by
  obtain ⟨ps, hr⟩ := Dump.made_rep hm
  have hw : withValue ((Dump.written a).map fun p => (p.1, some p.2)) = Dump.written a := by
    unfold withValue
    rw [List.filterMap_map]
    simp [Function.comp_def]
  have h1 := ho.rep
  rw [hw] at h1
  have hp : (Dump.written a).reverse.Perm ps := (List.reverse_perm _).trans (Dump.written_perm hr)
  have h2 := Attrs.rep_perm h1 hp
  refine ⟨fun n => ?_, ?_, ?_⟩
  · rw [(Attrs.rep_find h2 n).2, (Attrs.rep_find hr n).2]
  · rw [(Attrs.rep_num h2).1, (Attrs.rep_num hr).1]
  · intro k hk hnum
    have hlen : ps.length ≤ 10 := by
      rw [(Attrs.rep_num hr).1] at hnum; cases hnum; exact hk
    rw [foreach_written h2 hlen, foreach_written hr hlen, written_read ho (by rw [(Dump.written_perm hr).length_eq]; exact hlen)]

theorem with_opened {st : St} {o : Open} {os : List Open} (ho : st.opened = o :: os) (i : Items) :
    (st.with_ i).opened = { o with items := o.items.append i } :: os := by
  unfold St.with_; rw [ho]

theorem with_alike (st : St) (i : Items) : Alike st (st.with_ i) := by
  unfold St.with_
  cases st.opened <;> exact ⟨rfl, rfl, rfl⟩

/-- Closing a node that is not the root. -/
theorem pop_inner {st : St} {o p : Open} {os : List Open} (ho : st.opened = o :: p :: os) (hv : o.noValue = []) :
    st.pop.opened = { p with items := p.items.append (.node (.mk o.name o.attrs o.items) .nil) } :: os ∧
    st.pop.preserve = st.preserve ∧ Alike st st.pop := by
  unfold St.pop
  rw [ho]
  refine ⟨rfl, rfl, rfl, rfl, ?_⟩
  simp [hv]

theorem pop_root {st : St} {o : Open} (ho : st.opened = [o]) (hv : o.noValue = []) :
    st.pop.opened = [] ∧ st.pop.root = some (.mk o.name o.attrs o.items) ∧ st.pop.pis = st.pis ∧ st.pop.noValue = st.noValue := by
  unfold St.pop
  rw [ho]
  refine ⟨rfl, rfl, rfl, ?_⟩
  simp [hv]

theorem openOk_noValue {o : Open} {ps : List (List Char × List Char)} (h : OpenOk o (ps.map fun p => (p.1, some p.2))) : o.noValue = [] := by
  rw [h.noValue]
  clear h
  induction ps with
  | nil => rfl
  | cons p ps ih => simpa using ih

theorem quiet_tail {st : St} (hq : Quiet st) : ∀ b ∈ st.preserve.tail, b = false := fun b hb => hq b (List.mem_of_mem_tail hb)

/-- The end of a node: what the rest of the loop does once all its items were read. -/
def Rest (st : St) (o : Open) (os : List Open) (items : Items) (s : List Char) (P : St → Prop) : Prop :=
  ∀ items' st', SameItems items items' → st'.opened = { o with items := o.items.append items' } :: os → Quiet st' → Alike st st' → Goes st' s P

mutual
theorem node_goes (y : Layout) : ∀ (n : Node) (level : Nat) (st : St) (o : Open) (os : List Open) (tail : List Char) (P : St → Prop),
    Fine y n → st.opened = o :: os → Quiet st → Rest st o os (.node n .nil) (y.line ++ tail) P →
    Goes st (nodeText Dump.written y level n ++ tail) P
  | .mk name attrs items, level, st, o, os, tail, P, hf, ho, hq, hk => by
    obtain ⟨hname, hmade, hattrs, hlay, hslash, hitems⟩ := hf
    have hl := Dump.written_lists hmade
    have hfa : ∀ p ∈ Dump.written attrs, FineAttr p.1 p.2 := fun p hp => hattrs p.1 p.2 ((hl.mem p.1 p.2).1 hp)
    have hmk : ∀ (o' : Open) (st' : St) (items' : Items), OpenOk o' ((Dump.written attrs).map fun p => (p.1, some p.2)) →
        o'.name = name → o'.items = items' → SameItems items items' → st'.opened = o' :: o :: os → (∀ b ∈ st'.preserve, b = false) → Alike st st' →
        ∀ pr : List Bool, (∀ b ∈ pr, b = false) → Goes { st'.pop with preserve := pr } (y.line ++ tail) P := by
      intro o' st' items' h1 h2 h3 h4 h5 h6 h7 pr hpr
      obtain ⟨e1, e2, e3⟩ := pop_inner h5 (openOk_noValue h1)
      refine hk (.node (.mk name o'.attrs items') .nil) _ ⟨⟨rfl, sameAttrs hmade h1, h4⟩, trivial⟩ ?_ hpr ?_
      · show st'.pop.opened = _
        rw [e1, h2, h3]
      · exact Alike.trans h7 (Alike.trans e3 ⟨rfl, rfl, rfl⟩)
    by_cases hempty : ¬ hasBlocks items ∧ ¬ hasTexts items
    · have hi := items_nil hitems hempty.1 hempty.2
      subst hi
      have hT : nodeText Dump.written y level (.mk name attrs .nil) ++ tail =
          y.pad level ++ '<' :: (name ++ ((Dump.written attrs).flatMap attrText ++ (c!" />" ++ (y.line ++ tail)))) := by
        simp [nodeText, hasBlocks, hasTexts]
      rw [hT]
      refine goes_blank hq (pad_blank y level) (lt_cons _) ?_
      refine goes_pass (by simp) ?_
      rw [pass_open hq hname]
      have := parseTag_fine (st := st) hname hq true hfa hl.once (y.line ++ tail) (by simp)
      simp only [List.append_assoc, if_true] at this
      refine ends_bind this ?_
      rintro x ⟨o', st', k1, k2, k3, k4, k5, k6, rfl⟩
      refine more_ok ?_
      have := hmk o' st' .nil k1 k2 k3 trivial (by rw [k4, ho]) k5 k6 st'.preserve k5
      have he : ({ st'.pop with preserve := st'.preserve } : St) = st'.pop := by
        have := (pop_inner (st := st') (o := o') (p := o) (os := os) (by rw [k4, ho]) (openOk_noValue k1)).2.1
        rw [← this]
      rw [he] at this
      exact this
    · -- there are items
      have key : ∀ inner pad, Blank pad → (¬ SlashFirst items → ¬ c!"/>" <+: inner ++ (pad ++ (c!"</" ++ (name ++ c!">" ++ (y.line ++ tail))))) →
          (∀ (o' : Open) (st' : St), st'.opened = o' :: o :: os → Quiet st' → ∀ (Q : St → Prop),
            Rest st' o' (o :: os) items (pad ++ (c!"</" ++ (name ++ c!">" ++ (y.line ++ tail)))) Q →
            Goes st' (inner ++ (pad ++ (c!"</" ++ (name ++ c!">" ++ (y.line ++ tail))))) Q) →
          nodeText Dump.written y level (.mk name attrs items) ++ tail =
            y.pad level ++ '<' :: (name ++ ((Dump.written attrs).flatMap attrText ++ (c!">" ++ (inner ++ (pad ++ (c!"</" ++ (name ++ c!">" ++ (y.line ++ tail)))))))) →
          Goes st (nodeText Dump.written y level (.mk name attrs items) ++ tail) P := by
        intro inner pad hpad hns hin hT
        rw [hT]
        refine goes_blank hq (pad_blank y level) (lt_cons _) ?_
        refine goes_pass (by simp) ?_
        rw [pass_open hq hname]
        have := parseTag_fine (st := st) hname hq false hfa hl.once (inner ++ (pad ++ (c!"</" ++ (name ++ c!">" ++ (y.line ++ tail)))))
              (fun h _ => hns fun hs => hslash ⟨written_bare hmade h, hs⟩)
        simp only [List.append_assoc, Bool.false_eq_true, if_false] at this ⊢
        refine ends_bind this ?_
        rintro x ⟨o', st', k1, k2, k3, k4, k5, k6, rfl⟩
        refine more_ok ?_
        have := hin o' st' (by rw [k4, ho]) k5 P
        simp only [List.append_assoc] at this
        refine this ?_
        intro items' st2 h1 h2 h3 h4
        refine goes_blank h3 hpad (lt_cons _) ?_
        refine goes_pass (by simp) ?_
        have hpc := pass_close h3 h2 (by rw [k2]; exact hname) (y.line ++ tail)
        simp only [k2, List.append_assoc] at hpc
        show Res.Ends _ (pass st2 (c!"</" ++ (name ++ (c!">" ++ (y.line ++ tail)))))
        rw [hpc]
        refine more_ok ?_
        refine hmk { o' with items := o'.items.append items' } st2 items' (openOk_items k1 _) k2 ?_ h1 h2 h3 (Alike.trans k6 h4) _ (quiet_tail h3)
        show o'.items.append items' = items'
        rw [k3]; rfl
      by_cases hb : hasBlocks items
      · have hcl : Closes y items (y.pad level ++ (c!"</" ++ (name ++ c!">" ++ (y.line ++ tail)))) := by
          rcases hlay with rfl | h
          · exact Or.inl ⟨rfl, _, rfl⟩
          · exact Or.inr ⟨h hb, lt_append (pad_blank y level) (lt_cons _)⟩
        refine key (y.line ++ itemsText Dump.written y level items) (y.pad level) (pad_blank y level) ?_ ?_ ?_
        · intro hs
          rw [List.append_assoc]
          exact line_noSlash y (items_noSlash hitems hcl hs)
        · intro o' st' e1 e2 Q hrest
          have := items_goes y items .other level st' o' (o :: os) _ Q hitems hcl e1 e2 hrest
          cases y with
          | plain => exact this
          | pretty t =>
            rw [List.append_assoc]
            refine goes_blank e2 (line_blank _) ?_ this
            have hnc : NoContent items := by
              rcases hlay with h | h
              · cases h
              · exact h hb
            rcases items_next (items := items) (level := level) (noContent_fine hnc hitems) hcl with h | h
            · exact h
            · cases h.1
        · simp only [nodeText, if_pos hb, List.append_assoc, List.cons_append, List.nil_append]
      · have ht : hasTexts items := Decidable.byContradiction fun h => hempty ⟨hb, h⟩
        obtain ⟨hplain, htext⟩ := plain_items (level := level) hitems hb
        refine key (itemsText Dump.written y level items) [] (by intro c hc; simp at hc) ?_ ?_ ?_
        · intro hs
          rw [htext]
          exact items_noSlash hplain (Or.inl ⟨rfl, _, rfl⟩) hs
        · intro o' st' e1 e2 Q hrest
          rw [htext]
          exact items_goes .plain items .other level st' o' (o :: os) _ Q hplain (Or.inl ⟨rfl, _, rfl⟩) e1 e2 hrest
        · simp only [nodeText, if_neg hb, if_pos ht, List.append_assoc, List.cons_append, List.nil_append]

theorem items_goes (y : Layout) : ∀ (items : Items) (b : Before) (level : Nat) (st : St) (o : Open) (os : List Open) (tail : List Char)
    (P : St → Prop), FineItems y b items → Closes y items tail → st.opened = o :: os → Quiet st → Rest st o os items tail P →
    Goes st (itemsText Dump.written y level items ++ tail) P
  | .nil, _, _, st, o, os, tail, P, _, _, ho, hq, hk => by
    simp only [itemsText, List.nil_append]
    exact hk .nil st trivial (by rw [append_nil]; exact ho) hq (Alike.refl st)
  | .node n next, b, level, st, o, os, tail, P, hf, hc, ho, hq, hk => by
    simp only [itemsText, List.append_assoc]
    have hc' : Closes y next tail := by
      rcases hc with h | ⟨h1, h2⟩
      · exact Or.inl h
      · exact Or.inr ⟨h1, h2⟩
    refine node_goes y n (level + 1) st o os _ P hf.1 ho hq ?_
    intro items' st' h1 h2 h3 h4
    have hg : Goes st' (itemsText Dump.written y level next ++ tail) P := by
      refine items_goes y next .other level st' _ os tail P hf.2 hc' h2 h3 ?_
      intro items2 st2 g1 g2 g3 g4
      refine hk (items'.append items2) st2 ?_ ?_ g3 (Alike.trans h4 g4)
      · match items', h1 with
        | .node n' .nil, h1 => exact ⟨h1.1, g1⟩
      · rw [g2, append_assoc]
    cases y with
    | plain => exact hg
    | pretty t =>
      refine goes_blank h3 (line_blank _) ?_ hg
      have hnc : NoContent next := by
        rcases hc with ⟨h, _⟩ | ⟨h, _⟩
        · cases h
        · exact h
      rcases items_next (items := next) (level := level) (noContent_fine hnc hf.2) hc' with h | h
      · exact h
      · cases h.1
  | .leaf l next, b, level, st, o, os, tail, P, hf, hc, ho, hq, hk => by
    obtain ⟨hl, hall, hnext⟩ := hf
    have hc' : Closes y next tail := by
      rcases hc with h | ⟨h1, h2⟩
      · exact Or.inl h
      · cases l with
        | content s => exact h1.elim
        | cdata s => exact Or.inr ⟨h1, h2⟩
        | pi s => exact Or.inr ⟨h1, h2⟩
        | comment s => exact Or.inr ⟨h1, h2⟩
        | ref s => exact hl.elim
    have hadd : ∀ l', SameLeaf l l' → Goes (st.addLeaf l') (itemsText Dump.written y level next ++ tail) P := by
      intro l' hsame
      rw [addLeaf_eq]
      refine items_goes y next (after l) level _ _ os tail P hnext hc' (with_opened ho _) (with_quiet hq _) ?_
      intro items2 st2 g1 g2 g3 g4
      refine hk (.leaf l' items2) st2 ⟨hsame, g1⟩ ?_ g3 (Alike.trans (with_alike st _) g4)
      rw [g2, append_assoc]
      rfl
    simp only [itemsText, List.append_assoc]
    cases l with
    | content s =>
      obtain ⟨h1, h2, h3⟩ := hl
      rcases hc with ⟨rfl, ht⟩ | ⟨h, _⟩
      · obtain ⟨r, hr⟩ := items_lt (level := level) hnext ht
        have := hadd (.content s) rfl
        rw [hr] at this ⊢
        exact goes_content hq h1 h2 h3 this
      · exact h.elim
    | cdata s =>
      have := goes_cdata hq hl.1 hl.2 (hadd (.cdata s) rfl)
      simpa [leafText] using this
    | pi p =>
      obtain ⟨h1, h2, c, h3, h4, h5, h6⟩ := hl
      have hn : Next (itemsText Dump.written y level next ++ tail) := by
        rcases items_next (level := level) hnext hc' with h | h
        · exact Or.inl h
        · exact Or.inr h.2
      have hp : p = ⟨p.name, some c⟩ := by rw [← h3]
      have := goes_pi hq (by rw [ho]; simp) h1 h2 h4 h5 h6 hn (hadd (.pi ⟨p.name, some c⟩) (by rw [← hp]; rfl))
      simpa [leafText, h3] using this
    | comment s =>
      obtain ⟨h1, h2⟩ := hl
      have hn0 := items_next (level := level) hnext hc'
      have hn : Next (y.line ++ (itemsText Dump.written y level next ++ tail)) := by
        rcases hn0 with h | ⟨rfl, h⟩
        · exact Or.inl (lt_append (line_blank y) h)
        · exact Or.inr h
      have hg : Goes (st.addLeaf (.comment (padded s))) (y.line ++ (itemsText Dump.written y level next ++ tail)) P := by
        have := hadd (.comment (padded s)) rfl
        rcases hn0 with h | ⟨rfl, h⟩
        · exact goes_blank (by rw [addLeaf_eq]; exact with_quiet hq _) (line_blank y) h this
        · exact this
      have := goes_comment hq (padded_ne h1) h2 hn hg
      simp only [leafText, commentText_eq, List.append_assoc] at this ⊢
      exact goes_blank hq (pad_blank y _) (lt_cons _) this
    | ref s => exact hl.elim
end

/-! ### The document -/

theorem body_fine (y : Layout) {st : St} (ho : st.opened = []) (hq : Quiet st) : ∀ (n : Node), Fine y n →
    ∃ st' n', body st (nodeText Dump.written y 0 n) = .ok st' ∧ st'.opened = [] ∧ st'.root = some n' ∧ Same n n' ∧
      st'.pis = st.pis ∧ st'.noValue = st.noValue
  | .mk name attrs items, hf => by
    obtain ⟨hname, hmade, hattrs, hlay, hslash, hitems⟩ := hf
    have hl := Dump.written_lists hmade
    have hfa : ∀ p ∈ Dump.written attrs, FineAttr p.1 p.2 := fun p hp => hattrs p.1 p.2 ((hl.mem p.1 p.2).1 hp)
    have hpad0 : y.pad 0 = [] := by cases y <;> simp [Layout.pad]
    have fin : ∀ (o' : Open) (st' : St), OpenOk o' ((Dump.written attrs).map fun p => (p.1, some p.2)) →
        o'.name = name → SameItems items o'.items → st'.opened = [o'] → Alike st st' → ∀ pr,
        ∃ n', ({ st'.pop with preserve := pr } : St).opened = [] ∧ ({ st'.pop with preserve := pr } : St).root = some n' ∧
          Same (.mk name attrs items) n' ∧ ({ st'.pop with preserve := pr } : St).pis = st.pis ∧
          ({ st'.pop with preserve := pr } : St).noValue = st.noValue := by
      intro o' st' h1 h2 h3 h4 h5 pr
      obtain ⟨e1, e2, e3, e4⟩ := pop_root h4 (openOk_noValue h1)
      exact ⟨_, e1, e2, ⟨h2, sameAttrs hmade h1, h3⟩, e3.trans h5.2.1, e4.trans h5.2.2⟩
    have main : (body st (nodeText Dump.written y 0 (.mk name attrs items))).Ends fun st' => ∃ n', st'.opened = [] ∧
        st'.root = some n' ∧ Same (.mk name attrs items) n' ∧ st'.pis = st.pis ∧ st'.noValue = st.noValue := by
      by_cases hempty : ¬ hasBlocks items ∧ ¬ hasTexts items
      · have hi := items_nil hitems hempty.1 hempty.2
        subst hi
        have hT : nodeText Dump.written y 0 (.mk name attrs .nil) =
            '<' :: (name ++ ((Dump.written attrs).flatMap attrText ++ (c!" />" ++ y.line))) := by
          simp [nodeText, hasBlocks, hasTexts, hpad0]
        rw [hT]
        unfold body
        rw [parseNode_angle hname]
        have := parseTag_fine (st := st) hname hq true hfa hl.once y.line (by simp)
        simp only [List.append_assoc, if_true] at this
        refine ends_bind this ?_
        rintro x ⟨o', st', k1, k2, k3, k4, k5, k6, rfl⟩
        have := fin o' st' k1 k2 (by rw [k3]; trivial) (by rw [k4, ho]) k6 st'.pop.preserve
        exact this
      · have key : ∀ inner pad, Blank pad → (¬ SlashFirst items → ¬ c!"/>" <+: inner ++ (pad ++ (c!"</" ++ (name ++ c!">" ++ y.line)))) →
            (∀ (o' : Open) (st' : St), st'.opened = [o'] → Quiet st' → ∀ (Q : St → Prop),
              Rest st' o' [] items (pad ++ (c!"</" ++ (name ++ c!">" ++ y.line))) Q →
              Goes st' (inner ++ (pad ++ (c!"</" ++ (name ++ c!">" ++ y.line)))) Q) →
            nodeText Dump.written y 0 (.mk name attrs items) =
              '<' :: (name ++ ((Dump.written attrs).flatMap attrText ++ (c!">" ++ (inner ++ (pad ++ (c!"</" ++ (name ++ c!">" ++ y.line))))))) →
            (body st (nodeText Dump.written y 0 (.mk name attrs items))).Ends fun st' => ∃ n', st'.opened = [] ∧
              st'.root = some n' ∧ Same (.mk name attrs items) n' ∧ st'.pis = st.pis ∧ st'.noValue = st.noValue := by
          intro inner pad hpad hns hin hT
          rw [hT]
          unfold body
          rw [parseNode_angle hname]
          have := parseTag_fine (st := st) hname hq false hfa hl.once (inner ++ (pad ++ (c!"</" ++ (name ++ c!">" ++ y.line))))
              (fun h _ => hns fun hs => hslash ⟨written_bare hmade h, hs⟩)
          simp only [List.append_assoc, Bool.false_eq_true, if_false] at this ⊢
          refine ends_bind this ?_
          rintro x ⟨o', st', k1, k2, k3, k4, k5, k6, rfl⟩
          have := hin o' st' (by rw [k4, ho]) k5 (fun st' => ∃ n', st'.opened = [] ∧
            st'.root = some n' ∧ Same (.mk name attrs items) n' ∧ st'.pis = st.pis ∧ st'.noValue = st.noValue)
          simp only [List.append_assoc] at this
          refine this ?_ _
          intro items' st2 h1 h2 h3 h4
          refine goes_blank h3 hpad (lt_cons _) ?_
          refine goes_pass (by simp) ?_
          have hpc := pass_close h3 h2 (by rw [k2]; exact hname) y.line
          simp only [k2, List.append_assoc] at hpc
          show Res.Ends _ (pass st2 (c!"</" ++ (name ++ (c!">" ++ y.line))))
          rw [hpc]
          have hfin := fin { o' with items := o'.items.append items' } st2 (openOk_items k1 _) k2 (by show SameItems items (o'.items.append items'); rw [k3]; exact h1) h2 (Alike.trans k6 h4)
            st2.preserve.tail
          simpa [Res.Ends] using hfin
        by_cases hb : hasBlocks items
        · have hcl : Closes y items (y.pad 0 ++ (c!"</" ++ (name ++ c!">" ++ y.line))) := by
            rcases hlay with rfl | h
            · exact Or.inl ⟨rfl, _, rfl⟩
            · exact Or.inr ⟨h hb, lt_append (pad_blank y 0) (lt_cons _)⟩
          refine key (y.line ++ itemsText Dump.written y 0 items) (y.pad 0) (pad_blank y 0) ?_ ?_ ?_
          · intro hs
            rw [List.append_assoc]
            exact line_noSlash y (items_noSlash hitems hcl hs)
          · intro o' st' e1 e2 Q hrest
            have := items_goes y items .other 0 st' o' [] _ Q hitems hcl e1 e2 hrest
            cases y with
            | plain => exact this
            | pretty t =>
              rw [List.append_assoc]
              refine goes_blank e2 (line_blank _) ?_ this
              have hnc : NoContent items := by
                rcases hlay with h | h
                · cases h
                · exact h hb
              rcases items_next (items := items) (level := 0) (noContent_fine hnc hitems) hcl with h | h
              · exact h
              · cases h.1
          · simp only [nodeText, if_pos hb, List.append_assoc, List.cons_append, List.nil_append, hpad0]
        · have ht : hasTexts items := Decidable.byContradiction fun h => hempty ⟨hb, h⟩
          obtain ⟨hplain, htext⟩ := plain_items (level := 0) hitems hb
          refine key (itemsText Dump.written y 0 items) [] (by intro c hc; simp at hc) ?_ ?_ ?_
          · intro hs
            rw [htext]
            exact items_noSlash hplain (Or.inl ⟨rfl, _, rfl⟩) hs
          · intro o' st' e1 e2 Q hrest
            rw [htext]
            exact items_goes .plain items .other 0 st' o' [] _ Q hplain (Or.inl ⟨rfl, _, rfl⟩) e1 e2 hrest
          · simp only [nodeText, if_neg hb, if_pos ht, List.append_assoc, List.cons_append, List.nil_append, hpad0]
    obtain ⟨st', h1, n', h2, h3, h4, h5, h6⟩ := ends_sat main (body_sat ho _)
    exact ⟨st', n', h1, h2, h3, h4, h5, h6⟩

theorem inspect_append (chunk r : List Char) : inspect (chunk ++ r) chunk = .yes r := by
  have := eat_append chunk r
  unfold eat at this
  cases h : inspect (chunk ++ r) chunk with
  | yes t => rw [h] at this; cases this; rfl
  | no => rw [h] at this; cases this
  | short => rw [h] at this; cases this

theorem inspectTwo_second {a b r : List Char} (hl : a.length = b.length) (hn : ¬ a <+: b ++ r) : inspectTwo (b ++ r) a b = .yes r := by
  have : inspect (b ++ r) a = .no := by
    unfold inspect
    rw [if_neg (by simp; omega), if_neg]
    rw [List.isPrefixOf_iff_prefix]; exact hn
  unfold inspectTwo
  rw [this]
  exact inspect_append b r

theorem inspectTwo_none {s a b : List Char} (ha : ¬ a <+: s) (hb : ¬ b <+: s) : ∀ r, inspectTwo s a b ≠ .yes r := by
  intro r h
  rcases inspectTwo_yes h with rfl | rfl
  · exact ha (List.prefix_append _ _)
  · exact hb (List.prefix_append _ _)

theorem headerValue_of {v r : List Char} (h1 : '"' ∉ v) (h2 : '\'' ∉ v) : headerValue (v ++ '\'' :: r) = some (v, r) := by
  unfold headerValue
  rw [getUntil_of (i := 0) (n := 1) (by rw [matchAt_quotes]; rfl) v]
  · rfl
  · intro x d y hx
    have hd : d ∈ v := by rw [hx]; simp
    rw [matchAt_quotes, if_neg (by rintro rfl; exact h2 hd), if_neg (by rintro rfl; exact h1 hd)]

theorem encoding_none {s : List Char} (ha : ¬ c!"encoding=\"" <+: s) (hb : ¬ c!"encoding='" <+: s) : encoding s = .ok (none, s) := by
  unfold encoding
  split
  · rename_i r h; exact absurd h (inspectTwo_none ha hb r)
  · rfl

theorem standalone_none {s : List Char} (ha : ¬ c!"standalone=\"" <+: s) (hb : ¬ c!"standalone='" <+: s) : standalone s = .ok (false, s) := by
  unfold standalone
  split
  · rename_i r h; exact absurd h (inspectTwo_none ha hb r)
  · rfl

/-- The end of the header. -/
def standText (a : Bool) : List Char := if a then c!"standalone='yes' " else []

theorem stand_skip (a : Bool) (t : List Char) : skip (standText a ++ (c!"?>" ++ t)) = standText a ++ (c!"?>" ++ t) := by
  cases a <;> exact skip_cons_not (by simp [White])

theorem standalone_fine (a : Bool) (t : List Char) : ∃ s, standalone (standText a ++ (c!"?>" ++ t)) = .ok (a, s) ∧ skip s = c!"?>" ++ t := by
  cases a with
  | true =>
    refine ⟨' ' :: (c!"?>" ++ t), ?_, ?_⟩
    · have e1 : standText true ++ (c!"?>" ++ t) = c!"standalone='" ++ (c!"yes" ++ '\'' :: ' ' :: (c!"?>" ++ t)) := by simp [standText]
      unfold standalone
      rw [e1, inspectTwo_second (by decide) (by simp)]
      simp only
      rw [headerValue_of (by decide) (by decide)]
      rfl
    · show skip (' ' :: (c!"?>" ++ t)) = _
      rw [← List.singleton_append, skip_blank (by intro c hc; simp at hc; subst hc; exact Or.inl rfl)]
      exact skip_cons_not (by simp [White])
  | false =>
    refine ⟨c!"?>" ++ t, ?_, skip_cons_not (by simp [White])⟩
    exact standalone_none (by simp [standText]) (by simp [standText])

theorem encoding_fine {e : Option (List Char)} (he : ∀ x ∈ e, '"' ∉ x ∧ '\'' ∉ x ∧ NUL ∉ x) (a : Bool) (t : List Char) :
    ∃ s, encoding (encodingText e ++ (standText a ++ (c!"?>" ++ t))) = .ok (e, s) ∧ skip s = standText a ++ (c!"?>" ++ t) := by
  cases e with
  | none =>
    refine ⟨_, encoding_none ?_ ?_, stand_skip a t⟩ <;> cases a <;> simp [encodingText, standText]
  | some x =>
    obtain ⟨h1, h2, h3⟩ := he x rfl
    refine ⟨' ' :: (standText a ++ (c!"?>" ++ t)), ?_, ?_⟩
    · have e1 : encodingText (some x) ++ (standText a ++ (c!"?>" ++ t)) =
          c!"encoding='" ++ (x ++ '\'' :: ' ' :: (standText a ++ (c!"?>" ++ t))) := by simp [encodingText]
      unfold encoding
      rw [e1, inspectTwo_second (by decide) (by simp)]
      simp only
      rw [headerValue_of h1 h2]
      simp only [toStr_id h3]
    · rw [← List.singleton_append, skip_blank (by intro c hc; simp at hc; subst hc; exact Or.inl rfl)]
      exact stand_skip a t

theorem encodingText_skip (e : Option (List Char)) (a : Bool) (t : List Char) :
    skip (encodingText e ++ (standText a ++ (c!"?>" ++ t))) = encodingText e ++ (standText a ++ (c!"?>" ++ t)) := by
  cases e with
  | none => exact stand_skip a t
  | some x => exact skip_cons_not (by simp [White])

theorem skip_space (s : List Char) : skip (' ' :: s) = skip s := by
  rw [← List.singleton_append, skip_blank (by intro c hc; simp at hc; subst hc; exact Or.inl rfl)]

theorem xmlDecl_fine {e : Option (List Char)} (he : ∀ x ∈ e, '"' ∉ x ∧ '\'' ∉ x ∧ NUL ∉ x) (a : Bool) (t : List Char) :
    xmlDecl (c!"xml version='1.0' " ++ (encodingText e ++ (standText a ++ (c!"?>" ++ t)))) = .ok (e, a, t) := by
  obtain ⟨s1, h1, h2⟩ := encoding_fine he a t
  obtain ⟨s2, h3, h4⟩ := standalone_fine a t
  generalize hE : encodingText e ++ (standText a ++ (c!"?>" ++ t)) = E at *
  have hEs : skip E = E := by rw [← hE]; exact encodingText_skip e a t
  have e1 : eat (c!"xml version='1.0' " ++ E) c!"xml" = some (' ' :: (c!"version='1.0' " ++ E)) := eat_append c!"xml" _
  have e2 : skip (' ' :: (c!"version='1.0' " ++ E)) = c!"version=" ++ (c!"'1.0' " ++ E) := by
    rw [skip_space]; exact skip_cons_not (by simp [White])
  have e3 : skip (c!"'1.0' " ++ E) = c!"'1.0'" ++ (' ' :: E) := skip_cons_not (by simp [White])
  unfold xmlDecl
  rw [e1]
  simp only
  rw [e2, inspect_append]
  simp only [notZero]
  rw [e3, inspectTwo_second (by decide) (by simp)]
  simp only [skip_space, hEs]
  rw [h1, Res.ok_bind]
  simp only [h2]
  rw [h3, Res.ok_bind]
  simp only [h4]
  rw [eat_append]

theorem parseHeader_fine {e : Option (List Char)} (he : ∀ x ∈ e, '"' ∉ x ∧ '\'' ∉ x ∧ NUL ∉ x) (a : Bool) (y : Layout) {c : Char}
    (hc : c ≠ '!') (r : List Char) :
    parseHeader (headerText y e a ++ '<' :: c :: r) = .ok (e, a, St.new, '<' :: c :: r) := by
  have hT : headerText y e a ++ '<' :: c :: r =
      c!"<?" ++ (c!"xml version='1.0' " ++ (encodingText e ++ (standText a ++ (c!"?>" ++ (y.line ++ '<' :: c :: r))))) := by
    simp [headerText, standText]
  have hbom : skipBom (headerText y e a ++ '<' :: c :: r) = headerText y e a ++ '<' :: c :: r := by
    unfold skipBom
    rw [eat_none.2 (by rw [hT]; exact not_prefix_cons (by decide))]
  have hno : ∀ m, ¬ '<' :: '!' :: m <+: '<' :: c :: r := by
    intro m h
    exact not_prefix_cons hc.symm (List.cons_prefix_cons.1 h).2
  have hsk : skip (y.line ++ '<' :: c :: r) = '<' :: c :: r := by
    rw [skip_blank (line_blank y)]; exact skip_cons_not (by simp [White])
  unfold parseHeader
  rw [hbom, hT, inspect_append]
  simp only [notZero]
  rw [xmlDecl_fine he, Res.ok_bind]
  simp only
  rw [comments_none (by rw [hsk]; exact hno _) (fun h => by cases h), hsk, Res.ok_bind]
  simp only
  unfold doctype
  rw [eat_none.2 (hno _)]
  rfl

mutual
theorem fine_writable (y : Layout) : ∀ (n : Node), Fine y n → Writable n
  | .mk _ _ items, h => ⟨h.2.1, fine_writableItems y items _ h.2.2.2.2.2⟩
theorem fine_writableItems (y : Layout) : ∀ (items : Items) (b : Before), FineItems y b items → WritableItems items
  | .nil, _, _ => trivial
  | .node n next, _, h => ⟨fine_writable y n h.1, fine_writableItems y next _ h.2⟩
  | .leaf l next, _, h => by
    refine ⟨?_, fine_writableItems y next _ h.2.2⟩
    have h1 := h.1
    cases l with
    | pi p =>
      obtain ⟨_, _, c, hc, _⟩ := h1
      show p.content ≠ none
      rw [hc]; simp
    | comment s => exact h1.1
    | _ => trivial
end

/-- The text of a document is read as the same document. -/
theorem parse_fine (y : Layout) {d : Doc} (hf : FineDoc y d) : ∃ d', parse (docText Dump.written y d) = .ok d' ∧ SameDoc d d' := by
  obtain ⟨henc, hroot, hpis, hnv⟩ := hf
  obtain ⟨enc, alone, root, pis, nv⟩ := d
  simp only at hpis hnv
  subst hpis hnv
  obtain ⟨st', n', h1, h2, h3, h4, h5, h6⟩ := body_fine y (st := St.new) rfl (fun b hb => by simp [St.new] at hb) root hroot
  have hshape : ∃ c r, nodeText Dump.written y 0 root = '<' :: c :: r ∧ c ≠ '!' := by
    obtain ⟨name, attrs, items⟩ := root
    obtain ⟨c, r, hcr, hc⟩ := name_char hroot.1
    have hpad0 : y.pad 0 = [] := by cases y <;> simp [Layout.pad]
    have : ∃ r', nodeText Dump.written y 0 (.mk name attrs items) = '<' :: c :: r' := by
      simp only [nodeText, hpad0, hcr, List.nil_append, List.append_assoc, List.cons_append]
      exact ⟨_, rfl⟩
    obtain ⟨r', hr'⟩ := this
    exact ⟨c, r', hr', by rintro rfl; exact hc.2 (by simp)⟩
  obtain ⟨c, r, hr, hc⟩ := hshape
  refine ⟨⟨enc, alone, n', [], []⟩, ?_, rfl, rfl, h4, rfl, rfl⟩
  unfold parse
  have hh := parseHeader_fine henc alone y hc r
  simp only [docText]
  rw [hr, hh, Res.ok_bind]
  simp only
  rw [← hr, h1, Res.ok_bind]
  simp only [h2, h3, h5, h6]
  rfl

end Parse
end Axl
