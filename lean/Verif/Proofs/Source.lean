/-
The parse of a document written as `Verif.Spec.Source` says.
-/
import Verif.Spec.Source
import Verif.Proofs.RoundTrip

namespace Axl
namespace Parse
open Str Stream Spec.Xml Spec.RoundTrip Spec.Source

/-! ### One pass, whatever is preserved -/

theorem skip_lt (r : List Char) : skip ('<' :: r) = '<' :: r := skip_cons_not (by simp [White])

theorem src_misc {st : St} {s : List Char} (h : c!"<!--" <+: s ∨ c!"<?" <+: s) :
    pass st s = (comments true (s.length + 1) st s >>= fun x => .ok (x.1, x.2, true)) := by
  have hs : skip s = s := by
    rcases h with ⟨r, rfl⟩ | ⟨r, rfl⟩ <;> exact skip_lt _
  have hsk : (peek s c!"<?" || peek s c!"<!--") = true := by
    rcases h with ⟨r, h⟩ | ⟨r, h⟩
    · rw [Bool.or_eq_true]; right; exact peek_iff.2 ⟨r, h.symm⟩
    · rw [Bool.or_eq_true]; left; exact peek_iff.2 ⟨r, h.symm⟩
  unfold pass
  simp only [hs, ite_self, hsk, if_true]

/-- What remains after comments and instructions is read by the loop. -/
theorem src_comments {st : St} {s : List Char} {P : St → Prop} (hg : Goes st (skip s) P) (fuel : Nat) :
    (comments true fuel st s).Ends fun x => Goes x.1 x.2 P := by
  rw [← comments_skip]
  generalize hS : skip s = t at hg ⊢
  have hsk : skip t = t := by rw [← hS, skip_skip]
  by_cases hc : c!"<!--" <+: t ∨ c!"<?" <+: t
  · have hne : t ≠ [] := by
      rintro rfl
      rcases hc with h | h <;> simp at h
    have hl : comments true (t.length + 1) st t ≠ .loop := comments_no_loop (by omega)
    by_cases hf : comments true fuel st t = .loop
    · rw [hf]; trivial
    · rw [comments_fuel _ _ _ _ hf hl]
      have key : ∀ n, mainLoop (n + 1) st t = (comments true (t.length + 1) st t >>= fun x => mainLoop n x.1 x.2) := by
        intro n
        conv => lhs; unfold mainLoop
        split
        · exact absurd rfl hne
        · rw [src_misc hc]
          cases comments true (_ + 1) st _ <;> rfl
      cases hr : comments true (t.length + 1) st t with
      | ok x =>
        intro n
        have := hg (n + 1)
        rw [key, hr] at this
        exact this
      | error =>
        have := hg 1
        rw [key, hr] at this
        exact this
      | ub =>
        have := hg 1
        rw [key, hr] at this
        exact this
      | loop => trivial
  · cases fuel with
    | zero => trivial
    | succ fuel =>
      rw [comments_none (by rw [hsk]; exact fun h => hc (Or.inl h)) (by rw [hsk]; exact fun _ h => hc (Or.inr h)), hsk]
      exact hg

theorem comment_of {st : St} {t s : List Char} (ht : t ≠ []) (hu : UpTo c!"-->" t) :
    comment st (c!"<!--" ++ t ++ c!"-->" ++ s) = .ok (true, st.addLeaf (.comment t), s) := by
  unfold comment
  rw [show skip (c!"<!--" ++ t ++ c!"-->" ++ s) = c!"<!--" ++ (t ++ c!"-->" ++ s) by
    rw [List.append_assoc, List.append_assoc]; simp only [List.cons_append]; rw [skip_lt]; simp]
  rw [eat_append]
  simp only
  unfold getUntilRef
  rw [getUntil_mark (by decide) hu]
  simp only [ht, if_false]

/-- A comment and what follows. -/
theorem comments_comment {header : Bool} {st : St} {t s : List Char} (ht : t ≠ []) (hu : UpTo c!"-->" t) {Q : St × List Char → Prop}
    (h : ∀ fuel, (comments header fuel (st.addLeaf (.comment t)) s).Ends Q) (fuel : Nat) :
    (comments header fuel st (c!"<!--" ++ t ++ c!"-->" ++ s)).Ends Q := by
  cases fuel with
  | zero => trivial
  | succ k =>
    unfold comments
    rw [comment_of ht hu]
    simp only [Res.ok_bind, Bool.true_or, if_true]
    by_cases hi : header = true ∧ c!"<?" <+: skip s
    · obtain ⟨rfl, hi⟩ := hi
      -- an instruction follows
      have this := h (k + 1)
      have hc : ¬ c!"<!--" <+: skip s := by
        obtain ⟨r, hr⟩ := hi
        rw [← hr]; simp
      unfold comments comment at this
      rw [eat_none.2 hc] at this
      simp only [Res.ok_bind] at this
      rw [show instruction true (st.addLeaf (.comment t)) (skip s) = instruction true (st.addLeaf (.comment t)) s by
        unfold instruction; rw [skip_skip]] at this
      cases hr : instruction true (st.addLeaf (.comment t)) s with
      | ok x =>
        obtain ⟨b, st2, s2⟩ := x
        have hb : b = true := by
          unfold instruction at hr
          rw [peek_iff.2 ⟨_, hi.choose_spec.symm⟩] at hr
          simp only [Bool.and_self, if_true] at hr
          cases hp : consumePi (st.addLeaf (.comment t)) (skip s) with
          | ok y => rw [hp] at hr; cases hr; rfl
          | _ => rw [hp] at hr; cases hr
        subst hb
        rw [hr] at this
        simp only [Res.ok_bind, Bool.or_true, if_true] at this ⊢
        exact this
      | error => rw [hr] at this; exact this
      | ub => rw [hr] at this; exact this
      | loop => trivial
    · have h2 : instruction header (st.addLeaf (.comment t)) s = .ok (false, st.addLeaf (.comment t), skip s) := by
        unfold instruction
        rw [if_neg]
        intro hh
        rw [Bool.and_eq_true] at hh
        exact hi ⟨hh.1, (peek_iff.1 hh.2).imp fun r hr => hr.symm⟩
      rw [h2]
      simp only [Res.ok_bind, comments_skip]
      exact h k

/-! ### Instructions -/

theorem prefix_cut' {m : List Char} {d : Char} {y r rest : List Char} (hr : r = m ++ rest) :
    m <+: d :: (y ++ r) ↔ m <+: d :: y ++ m.dropLast := by
  subst hr
  rw [← prefix_cut (rest := rest)]
  simp

theorem piName_white {name r : List Char} {w : Char} (h1 : ∀ c ∈ name, ¬ White c) (h2 : UpTo c!"?>" name) (hw : White w) :
    getUntil [c!" ?>", c!"?>", c!" "] (name ++ w :: r) = some ⟨name, 2, w :: r, r⟩ := by
  refine getUntil_of (n := 1) (by rw [matchAt_pi, if_pos ((white_iff w).2 hw)]) name ?_
  intro x d y hx
  have hd := h1 d (by rw [hx]; simp)
  rw [matchAt_pi, if_neg (by rw [white_iff]; exact hd), if_neg]
  rw [List.cons_prefix_cons]
  rintro ⟨rfl, hp⟩
  cases y with
  | nil =>
    simp only [List.nil_append, List.cons_prefix_cons] at hp
    rw [← hp.1] at hw
    rcases hw with h | h | h | h <;> cases h
  | cons e y =>
    simp only [List.cons_append, List.cons_prefix_cons] at hp
    obtain ⟨rfl, -⟩ := hp
    apply (upTo_iff.1 h2).2 x '?' ('>' :: y) hx
    exact ⟨_, rfl⟩

theorem piName_end {name r : List Char} (h1 : ∀ c ∈ name, ¬ White c) (h2 : UpTo c!"?>" name) :
    getUntil [c!" ?>", c!"?>", c!" "] (name ++ c!"?>" ++ r) = some ⟨name, 1, c!"?>" ++ r, r⟩ := by
  rw [List.append_assoc]
  refine getUntil_of (n := 2) (by rw [matchAt_pi, if_neg (by decide), if_pos ⟨r, rfl⟩]) name ?_
  intro x d y hx
  have hd := h1 d (by rw [hx]; simp)
  rw [matchAt_pi, if_neg (by rw [white_iff]; exact hd), if_neg]
  intro h
  exact (upTo_iff.1 h2).2 x d y hx ((prefix_cut' (m := c!"?>") (rest := r) rfl).1 h)

theorem piContent_end {c blank r : List Char} (hu : UpTo c!"?>" (c ++ blank)) (hb : blank = [] ∧ c.getLast? ≠ some ' ' ∨ blank = [' ']) :
    ∃ k a, getUntil [c!" ?>", c!"?>"] (c ++ blank ++ c!"?>" ++ r) = some ⟨c, k, a, r⟩ := by
  have hno : ∀ x d y, c = x ++ d :: y → ¬ c!"?>" <+: d :: (y ++ (blank ++ (c!"?>" ++ r))) := by
    intro x d y hx h
    have := (upTo_iff.1 hu).2 x d (y ++ blank) (by rw [hx]; simp)
    apply this
    have h2 := (prefix_cut' (m := c!"?>") (d := d) (y := y ++ blank) (rest := r) rfl).1 (by simpa using h)
    exact h2
  rcases hb with ⟨rfl, hl⟩ | rfl
  · refine ⟨1, c!"?>" ++ r, ?_⟩
    rw [List.append_nil, List.append_assoc]
    refine getUntil_of (n := 2) ?_ c ?_
    · rw [matchAt_piEnd, if_neg (not_prefix_cons (by decide)), if_pos ⟨r, rfl⟩]
    · intro x d y hx
      rw [matchAt_piEnd, if_neg, if_neg]
      · exact hno x d y hx
      rw [List.cons_prefix_cons]
      rintro ⟨rfl, hp⟩
      cases y with
      | nil => rw [hx] at hl; simp at hl
      | cons e y => exact hno (x ++ [' ']) e y (by rw [hx]; simp) hp
  · refine ⟨0, c!" ?>" ++ r, ?_⟩
    rw [List.append_assoc, List.append_assoc]
    refine getUntil_of (n := 3) ?_ c ?_
    · rw [matchAt_piEnd, if_pos ⟨r, rfl⟩]
    · intro x d y hx
      rw [matchAt_piEnd, if_neg, if_neg]
      · exact hno x d y hx
      rw [List.cons_prefix_cons]
      rintro ⟨rfl, hp⟩
      cases y with
      | nil =>
        simp only [List.nil_append, List.cons_append, List.cons_prefix_cons] at hp
        exact absurd hp.1 (by decide)
      | cons e y => exact hno (x ++ [' ']) e y (by rw [hx]; simp) hp

theorem instruction_lt {t : List Char} {p : PI} (h : Instruction t p) : ∃ r, t = c!"<?" ++ r := by
  cases h with
  | bare => exact ⟨_, List.append_assoc ..⟩
  | full => exact ⟨_, by simp only [List.append_assoc]; rfl⟩

theorem consumePi_of {st : St} {t : List Char} {p : PI} (h : Instruction t p) (s : List Char) :
    consumePi st (t ++ s) = .ok (st.addPI p, s) := by
  cases h with
  | @bare name h1 h2 h3 =>
    rw [List.append_assoc, List.append_assoc]
    unfold consumePi
    rw [eat_append]
    simp only
    rw [← List.append_assoc, piName_end h1 h2]
    simp only
    rw [if_neg (by rw [reserved_iff]; exact h3), if_pos (Or.inr trivial)]
    rfl
  | @full name content blank w h1 h2 h3 h4 h5 h6 =>
    obtain ⟨k, a, hk⟩ := piContent_end (r := s) h5 h6
    rw [show c!"<?" ++ name ++ w :: content ++ blank ++ c!"?>" ++ s = c!"<?" ++ (name ++ w :: (content ++ blank ++ c!"?>" ++ s)) by simp]
    unfold consumePi
    rw [eat_append]
    simp only
    rw [piName_white h1 h2 h4]
    simp only
    rw [if_neg (by rw [reserved_iff]; exact h3), if_neg (by decide), hk]
    rfl

theorem comments_instruction {st : St} {t : List Char} {p : PI} (hi : Instruction t p) {s : List Char} {Q : St × List Char → Prop}
    (h : ∀ fuel, (comments true fuel (st.addPI p) s).Ends Q) (fuel : Nat) : (comments true fuel st (t ++ s)).Ends Q := by
  cases fuel with
  | zero => trivial
  | succ k =>
    obtain ⟨r, hr⟩ := instruction_lt hi
    have hsk : skip (t ++ s) = t ++ s := by rw [hr, List.append_assoc]; exact skip_lt _
    have h1 : comment st (t ++ s) = .ok (false, st, t ++ s) := by
      unfold comment
      rw [hsk, eat_none.2 (by rw [hr]; simp)]
    have h2 : instruction true st (t ++ s) = .ok (true, st.addPI p, s) := by
      unfold instruction
      rw [hsk, peek_iff.2 ⟨r ++ s, by rw [hr, List.append_assoc]⟩]
      simp only [Bool.and_self, if_true]
      rw [consumePi_of hi]
      rfl
    unfold comments
    rw [h1]
    simp only [Res.ok_bind, h2, Bool.or_true, if_true]
    exact h k

/-- Comments and instructions, and what follows. -/
theorem comments_misc {t : List Char} {ls : List Leaf} (hm : Misc t ls) {s : List Char} {Q : St × List Char → Prop} : ∀ {st : St},
    (∀ fuel, (comments true fuel (st.addAll ls) s).Ends Q) → ∀ fuel, (comments true fuel st (t ++ s)).Ends Q := by
  induction hm with
  | nil => intro st h; exact h
  | blank hb _ ih =>
    intro st h fuel
    rw [List.append_assoc, ← comments_skip, skip_blank hb, comments_skip]
    exact ih h fuel
  | comment hc _ ih =>
    intro st h fuel
    cases hc with
    | mk h1 h2 =>
      rw [List.append_assoc]
      exact comments_comment h1 h2 (ih h) fuel
  | pi hp _ ih =>
    intro st h fuel
    rw [List.append_assoc]
    exact comments_instruction hp (ih h) fuel

/-- The same without instructions. -/
theorem comments_only {header : Bool} {t : List Char} {ls : List Leaf} (hm : Misc t ls) (hl : ∀ l ∈ ls, ∃ c, l = .comment c) {s : List Char}
    {Q : St × List Char → Prop} : ∀ {st : St},
    (∀ fuel, (comments header fuel (st.addAll ls) s).Ends Q) → ∀ fuel, (comments header fuel st (t ++ s)).Ends Q := by
  induction hm with
  | nil => intro st h; exact h
  | blank hb _ ih =>
    intro st h fuel
    rw [List.append_assoc, ← comments_skip, skip_blank hb, comments_skip]
    exact ih hl h fuel
  | comment hc _ ih =>
    intro st h fuel
    cases hc with
    | mk h1 h2 =>
      rw [List.append_assoc]
      exact comments_comment h1 h2 (ih (fun l h => hl l (by simp [h])) h) fuel
  | pi hp _ ih =>
    obtain ⟨c, hc⟩ := hl _ (List.mem_cons_self ..)
    cases hc

/-! ### Tags -/

/-- What an attribute adds to the stack of `xml:space`. -/
def pushOf (k : List Bool) (a : Attribute) : List Bool :=
  if a.name = c!"xml:space" then decide (a.value = c!"preserve") :: k else k.head?.getD false :: k

def tagStack (k : List Bool) (as : List Attribute) : List Bool := as.foldl pushOf k

def pairs (as : List Attribute) : List (List Char × Option (List Char)) := as.map fun x => (x.name, some x.value)

theorem space_of (st : St) {a : Attribute} (h : a.Valid) :
    ∃ st', space st a.name (some a.value) = .ok st' ∧ st'.opened = st.opened ∧ st'.preserve = pushOf st.preserve a ∧ Alike st st' := by
  unfold space pushOf
  rw [Attrs.cmp_beq]
  by_cases hx : a.name = c!"xml:space"
  · rw [if_pos (by rw [beq_iff_eq]; exact hx), if_pos hx, Attrs.cmp_beq, Attrs.cmp_beq]
    rcases h.space hx with hv | hv
    · rw [hv]
      exact ⟨_, if_pos (by decide), rfl, by simp, rfl, rfl, rfl⟩
    · rw [hv, if_neg (by decide), if_pos (by decide)]
      exact ⟨_, rfl, rfl, by simp, rfl, rfl, rfl⟩
  · rw [if_neg (by rw [beq_iff_eq]; exact hx), if_neg hx]
    refine ⟨_, rfl, ?_, ?_, ?_⟩ <;> unfold St.inherit <;> split
    · rfl
    · rfl
    · rename_i h; rw [h]; rfl
    · rename_i h; rw [h]; rfl
    · exact ⟨rfl, rfl, rfl⟩
    · exact ⟨rfl, rfl, rfl⟩

theorem attrib_src {st : St} {o : Open} {os : List Open} (ho : st.opened = o :: os) {as : List (List Char × Option (List Char))}
    (hok : OpenOk o as) {a : Attribute} (ha : a.Valid) (hn : a.name ∉ as.map (·.1)) (s : List Char) :
    ∃ st' o', attrib st (a.name ++ '=' :: a.quote :: a.value ++ [a.quote] ++ s) = .ok (st', skip s) ∧ st'.opened = o' :: os ∧
      OpenOk o' (as ++ [(a.name, some a.value)]) ∧ o'.name = o.name ∧ o'.items = o.items ∧ st'.preserve = pushOf st.preserve a ∧ Alike st st' := by
  obtain ⟨hgap, hname, hq2, ⟨hq1, hval⟩, hspace⟩ := ha
  have ha : a.Valid := ⟨hgap, hname, hq2, ⟨hq1, hval⟩, hspace⟩
  obtain ⟨gap, n, q, v⟩ := a
  simp only at *
  have hnul := name_nul hname
  have hS : n ++ '=' :: q :: v ++ [q] ++ s = n ++ c!"=" ++ (q :: (v ++ [q] ++ s)) := by simp
  have hg : getUntil [c!"="] (skip (n ++ '=' :: q :: v ++ [q] ++ s)) =
      some ⟨n, 0, c!"=" ++ (q :: (v ++ [q] ++ s)), q :: (v ++ [q] ++ s)⟩ := by
    rw [hS, List.append_assoc, skip_name hname, ← List.append_assoc]
    exact getUntil_mark (by decide) (upTo_char.2 (name_not hname (by simp)))
  have hne : q ≠ ' ' := by rcases hq2 with h | h <;> rw [h] <;> decide
  have hv : attrValue q (v ++ [q] ++ s) = (some v, s) := by
    unfold attrValue
    rw [getUntil_mark (by simpa using hne) (upTo_char.2 hq1)]
    simp only [toStr_id hval]
  obtain ⟨o', h1, h2, h3, h4⟩ := setAttr_sat hok hn (v := some v) hnul (by intro x hx; cases hx; exact hval)
  obtain ⟨b, hb1, hb2⟩ := has_spec hok n
  have hbf : ¬ (b || o.noValue.contains n) = true := fun h => hn (hb2.1 h)
  obtain ⟨st', g1, g2, g3, g4⟩ := space_of { st with opened := o' :: os } ha
  simp only at g1 g2 g3 g4
  refine ⟨st', o', ?_, g2, h2, h3, h4, g3, ⟨g4.1, g4.2.1, g4.2.2⟩⟩
  unfold attrib
  rw [hg]
  simp only [toStr_id hnul]
  rw [if_neg hname.1, quote_of hq2]
  simp only [ho, hb1, hv]
  show (if (b || o.noValue.contains n) = true then Res.error else _) = _
  rw [if_neg hbf, h1]
  show (space _ _ _ >>= _) = _
  rw [g1]
  rfl

theorem attrLoop_src (empty : Bool) (tail r : List Char) (ht : skip tail = (if empty then c!"/>" else c!">") ++ r) :
    ∀ (ps : List Attribute) (fuel : Nat) (st : St) {o : Open} {os : List Open}, st.opened = o :: os →
    ∀ {as : List (List Char × Option (List Char))}, OpenOk o as → (∀ p ∈ ps, p.Valid) →
    ((as ++ pairs ps).map (·.1)).Nodup →
    (attrLoop fuel st (skip (ps.flatMap Attribute.chars ++ tail))).Ends fun x => ∃ o' st',
      OpenOk o' (as ++ pairs ps) ∧ o'.name = o.name ∧ o'.items = o.items ∧
      st'.opened = o' :: os ∧ st'.preserve = tagStack st.preserve ps ∧ Alike st st' ∧ x = (if empty then st'.pop else st', r, empty)
  | _, 0, _, _, _, _, _, _, _, _ => trivial
  | [], fuel + 1, st, o, os, ho, as, hok, _, _ => by
    simp only [List.flatMap_nil, List.nil_append, ht]
    unfold attrLoop
    cases empty with
    | true =>
      simp only [if_true]
      rw [eat_append]
      exact ⟨o, st, by simpa [pairs] using hok, rfl, rfl, ho, rfl, Alike.refl st, rfl⟩
    | false =>
      simp only [Bool.false_eq_true, if_false]
      rw [eat_none.2 (by simp), eat_append]
      exact ⟨o, st, by simpa [pairs] using hok, rfl, rfl, ho, rfl, Alike.refl st, rfl⟩
  | a :: ps, fuel + 1, st, o, os, ho, as, hok, hf, hd => by
    have hfn : a.Valid := hf a (by simp)
    have hn : a.name ∉ as.map (·.1) := by
      rw [List.map_append, List.nodup_append] at hd
      intro h
      exact hd.2.2 a.name h a.name (by simp [pairs]) rfl
    obtain ⟨st', o', h1, h2, h3, h4, h5, h6, h7⟩ := attrib_src ho hok hfn hn (ps.flatMap Attribute.chars ++ tail)
    have hS : skip ((a :: ps).flatMap Attribute.chars ++ tail) =
        a.name ++ '=' :: a.quote :: a.value ++ [a.quote] ++ (ps.flatMap Attribute.chars ++ tail) := by
      rw [List.flatMap_cons]
      simp only [Attribute.chars, List.append_assoc]
      rw [skip_blank hfn.gap.1, skip_name hfn.name]
    rw [hS]
    obtain ⟨c, r', hcr, hc⟩ := name_char hfn.name
    have hc1 : '/' ≠ c := fun h => hc.2 (by simp [← h])
    have hc2 : '>' ≠ c := fun h => hc.2 (by simp [← h])
    unfold attrLoop
    have e1 : eat (a.name ++ '=' :: a.quote :: a.value ++ [a.quote] ++ (ps.flatMap Attribute.chars ++ tail)) c!"/>" = none := by
      rw [eat_none, hcr]; exact not_prefix_cons hc1
    have e2 : eat (a.name ++ '=' :: a.quote :: a.value ++ [a.quote] ++ (ps.flatMap Attribute.chars ++ tail)) c!">" = none := by
      rw [eat_none, hcr]; exact not_prefix_cons hc2
    rw [e1, e2, h1]
    simp only [Res.ok_bind]
    have hassoc : as ++ [(a.name, some a.value)] ++ pairs ps = as ++ pairs (a :: ps) := by simp [pairs]
    have ih := attrLoop_src empty tail r ht ps fuel st' h2 h3 (fun p hp => hf p (by simp [hp])) (by rw [hassoc]; exact hd)
    rw [hassoc] at ih
    generalize attrLoop fuel st' (skip (ps.flatMap Attribute.chars ++ tail)) = R at ih
    cases R with
    | ok x =>
      obtain ⟨o2, st2, k1, k2, k3, k4, k5, k6, k7⟩ := ih
      exact ⟨o2, st2, k1, k2.trans h4, k3.trans h5, k4, by rw [k5, h6]; rfl, h7.trans k6, k7⟩
    | error => exact ih
    | ub => exact ih
    | loop => trivial

theorem noSlash_append {x : List Char} (h : ¬ c!"/>" <+: x) (y : List Char) : ¬ c!"/>" <+: x ++ '<' :: y := by
  intro hp
  match x, h, hp with
  | [], _, hp => simp only [List.nil_append, List.cons_prefix_cons] at hp; exact absurd hp.1 (by decide)
  | [c], _, hp =>
    simp only [List.cons_append, List.nil_append, List.cons_prefix_cons] at hp
    exact absurd hp.2.1 (by decide)
  | c :: d :: s, h, hp =>
    simp only [List.cons_append, List.cons_prefix_cons] at hp h
    exact h ⟨hp.1, hp.2.1, List.nil_prefix⟩

/-- The tag that opens a node, or is the whole of it. -/
theorem parseTag_src {st : St} {name : List Char} (hname : IsName name) (empty : Bool) {ps : List Attribute}
    (hv : ValidAttrs ps) {gap : List Char} (hgap : Blank gap) (r : List Char)
    (hr : ps = [] → gap = [] → empty = false → ¬ c!"/>" <+: r) :
    (parseTag st (name ++ ps.flatMap Attribute.chars ++ gap ++ (if empty then c!"/>" else c!">") ++ r)).Ends fun x => ∃ o' st',
      OpenOk o' (pairs ps) ∧ o'.name = name ∧ o'.items = .nil ∧
      st'.opened = o' :: st.opened ∧ st'.preserve = tagStack st.preserve ps ∧ Alike st st' ∧
      x = (if empty then st'.pop else st', r, empty) := by
  have hnul := name_nul hname
  have hpush : ∀ n, (st.push n).opened = ⟨n, Attrs.empty, [], .nil⟩ :: st.opened := fun _ => rfl
  have hchars : ∀ x d y, name = x ++ d :: y → ∀ z, matchAt [c!">", c!" "] d z = none := by
    intro x d y hx z
    have hd := hname.2 d (by rw [hx]; simp)
    rw [matchAt_tag, (white_false d).2 hd.1, if_neg (by decide), if_neg]
    rintro rfl; exact hd.2 (by simp)
  by_cases hcase : ps = [] ∧ gap = []
  · obtain ⟨rfl, rfl⟩ := hcase
    simp only [List.flatMap_nil, List.append_nil]
    cases empty with
    | false =>
      unfold parseTag
      have hg : getUntil [c!">", c!" "] (name ++ c!">" ++ r) = some ⟨name, 0, '>' :: r, r⟩ := by
        rw [List.append_assoc]
        exact getUntil_of (n := 1) (by rw [matchAt_tag]; rfl) name (fun x d y hx => hchars x d y hx _)
      simp only [Bool.false_eq_true, if_false]
      rw [hg]
      simp only [toStr_id hnul]
      rw [if_neg hname.1, if_neg (by decide), if_neg]
      · unfold endOfName
        rw [eat_none.2 (hr rfl rfl rfl)]
        exact ⟨_, st.push name, openOk_new name, rfl, rfl, hpush name, rfl, ⟨rfl, rfl, rfl⟩, rfl⟩
      · intro h
        exact name_not hname (d := '/') (by simp) (List.mem_of_getLast? h)
    | true =>
      unfold parseTag
      have hg : getUntil [c!">", c!" "] (name ++ c!"/>" ++ r) = some ⟨name ++ ['/'], 0, '>' :: r, r⟩ := by
        rw [show name ++ c!"/>" ++ r = (name ++ ['/']) ++ '>' :: r by simp]
        refine getUntil_of (n := 1) (by rw [matchAt_tag]; rfl) (name ++ ['/']) ?_
        intro x d y hx
        have hd : d ∈ name ++ ['/'] := by rw [hx]; simp
        rw [matchAt_tag]
        rcases List.mem_append.1 hd with hd | hd
        · have hd' := hname.2 d hd
          rw [(white_false d).2 hd'.1, if_neg (by decide), if_neg]
          rintro rfl; exact hd'.2 (by simp)
        · simp only [List.mem_singleton] at hd
          subst hd
          rw [if_neg (by decide), if_neg (by decide)]
      have hnul' : NUL ∉ name ++ ['/'] := by
        intro h
        rcases List.mem_append.1 h with h | h
        · exact hnul h
        · simp [NUL] at h
      simp only [if_true]
      rw [hg]
      simp only [toStr_id hnul']
      rw [if_neg (by simp), if_neg (by decide), if_pos (by simp)]
      rw [List.dropLast_concat]
      exact ⟨_, st.push name, openOk_new name, rfl, rfl, hpush name, rfl, ⟨rfl, rfl, rfl⟩, rfl⟩
  · -- a white space follows the name
    have hw : ∃ w u, White w ∧ ps.flatMap Attribute.chars ++ (gap ++ ((if empty then c!"/>" else c!">") ++ r)) = w :: u := by
      cases ps with
      | nil =>
        cases hgp : gap with
        | nil => exact absurd ⟨rfl, hgp⟩ hcase
        | cons w g => exact ⟨w, _, hgap w (by simp [hgp]), rfl⟩
      | cons p ps =>
        have hp := (hv.1 p (by simp)).gap
        cases hgp : p.gap with
        | nil => exact absurd hgp hp.2
        | cons w g =>
          have : ∃ u, (p :: ps).flatMap Attribute.chars ++ (gap ++ ((if empty then c!"/>" else c!">") ++ r)) = w :: u := by
            rw [List.flatMap_cons, Attribute.chars, hgp]
            exact ⟨_, rfl⟩
          exact ⟨w, this.choose, hp.1 w (by simp [hgp]), this.choose_spec⟩
    obtain ⟨w, u, hww, hu⟩ := hw
    have hsk : skip u = skip (ps.flatMap Attribute.chars ++ (gap ++ ((if empty then c!"/>" else c!">") ++ r))) := by
      rw [hu, ← List.singleton_append, skip_blank]
      intro c hc; simp at hc; subst hc; exact hww
    have hg : getUntil [c!">", c!" "] (name ++ ps.flatMap Attribute.chars ++ gap ++ (if empty then c!"/>" else c!">") ++ r) =
        some ⟨name, 1, w :: u, u⟩ := by
      simp only [List.append_assoc]
      rw [hu]
      refine getUntil_of (n := 1) ?_ name (fun x d y hx => hchars x d y hx _)
      rw [matchAt_tag, if_pos ((white_iff w).2 hww)]
    unfold parseTag
    rw [hg]
    simp only [toStr_id hnul]
    rw [if_neg hname.1, if_pos trivial, hsk]
    have htail : skip (gap ++ ((if empty then c!"/>" else c!">") ++ r)) = (if empty then c!"/>" else c!">") ++ r := by
      rw [skip_blank hgap]
      cases empty <;> exact skip_cons_not (by simp [White])
    have := attrLoop_src empty _ r htail ps ((skip (ps.flatMap Attribute.chars ++ (gap ++ ((if empty then c!"/>" else c!">") ++ r)))).length + 1)
      (st.push name) (hpush name) (openOk_new name) hv.1 (by simpa [pairs, Function.comp_def] using hv.2)
    generalize attrLoop _ _ _ = R at this ⊢
    cases R with
    | ok x =>
      obtain ⟨o2, st2, k1, k2, k3, k4, k5, k6, k7⟩ := this
      exact ⟨o2, st2, by simpa using k1, k2, k3, k4, k5, k6, k7⟩
    | error => exact this
    | ub => exact this
    | loop => trivial

theorem src_open {st : St} {name : List Char} (hname : IsName name) (r : List Char) :
    pass st ('<' :: (name ++ r)) = (parseTag st (name ++ r) >>= fun x => .ok (x.1, x.2.1, true)) := by
  obtain ⟨c, n, rfl, hc⟩ := name_char hname
  have h1 : '!' ≠ c := by rintro rfl; exact hc.2 (by simp)
  have h2 : '?' ≠ c := by rintro rfl; exact hc.2 (by simp)
  have h3 : '/' ≠ c := by rintro rfl; exact hc.2 (by simp)
  have hno : ∀ a m, a ≠ c → ¬ '<' :: a :: m <+: '<' :: (c :: n ++ r) := by
    intro a m ha h
    exact not_prefix_cons ha (List.cons_prefix_cons.1 h).2
  unfold pass
  simp only [skip_lt, ite_self]
  rw [peek_false.2 (hno _ _ h2), peek_false.2 (hno _ _ h1)]
  simp only [Bool.or_self, Bool.false_eq_true, if_false]
  rw [eat_none.2 (hno _ _ h3), eat_none.2 (hno _ _ h1), show eat ('<' :: (c :: n ++ r)) c!"<" = some (c :: n ++ r) from eat_append c!"<" _]
  simp only
  rw [parseNode_plain hname]

theorem src_close {st : St} {o : Open} {os : List Open} (ho : st.opened = o :: os) (hname : IsName o.name)
    {gap : List Char} (hgap : Blank gap) (hlen : gap.length ≤ 1) (s : List Char) :
    pass st (c!"</" ++ (o.name ++ gap ++ c!">" ++ s)) =
      .ok ({ st.pop with preserve := st.preserve.tail }, s, !os.isEmpty) := by
  have hgt : '>' ∉ o.name ++ gap := by
    intro h
    rcases List.mem_append.1 h with h | h
    · exact name_not hname (by simp) h
    · rcases hgap _ h with h | h | h | h <;> cases h
  unfold pass
  simp only [show ∀ x, c!"</" ++ x = '<' :: ('/' :: x) from fun _ => rfl, skip_lt, ite_self]
  rw [peek_false.2 (by simp), peek_false.2 (by simp)]
  simp only [Bool.or_self, Bool.false_eq_true, if_false]
  rw [show eat ('<' :: '/' :: (o.name ++ gap ++ c!">" ++ s)) c!"</" = some (o.name ++ gap ++ c!">" ++ s) from eat_append c!"</" _]
  simp only
  have hr : getUntilRef [c!">"] (o.name ++ gap ++ c!">" ++ s) = (some (o.name ++ gap), s) := by
    unfold getUntilRef
    rw [getUntil_mark (by decide) (upTo_char.2 hgt)]
    simp only
    rw [if_neg (by simp [hname.1])]
  have hcl : closeName (o.name ++ gap) = o.name := by
    unfold closeName
    match gap, hgap, hlen with
    | [], _, _ =>
      rw [List.append_nil]
      cases hl : o.name.getLast? with
      | none => exact absurd (List.getLast?_eq_none_iff.1 hl) hname.1
      | some c =>
        have := (hname.2 c (List.mem_of_getLast? hl)).1
        simp only [(white_false c).2 this, Bool.false_eq_true, if_false]
        exact toStr_id (name_nul hname)
    | [w], hgap, _ =>
      have := hgap w (by simp)
      simp only [List.getLast?_append, List.getLast?_singleton, Option.or, (white_iff w).2 this, if_true, List.dropLast_concat]
      exact toStr_id (name_nul hname)
  unfold closeNode
  rw [hr]
  simp only [ho, hcl, Attrs.cmp_beq, beq_self_eq_true, if_true, Res.ok_bind]
  have : st.pop.opened.isEmpty = os.isEmpty := by
    unfold St.pop
    rw [ho]
    cases os <;> rfl
  rw [this]

/-! ### Texts and sections -/

theorem src_text {st : St} {t s : List Char} (hne : t ≠ []) (hb : ¬ Blank t ∨ st.preserves = true) (hlt : '<' ∉ t) (hnul : NUL ∉ t)
    {P : St → Prop} (hg : Goes (st.addLeaf (.content t)) ('<' :: s) P) : Goes st (t ++ '<' :: s) P := by
  refine goes_pass (by simp) ?_
  have hst : ∃ c r, (if st.preserves then t ++ '<' :: s else skip (t ++ '<' :: s)) = c :: r ∧ c ≠ '<' := by
    by_cases hp : st.preserves = true
    · rw [if_pos hp]
      cases t with
      | nil => exact absurd rfl hne
      | cons c t => exact ⟨c, t ++ '<' :: s, rfl, fun h => hlt (by simp [h])⟩
    · rw [if_neg hp]
      exact skip_not_lt (hb.resolve_right hp) hlt ('<' :: s)
  obtain ⟨c, r, h1, h2⟩ := hst
  have hno : ∀ m, ¬ '<' :: m <+: c :: r := fun m => not_prefix_cons (Ne.symm h2)
  unfold pass
  simp only [h1]
  rw [peek_false.2 (hno _), peek_false.2 (hno _)]
  simp only [Bool.or_self, Bool.false_eq_true, if_false]
  rw [eat_none.2 (hno _), eat_none.2 (hno _), eat_none.2 (hno _)]
  simp only
  unfold content
  have := getUntil_mark (mark := c!"<") (text := t) (rest := s) (by decide) (upTo_char.2 hlt)
  rw [List.append_assoc] at this
  rw [show t ++ '<' :: s = t ++ (c!"<" ++ s) from rfl, this]
  simp only [Res.ok_bind, toStr_id hnul]
  exact hg

theorem src_drop {st : St} {t s : List Char} (hb : Blank t) (hp : st.preserves = false) {P : St → Prop} (hg : Goes st ('<' :: s) P) :
    Goes st (t ++ '<' :: s) P := by
  have hpass : pass st (t ++ '<' :: s) = pass st ('<' :: s) := by
    unfold pass
    simp only [hp, Bool.false_eq_true, if_false, skip_blank hb, skip_lt]
    rw [show eat ('<' :: s) c!"<" = some s from eat_append c!"<" s]
  intro fuel
  have := hg fuel
  cases fuel with
  | zero => trivial
  | succ fuel =>
    unfold mainLoop at this ⊢
    split
    · rename_i he; simp at he
    · rw [hpass]; exact this

theorem src_cdata {st : St} {t s : List Char} (hu : UpTo c!"]]>" t) (hnul : NUL ∉ t) {P : St → Prop}
    (hg : Goes (st.addLeaf (.cdata t)) s P) : Goes st (c!"<![CDATA[" ++ t ++ c!"]]>" ++ s) P := by
  refine goes_pass (by simp) ?_
  have hS : c!"<![CDATA[" ++ t ++ c!"]]>" ++ s = c!"<![CDATA[" ++ (t ++ c!"]]>" ++ s) := by simp
  have hsk : skip (c!"<![CDATA[" ++ (t ++ c!"]]>" ++ s)) = c!"<![CDATA[" ++ (t ++ c!"]]>" ++ s) := skip_lt _
  rw [hS]
  unfold pass
  simp only [hsk, ite_self]
  rw [peek_false.2 (by simp), peek_false.2 (by simp)]
  simp only [Bool.or_self, Bool.false_eq_true, if_false]
  rw [eat_none.2 (by simp), eat_append]
  simp only
  unfold cdata
  rw [getUntil_mark (by decide) hu]
  simp only [Res.ok_bind, toStr_id hnul]
  exact hg

theorem src_comment {st : St} {t s : List Char} (ht : t ≠ []) (hu : UpTo c!"-->" t) {P : St → Prop}
    (hg : Goes (st.addLeaf (.comment t)) (skip s) P) : Goes st (c!"<!--" ++ t ++ c!"-->" ++ s) P := by
  refine goes_pass (by simp) ?_
  rw [src_misc (Or.inl ⟨t ++ c!"-->" ++ s, by simp⟩)]
  refine ends_bind (P := fun x => Goes x.1 x.2 P) ?_ (fun x hx => more_ok hx)
  exact comments_comment ht hu (fun fuel => src_comments hg fuel) _

theorem src_pi {st : St} (ho : st.opened ≠ []) {t s : List Char} {p : PI} (hi : Instruction t p) {P : St → Prop}
    (hg : Goes (st.addLeaf (.pi p)) (skip s) P) : Goes st (t ++ s) P := by
  obtain ⟨r, hr⟩ := instruction_lt hi
  refine goes_pass (by rw [hr]; simp) ?_
  rw [src_misc (Or.inr ⟨r ++ s, by rw [hr, List.append_assoc]⟩)]
  refine ends_bind (P := fun x => Goes x.1 x.2 P) ?_ (fun x hx => more_ok hx)
  have hadd : st.addPI p = st.addLeaf (.pi p) := by
    unfold St.addPI
    cases hop : st.opened with
    | nil => exact absurd hop ho
    | cons o os => rfl
  refine comments_instruction hi (fun fuel => ?_) _
  rw [hadd]
  exact src_comments hg fuel

/-! ### The tree, with the stack of `xml:space` -/

mutual
/-- The stack after an element. -/
def outE : List Bool → Element → List Bool
  | k, .empty _ as _ => tagStack k as
  | k, .pair _ as _ c _ => (outP (tagStack k as) c).tail
def outP : List Bool → Parts → List Bool
  | k, .nil => k
  | k, .text _ next => outP k next
  | k, .comment _ next => outP k next
  | k, .pi _ _ next => outP k next
  | k, .cdata _ next => outP k next
  | k, .element e next => outP (outE k e) next
end

def top (k : List Bool) : Bool := k.head?.getD false

mutual
/-- The node that is read for an element. -/
def Sim : List Bool → Element → Node → Prop
  | _, .empty name attrs _, n => n.name = name ∧ Holds n.attrs attrs ∧ n.items = .nil
  | k, .pair name attrs _ content _, n => n.name = name ∧ Holds n.attrs attrs ∧ SimParts (tagStack k attrs) false content n.items
def SimParts : List Bool → Bool → Parts → Items → Prop
  | _, _, .nil, i => i = .nil
  | k, after, .text t next, i =>
    match shown (top k) after t with
    | some u => ∃ j, i = .leaf (.content u) j ∧ SimParts k false next j
    | none => SimParts k false next i
  | k, _, .comment t next, i => ∃ j, i = .leaf (.comment t) j ∧ SimParts k true next j
  | k, _, .pi _ p next, i => ∃ j, i = .leaf (.pi p) j ∧ SimParts k true next j
  | k, _, .cdata t next, i => ∃ j, i = .leaf (.cdata t) j ∧ SimParts k false next j
  | k, _, .element e next, i => ∃ n j, i = .node n j ∧ Sim k e n ∧ SimParts (outE k e) false next j
end

theorem withValue_pairs (as : List Attribute) : withValue (pairs as) = as.map fun x => (x.name, x.value) := by
  unfold withValue pairs
  rw [List.filterMap_map]
  induction as with
  | nil => rfl
  | cons a as ih => simpa using ih

theorem openOk_holds {o : Open} {as : List Attribute} (h : OpenOk o (pairs as)) : Holds o.attrs as := by
  have := h.attrsOf
  refine ⟨this.2.1, ?_⟩
  rw [← withValue_pairs]
  exact this.2.2

theorem pairs_noValue {o : Open} {as : List Attribute} (h : OpenOk o (pairs as)) : o.noValue = [] := by
  rw [h.noValue]
  clear h
  induction as with
  | nil => rfl
  | cons p ps ih => simpa [pairs] using ih

theorem elem_lt : ∀ (e : Element) (s : List Char), ∃ r, e.chars ++ s = '<' :: r
  | .empty _ _ _, _ => ⟨_, rfl⟩
  | .pair _ _ _ _ _, _ => ⟨_, rfl⟩

/-- What is not a text begins with a mark. -/
theorem parts_lt : ∀ {c : Parts} {tail : List Char}, c.Valid → ¬ isText c → (∃ r, tail = '<' :: r) → ∃ r, c.chars ++ tail = '<' :: r
  | .nil, _, _, _, h => h
  | .text _ _, _, _, h, _ => absurd trivial h
  | .comment _ _, _, _, _, _ => ⟨_, rfl⟩
  | .pi t p next, tail, h, _, _ => by
    obtain ⟨r, hr⟩ := instruction_lt h.1
    exact ⟨'?' :: (r ++ (next.chars ++ tail)), by simp [Parts.chars, hr]⟩
  | .cdata _ _, _, _, _, _ => ⟨_, rfl⟩
  | .element e next, tail, _, _, _ => by
    obtain ⟨r, hr⟩ := elem_lt e (next.chars ++ tail)
    exact ⟨r, by rw [Parts.chars, List.append_assoc, hr]⟩

theorem shown_after {keep : Bool} {t u : List Char} (h : shown keep true t = some u) (s : List Char) :
    ¬ Blank u ∧ skip (t ++ s) = u ++ s ∧ (∀ c ∈ u, c ∈ t) := by
  unfold shown at h
  simp only [if_true] at h
  split at h
  · cases h
  · rename_i hb
    cases h
    have hd : (t.dropWhile fun c => decide (White c)) = skip t := by
      unfold skip
      congr 1
      funext c
      rw [Bool.eq_iff_iff, white_iff]
      simp
    rw [hd]
    obtain ⟨b, h1, h2, h3⟩ := skip_spec t
    have hne : skip t ≠ [] := by
      intro he
      rw [he, List.append_nil] at h2
      exact hb (h2 ▸ h1)
    cases hs : skip t with
    | nil => exact absurd hs hne
    | cons c r =>
      have hc := h3 c r hs
      refine ⟨fun hh => hc (hh c (by simp)), ?_, ?_⟩
      · rw [h2, List.append_assoc, skip_blank h1, hs]
        exact skip_cons_not hc
      · intro d hd
        rw [h2, hs]
        exact List.mem_append_right _ hd

theorem with_preserve (st : St) (i : Items) : (st.with_ i).preserve = st.preserve := by
  unfold St.with_
  cases st.opened <;> rfl

mutual
theorem elem_goes : ∀ (e : Element) (st : St) (o : Open) (os : List Open) (tail : List Char) (P : St → Prop), e.Valid →
    st.opened = o :: os →
    (∀ n st', Sim st.preserve e n → st'.opened = { o with items := o.items.append (.node n .nil) } :: os →
      st'.preserve = outE st.preserve e → Alike st st' → Goes st' tail P) →
    Goes st (e.chars ++ tail) P
  | .empty name as gap, st, o, os, tail, P, hv, ho, hk => by
    obtain ⟨hname, has, hgap⟩ := hv
    have hT : (Element.empty name as gap).chars ++ tail = '<' :: (name ++ (as.flatMap Attribute.chars ++ (gap ++ (c!"/>" ++ tail)))) := by
      simp [Element.chars]
    rw [hT]
    refine goes_pass (by simp) ?_
    rw [src_open hname]
    have := parseTag_src (st := st) hname true has hgap tail (by simp)
    simp only [List.append_assoc, if_true] at this
    refine ends_bind this ?_
    rintro x ⟨o', st', k1, k2, k3, k4, k5, k6, rfl⟩
    refine more_ok ?_
    obtain ⟨e1, e2, e3⟩ := pop_inner (st := st') (o := o') (p := o) (os := os) (by rw [k4, ho]) (pairs_noValue k1)
    exact hk (.mk o'.name o'.attrs o'.items) _ ⟨k2, openOk_holds k1, k3⟩ e1 (by rw [e2, k5]; rfl) (Alike.trans k6 e3)
  | .pair name as gap content gapEnd, st, o, os, tail, P, hv, ho, hk => by
    obtain ⟨hname, has, hgap, hcont, hge, hgl, hslash⟩ := hv
    have hT : (Element.pair name as gap content gapEnd).chars ++ tail =
        '<' :: (name ++ (as.flatMap Attribute.chars ++ (gap ++ (c!">" ++ (content.chars ++ (c!"</" ++ (name ++ gapEnd ++ c!">" ++ tail))))))) := by
      simp [Element.chars]
    rw [hT]
    refine goes_pass (by simp) ?_
    rw [src_open hname]
    have := parseTag_src (st := st) hname false has hgap (content.chars ++ (c!"</" ++ (name ++ gapEnd ++ c!">" ++ tail)))
        (fun h1 h2 _ => noSlash_append (fun h => hslash ⟨h1, h2, h⟩) _)
    simp only [List.append_assoc, Bool.false_eq_true, if_false] at this ⊢
    refine ends_bind this ?_
    rintro x ⟨o', st', k1, k2, k3, k4, k5, k6, rfl⟩
    refine more_ok ?_
    have hc := parts_goes content false st' o' (o :: os) (c!"</" ++ (name ++ gapEnd ++ c!">" ++ tail)) P hcont ⟨_, rfl⟩ (by rw [k4, ho])
    simp only [Bool.false_eq_true, if_false, List.append_assoc] at hc
    refine hc ?_
    intro items st2 h1 h2 h3 h4
    refine goes_pass (by simp) ?_
    have hpc := src_close h2 (by rw [k2]; exact hname) hge hgl tail
    simp only [k2, List.append_assoc] at hpc
    show Res.Ends _ (pass st2 (c!"</" ++ (name ++ (gapEnd ++ (c!">" ++ tail)))))
    rw [hpc]
    refine more_ok ?_
    obtain ⟨e1, e2, e3⟩ := pop_inner (st := st2) (p := o) (os := os) h2 (pairs_noValue (openOk_items k1 _))
    refine hk (.mk name o'.attrs items) _ ⟨rfl, openOk_holds k1, ?_⟩ ?_ ?_ ?_
    · show SimParts (tagStack st.preserve as) false content items
      rw [← k5]; exact h1
    · show st2.pop.opened = _
      rw [e1]
      simp only [k2, k3, Items.append]
    · show st2.preserve.tail = _
      rw [h3, k5]; rfl
    · exact Alike.trans (Alike.trans k6 h4) (Alike.trans e3 ⟨rfl, rfl, rfl⟩)

theorem parts_goes : ∀ (c : Parts) (after : Bool) (st : St) (o : Open) (os : List Open) (tail : List Char) (P : St → Prop), c.Valid →
    (∃ r, tail = '<' :: r) → st.opened = o :: os →
    (∀ items st', SimParts st.preserve after c items → st'.opened = { o with items := o.items.append items } :: os →
      st'.preserve = outP st.preserve c → Alike st st' → Goes st' tail P) →
    Goes st (if after then skip (c.chars ++ tail) else c.chars ++ tail) P
  | .nil, after, st, o, os, tail, P, _, ht, ho, hk => by
    obtain ⟨r, rfl⟩ := ht
    simp only [Parts.chars, List.nil_append, skip_lt, ite_self]
    exact hk .nil st rfl (by rw [append_nil]; exact ho) rfl (Alike.refl st)
  | .text t next, after, st, o, os, tail, P, hv, ht, ho, hk => by
    obtain ⟨hne, hlt, hnul, hnt, hnext⟩ := hv
    obtain ⟨r, hr⟩ := parts_lt hnext hnt ht
    have hadd : ∀ u, shown (top st.preserve) after t = some u → Goes (st.addLeaf (.content u)) ('<' :: r) P := by
      intro u hu
      rw [addLeaf_eq, ← hr]
      refine parts_goes next false _ _ os tail P hnext ht (with_opened ho _) ?_
      intro items2 st2 g1 g2 g3 g4
      rw [with_preserve] at g1 g3
      refine hk (.leaf (.content u) items2) st2 ?_ ?_ g3 (Alike.trans (with_alike st _) g4)
      · simp only [SimParts, hu]
        exact ⟨_, rfl, g1⟩
      · rw [g2, append_assoc]; rfl
    have hdrop : shown (top st.preserve) after t = none → Goes st ('<' :: r) P := by
      intro hu
      rw [← hr]
      refine parts_goes next false _ _ os tail P hnext ht ho ?_
      intro items2 st2 g1 g2 g3 g4
      refine hk items2 st2 ?_ g2 g3 g4
      simp only [SimParts, hu]
      exact g1
    have hT : (Parts.text t next).chars ++ tail = t ++ '<' :: r := by rw [Parts.chars, List.append_assoc, hr]
    rw [hT]
    cases after with
    | true =>
      simp only [if_true]
      cases hs : shown (top st.preserve) true t with
      | some u =>
        obtain ⟨h1, h2, h3⟩ := shown_after hs ('<' :: r)
        rw [h2]
        refine src_text ?_ (Or.inl h1) (fun h => hlt (h3 _ h)) (fun h => hnul (h3 _ h)) (hadd u hs)
        rintro rfl
        exact h1 (fun _ h => by simp at h)
      | none =>
        have hb : Blank t := by
          unfold shown at hs
          simp only [if_true] at hs
          split at hs
          · assumption
          · cases hs
        rw [skip_blank hb, skip_lt]
        exact hdrop hs
    | false =>
      simp only [Bool.false_eq_true, if_false]
      by_cases hb : Blank t ∧ top st.preserve = false
      · exact src_drop hb.1 hb.2 (hdrop (by unfold shown; rw [if_neg (by simp), if_pos hb]))
      · refine src_text hne ?_ hlt hnul (hadd t (by unfold shown; rw [if_neg (by simp), if_neg hb]))
        by_cases hbl : Blank t
        · right
          have : ¬ top st.preserve = false := fun h => hb ⟨hbl, h⟩
          simpa [top, St.preserves] using this
        · exact Or.inl hbl
  | .comment t next, after, st, o, os, tail, P, hv, ht, ho, hk => by
    obtain ⟨h1, h2, hnext⟩ := hv
    have hT : (Parts.comment t next).chars ++ tail = c!"<!--" ++ t ++ c!"-->" ++ (next.chars ++ tail) := by simp [Parts.chars]
    have hsk : skip (c!"<!--" ++ t ++ c!"-->" ++ (next.chars ++ tail)) = c!"<!--" ++ t ++ c!"-->" ++ (next.chars ++ tail) := skip_lt _
    rw [hT, hsk, ite_self]
    refine src_comment h1 h2 ?_
    rw [addLeaf_eq]
    refine parts_goes next true _ _ os tail P hnext ht (with_opened ho _) ?_
    intro items2 st2 g1 g2 g3 g4
    rw [with_preserve] at g1 g3
    exact hk (.leaf (.comment t) items2) st2 ⟨_, rfl, g1⟩ (by rw [g2, append_assoc]; rfl) g3 (Alike.trans (with_alike st _) g4)
  | .pi t p next, after, st, o, os, tail, P, hv, ht, ho, hk => by
    obtain ⟨h1, hnext⟩ := hv
    have hT : (Parts.pi t p next).chars ++ tail = t ++ (next.chars ++ tail) := by simp [Parts.chars]
    have hsk : skip (t ++ (next.chars ++ tail)) = t ++ (next.chars ++ tail) := by
      obtain ⟨r, rfl⟩ := instruction_lt h1
      exact skip_lt _
    rw [hT, hsk, ite_self]
    refine src_pi (by rw [ho]; simp) h1 ?_
    rw [addLeaf_eq]
    refine parts_goes next true _ _ os tail P hnext ht (with_opened ho _) ?_
    intro items2 st2 g1 g2 g3 g4
    rw [with_preserve] at g1 g3
    exact hk (.leaf (.pi p) items2) st2 ⟨_, rfl, g1⟩ (by rw [g2, append_assoc]; rfl) g3 (Alike.trans (with_alike st _) g4)
  | .cdata t next, after, st, o, os, tail, P, hv, ht, ho, hk => by
    obtain ⟨h1, h2, hnext⟩ := hv
    have hT : (Parts.cdata t next).chars ++ tail = c!"<![CDATA[" ++ t ++ c!"]]>" ++ (next.chars ++ tail) := by simp [Parts.chars]
    have hsk : skip (c!"<![CDATA[" ++ t ++ c!"]]>" ++ (next.chars ++ tail)) = c!"<![CDATA[" ++ t ++ c!"]]>" ++ (next.chars ++ tail) := skip_lt _
    rw [hT, hsk, ite_self]
    refine src_cdata h1 h2 ?_
    rw [addLeaf_eq]
    refine parts_goes next false _ _ os tail P hnext ht (with_opened ho _) ?_
    intro items2 st2 g1 g2 g3 g4
    rw [with_preserve] at g1 g3
    exact hk (.leaf (.cdata t) items2) st2 ⟨_, rfl, g1⟩ (by rw [g2, append_assoc]; rfl) g3 (Alike.trans (with_alike st _) g4)
  | .element e next, after, st, o, os, tail, P, hv, ht, ho, hk => by
    obtain ⟨h1, hnext⟩ := hv
    have hT : (Parts.element e next).chars ++ tail = e.chars ++ (next.chars ++ tail) := by simp [Parts.chars]
    have hsk : skip (e.chars ++ (next.chars ++ tail)) = e.chars ++ (next.chars ++ tail) := by
      obtain ⟨r, hr⟩ := elem_lt e (next.chars ++ tail)
      rw [hr]; exact skip_lt _
    rw [hT, hsk, ite_self]
    refine elem_goes e st o os _ P h1 ho ?_
    intro n st1 f1 f2 f3 f4
    refine parts_goes next false st1 _ os tail P hnext ht f2 ?_
    intro items2 st2 g1 g2 g3 g4
    rw [f3] at g1 g3
    exact hk (.node n items2) st2 ⟨_, _, rfl, f1, g1⟩ (by rw [g2, append_assoc]; rfl) g3 (Alike.trans f4 g4)
end

/-! ### Where white spaces are kept -/

theorem keeps_one (k : List Bool) (a : Attribute) : keeps (top k) [a] = top (tagStack k [a]) := by
  unfold keeps tagStack
  simp only [List.foldl_cons, List.foldl_nil, pushOf, List.find?]
  by_cases h : a.name = c!"xml:space"
  · simp [h, top]
  · simp [h, top]

mutual
theorem oneEach_sim : ∀ (e : Element) (k : List Bool) (n : Node), OneEach e → Sim k e n → Means (top k) e n ∧ outE k e = k
  | .empty name as gap, k, n, h, hs => by
    have h : as = [] := h
    subst h
    exact ⟨hs, rfl⟩
  | .pair name as gap c ge, k, n, h, hs => by
    obtain ⟨h1, h2⟩ := h
    match as, h1 with
    | [a], _ =>
      obtain ⟨g1, g2⟩ := oneEachParts_sim c (tagStack k [a]) false n.items h2 hs.2.2
      refine ⟨⟨hs.1, hs.2.1, by rw [keeps_one]; exact g1⟩, ?_⟩
      rw [outE, g2]
      simp only [tagStack, List.foldl_cons, List.foldl_nil, pushOf]
      split <;> rfl
theorem oneEachParts_sim : ∀ (c : Parts) (k : List Bool) (after : Bool) (i : Items), OneEachParts c → SimParts k after c i →
    MeansParts (top k) after c i ∧ outP k c = k
  | .nil, _, _, _, _, hs => ⟨hs, rfl⟩
  | .text t next, k, after, i, h, hs => by
    simp only [SimParts] at hs
    simp only [MeansParts, outP]
    cases hu : shown (top k) after t with
    | some u =>
      rw [hu] at hs
      obtain ⟨j, rfl, hj⟩ := hs
      have := oneEachParts_sim next k false j h hj
      exact ⟨⟨j, rfl, this.1⟩, this.2⟩
    | none =>
      rw [hu] at hs
      exact oneEachParts_sim next k false i h hs
  | .comment t next, k, after, i, h, ⟨j, hi, hj⟩ => by
    have := oneEachParts_sim next k true j h hj
    exact ⟨⟨j, hi, this.1⟩, this.2⟩
  | .pi t p next, k, after, i, h, ⟨j, hi, hj⟩ => by
    have := oneEachParts_sim next k true j h hj
    exact ⟨⟨j, hi, this.1⟩, this.2⟩
  | .cdata t next, k, after, i, h, ⟨j, hi, hj⟩ => by
    have := oneEachParts_sim next k false j h hj
    exact ⟨⟨j, hi, this.1⟩, this.2⟩
  | .element e next, k, after, i, h, ⟨n, j, hi, hn, hj⟩ => by
    obtain ⟨h1, h2⟩ := oneEach_sim e k n h.1 hn
    rw [h2] at hj
    have := oneEachParts_sim next k false j h.2 hj
    exact ⟨⟨n, j, hi, h1, this.1⟩, by rw [outP, h2, this.2]⟩
end

/-- Nothing is preserved. -/
def Off (k : List Bool) : Prop := ∀ b ∈ k, b = false

theorem Off.top {k : List Bool} (h : Off k) : top k = false := by
  cases k with
  | nil => rfl
  | cons b k => exact h b (by simp)

theorem off_tail {k : List Bool} (h : Off k) : Off k.tail := fun b hb => h b (List.mem_of_mem_tail hb)

theorem off_tagStack : ∀ {as : List Attribute} {k : List Bool}, ¬ asksPreserve as → Off k → Off (tagStack k as)
  | [], _, _, h => h
  | a :: as, k, hn, h => by
    refine off_tagStack (as := as) (k := pushOf k a) (fun ⟨b, hb, h⟩ => hn ⟨b, by simp [hb], h⟩) ?_
    intro b hb
    unfold pushOf at hb
    split at hb
    · rename_i hx
      rcases List.mem_cons.1 hb with rfl | hb
      · rw [decide_eq_false_iff_not]
        exact fun hv => hn ⟨a, by simp, hx, hv⟩
      · exact h b hb
    · rcases List.mem_cons.1 hb with rfl | hb
      · exact h.top
      · exact h b hb

theorem keeps_off {as : List Attribute} (hn : ¬ asksPreserve as) : keeps false as = false := by
  unfold keeps
  split
  · rename_i a ha
    rw [decide_eq_false_iff_not]
    intro hv
    exact hn ⟨a, List.mem_of_find?_eq_some ha, by simpa using List.find?_some ha, hv⟩
  · rfl

mutual
theorem scoped_sim : ∀ (e : Element) (k : List Bool) (n : Node), Scoped e → Off k → Sim k e n → Means false e n ∧ Off (outE k e)
  | .empty name as gap, k, n, h, hk, hs => by
    rcases h with h | h
    · exact ⟨hs, off_tagStack h hk⟩
    · obtain ⟨h1, h2⟩ := oneEach_sim _ k n h hs
      exact ⟨h1, by rw [h2]; exact hk⟩
  | .pair name as gap c ge, k, n, h, hk, hs => by
    rcases h with ⟨h1, h2⟩ | h
    · obtain ⟨g1, g2⟩ := scopedParts_sim c _ false n.items h2 (off_tagStack h1 hk) hs.2.2
      exact ⟨⟨hs.1, hs.2.1, by rw [keeps_off h1]; exact g1⟩, off_tail g2⟩
    · obtain ⟨h1, h2⟩ := oneEach_sim _ k n h hs
      rw [hk.top] at h1
      exact ⟨h1, by rw [h2]; exact hk⟩
theorem scopedParts_sim : ∀ (c : Parts) (k : List Bool) (after : Bool) (i : Items), ScopedParts c → Off k → SimParts k after c i →
    MeansParts false after c i ∧ Off (outP k c)
  | .nil, _, _, _, _, hk, hs => ⟨hs, hk⟩
  | .text t next, k, after, i, h, hk, hs => by
    simp only [SimParts, hk.top] at hs
    simp only [MeansParts, outP]
    cases hu : shown false after t with
    | some u =>
      rw [hu] at hs
      obtain ⟨j, rfl, hj⟩ := hs
      have := scopedParts_sim next k false j h hk hj
      exact ⟨⟨j, rfl, this.1⟩, this.2⟩
    | none =>
      rw [hu] at hs
      exact scopedParts_sim next k false i h hk hs
  | .comment t next, k, after, i, h, hk, ⟨j, hi, hj⟩ => by
    have := scopedParts_sim next k true j h hk hj
    exact ⟨⟨j, hi, this.1⟩, this.2⟩
  | .pi t p next, k, after, i, h, hk, ⟨j, hi, hj⟩ => by
    have := scopedParts_sim next k true j h hk hj
    exact ⟨⟨j, hi, this.1⟩, this.2⟩
  | .cdata t next, k, after, i, h, hk, ⟨j, hi, hj⟩ => by
    have := scopedParts_sim next k false j h hk hj
    exact ⟨⟨j, hi, this.1⟩, this.2⟩
  | .element e next, k, after, i, h, hk, ⟨n, j, hi, hn, hj⟩ => by
    obtain ⟨h1, h2⟩ := scoped_sim e k n h.1 hk hn
    have := scopedParts_sim next _ false j h.2 h2 hj
    exact ⟨⟨n, j, hi, h1, this.1⟩, this.2⟩
end

mutual
theorem noPreserve_scoped : ∀ (e : Element), NoPreserve e → Scoped e
  | .empty _ _ _, h => Or.inl h
  | .pair _ _ _ c _, h => Or.inl ⟨h.1, noPreserveParts_scoped c h.2⟩
theorem noPreserveParts_scoped : ∀ (c : Parts), NoPreserveParts c → ScopedParts c
  | .nil, _ => trivial
  | .text _ next, h => noPreserveParts_scoped next h
  | .comment _ next, h => noPreserveParts_scoped next h
  | .pi _ _ next, h => noPreserveParts_scoped next h
  | .cdata _ next, h => noPreserveParts_scoped next h
  | .element e next, h => ⟨noPreserve_scoped e h.1, noPreserveParts_scoped next h.2⟩
end

/-! ### The document -/

/-- The comments and instructions before the root, and the tag of the root. -/
theorem parseNode_src {st : St} {m : List Char} {ls : List Leaf} (hm : Misc m ls) {name : List Char} (hname : IsName name) (r : List Char)
    {Q : St × List Char × Bool → Prop} (h : (parseTag (st.addAll ls) (name ++ r)).Ends Q) :
    (parseNode st (m ++ '<' :: (name ++ r))).Ends Q := by
  unfold parseNode
  obtain ⟨c, n, rfl, hc⟩ := name_char hname
  have h1 : c ≠ '!' := by rintro rfl; exact hc.2 (by simp)
  have h2 : c ≠ '?' := by rintro rfl; exact hc.2 (by simp)
  refine ends_bind (P := fun x => x = (st.addAll ls, '<' :: (c :: n ++ r))) ?_ ?_
  · refine comments_misc hm ?_ _
    intro fuel
    cases fuel with
    | zero => trivial
    | succ fuel =>
      rw [comments_none (by rw [skip_lt, List.cons_prefix_cons]; exact fun h => not_prefix_cons h1.symm h.2)
        (by rw [skip_lt, List.cons_prefix_cons]; exact fun _ h => not_prefix_cons h2.symm h.2), skip_lt]
      rfl
  · rintro x rfl
    unfold openAngle
    simp only
    rw [show eat ('<' :: (c :: n ++ r)) c!"<" = some (c :: n ++ r) from eat_append c!"<" _]
    exact h

theorem body_src {st : St} (ho : st.opened = []) {m : List Char} {ls : List Leaf} (hm : Misc m ls) : ∀ (e : Element) (rest : List Char), e.Valid →
    ∃ st' n, body st (m ++ e.chars ++ rest) = .ok st' ∧ st'.opened = [] ∧ st'.root = some n ∧ Sim st.preserve e n ∧
      st'.pis = st.pis ++ instructions ls ∧ st'.noValue = st.noValue := by
  intro e rest hv
  have hall := addAll_none ls ho
  have hpre : (st.addAll ls).preserve = st.preserve := by rw [hall]
  have hopen : (st.addAll ls).opened = [] := by rw [hall]; exact ho
  have hal : ∀ st', Alike (st.addAll ls) st' → st'.pis = st.pis ++ instructions ls ∧ st'.noValue = st.noValue := by
    intro st' h
    rw [hall] at h
    exact ⟨h.2.1, h.2.2⟩
  have main : (body st (m ++ e.chars ++ rest)).Ends fun st' => ∃ n, st'.opened = [] ∧ st'.root = some n ∧ Sim st.preserve e n ∧
      st'.pis = st.pis ++ instructions ls ∧ st'.noValue = st.noValue := by
    cases e with
    | empty name as gap =>
      obtain ⟨hname, has, hgap⟩ := hv
      have hT : m ++ (Element.empty name as gap).chars ++ rest = m ++ '<' :: (name ++ (as.flatMap Attribute.chars ++ (gap ++ (c!"/>" ++ rest)))) := by
        simp [Element.chars]
      rw [hT]
      unfold body
      have := parseTag_src (st := st.addAll ls) hname true has hgap rest (by simp)
      simp only [List.append_assoc, if_true] at this
      refine ends_bind (parseNode_src hm hname _ this) ?_
      rintro x ⟨o', st', k1, k2, k3, k4, k5, k6, rfl⟩
      obtain ⟨e1, e2, e3, e4⟩ := pop_root (st := st') (o := o') (by rw [k4, hopen]) (pairs_noValue k1)
      obtain ⟨a1, a2⟩ := hal st' k6
      exact ⟨_, e1, e2, ⟨k2, openOk_holds k1, k3⟩, e3.trans a1, e4.trans a2⟩
    | pair name as gap content gapEnd =>
      obtain ⟨hname, has, hgap, hcont, hge, hgl, hslash⟩ := hv
      have hT : m ++ (Element.pair name as gap content gapEnd).chars ++ rest =
          m ++ '<' :: (name ++ (as.flatMap Attribute.chars ++ (gap ++ (c!">" ++ (content.chars ++ (c!"</" ++ (name ++ gapEnd ++ c!">" ++ rest))))))) := by
        simp [Element.chars]
      rw [hT]
      unfold body
      have := parseTag_src (st := st.addAll ls) hname false has hgap (content.chars ++ (c!"</" ++ (name ++ gapEnd ++ c!">" ++ rest)))
        (fun h1 h2 _ => noSlash_append (fun h => hslash ⟨h1, h2, h⟩) _)
      simp only [List.append_assoc, Bool.false_eq_true, if_false] at this ⊢
      refine ends_bind (parseNode_src hm hname _ this) ?_
      rintro x ⟨o', st', k1, k2, k3, k4, k5, k6, rfl⟩
      have hc := parts_goes content false st' o' [] (c!"</" ++ (name ++ gapEnd ++ c!">" ++ rest)) (fun st' => ∃ n, st'.opened = [] ∧ st'.root = some n ∧
        Sim st.preserve (.pair name as gap content gapEnd) n ∧ st'.pis = st.pis ++ instructions ls ∧ st'.noValue = st.noValue) hcont ⟨_, rfl⟩ (by rw [k4, hopen])
      simp only [Bool.false_eq_true, if_false, List.append_assoc] at hc
      refine hc ?_ _
      intro items st2 h1 h2 h3 h4
      refine goes_pass (by simp) ?_
      have hpc := src_close h2 (by rw [k2]; exact hname) hge hgl rest
      simp only [k2, List.append_assoc] at hpc
      show Res.Ends _ (pass st2 (c!"</" ++ (name ++ (gapEnd ++ (c!">" ++ rest)))))
      rw [hpc]
      obtain ⟨e1, e2, e3, e4⟩ := pop_root (st := st2) h2 (pairs_noValue (openOk_items k1 _))
      obtain ⟨a1, a2⟩ := hal st2 (Alike.trans k6 h4)
      refine ⟨.mk o'.name o'.attrs (o'.items.append items), e1, e2, ⟨k2, openOk_holds k1, ?_⟩, e3.trans a1, e4.trans a2⟩
      rw [k5, hpre] at h1
      rw [k3]
      exact h1
  obtain ⟨st', h1, n, h2, h3, h4, h5, h6⟩ := ends_sat main (body_sat ho _)
  exact ⟨st', n, h1, h2, h3, h4, h5, h6⟩

theorem inspectTwo_first (a b r : List Char) : inspectTwo (a ++ r) a b = .yes r := by
  unfold inspectTwo
  rw [inspect_append]

theorem headerValue_src {v r : List Char} {q : Char} (hq : q = '"' ∨ q = '\'') (h1 : '"' ∉ v) (h2 : '\'' ∉ v) :
    headerValue (v ++ q :: r) = some (v, r) := by
  have hno : ∀ x d y, v = x ++ d :: y → matchAt [c!"'", c!"\""] d (y ++ q :: r) = none := by
    intro x d y hx
    have hd : d ∈ v := by rw [hx]; simp
    rw [matchAt_quotes, if_neg (by rintro rfl; exact h2 hd), if_neg (by rintro rfl; exact h1 hd)]
  unfold headerValue
  rcases hq with rfl | rfl
  · rw [getUntil_of (i := 1) (n := 1) (by rw [matchAt_quotes]; rfl) v hno]
    rfl
  · rw [getUntil_of (i := 0) (n := 1) (by rw [matchAt_quotes]; rfl) v hno]
    rfl

theorem encoding_src {enc : List Char} {e : Option (List Char)} (h : Spec.Source.DeclPart c!"encoding" enc e) (t : List Char)
    (ht : ¬ c!"encoding" <+: skip t) : ∃ s, encoding (skip (enc ++ t)) = .ok (e, s) ∧ skip s = skip t := by
  cases h with
  | none =>
    refine ⟨skip t, ?_, skip_skip t⟩
    have hno : ∀ x, ¬ c!"encoding" ++ x <+: skip t := fun x hx => ht ((List.prefix_append _ _).trans hx)
    exact encoding_none (hno c!"=\"") (hno c!"='")
  | @some gap v q h1 h2 h3 h4 h5 h6 =>
    have hS : skip (gap ++ c!"encoding" ++ '=' :: q :: v ++ [q] ++ t) = c!"encoding=" ++ q :: (v ++ q :: t) := by
      simp only [List.append_assoc]
      rw [skip_blank h1]
      simp only [List.cons_append, List.nil_append, List.append_assoc]
      exact skip_cons_not (by simp [White])
    refine ⟨t, ?_, rfl⟩
    rw [hS]
    unfold encoding
    have hi : inspectTwo (c!"encoding=" ++ q :: (v ++ q :: t)) c!"encoding=\"" c!"encoding='" = .yes (v ++ q :: t) := by
      rcases h3 with rfl | rfl
      · exact inspectTwo_first c!"encoding=\"" _ _
      · exact inspectTwo_second (a := c!"encoding=\"") (b := c!"encoding='") (by decide) (by simp)
    rw [hi]
    simp only
    rw [headerValue_src h3 h4 h5]
    simp only [toStr_id h6]

theorem standalone_src {alone : List Char} {a : Option (List Char)} (h : Spec.Source.DeclPart c!"standalone" alone a) (hv : a = none ∨ a = some c!"yes" ∨ a = some c!"no")
    (t : List Char) (ht : ¬ c!"standalone" <+: skip t) : ∃ s, standalone (skip (alone ++ t)) = .ok (a == some c!"yes", s) ∧ skip s = skip t := by
  cases h with
  | none =>
    refine ⟨skip t, ?_, skip_skip t⟩
    have hno : ∀ x, ¬ c!"standalone" ++ x <+: skip t := fun x hx => ht ((List.prefix_append _ _).trans hx)
    exact standalone_none (hno c!"=\"") (hno c!"='")
  | @some gap v q h1 h2 h3 h4 h5 h6 =>
    have hS : skip (gap ++ c!"standalone" ++ '=' :: q :: v ++ [q] ++ t) = c!"standalone=" ++ q :: (v ++ q :: t) := by
      simp only [List.append_assoc]
      rw [skip_blank h1]
      simp only [List.cons_append, List.nil_append, List.append_assoc]
      exact skip_cons_not (by simp [White])
    refine ⟨t, ?_, rfl⟩
    rw [hS]
    unfold standalone
    have hi : inspectTwo (c!"standalone=" ++ q :: (v ++ q :: t)) c!"standalone=\"" c!"standalone='" = .yes (v ++ q :: t) := by
      rcases h3 with rfl | rfl
      · exact inspectTwo_first c!"standalone=\"" _ _
      · exact inspectTwo_second (a := c!"standalone=\"") (b := c!"standalone='") (by decide) (by simp)
    rw [hi]
    simp only
    rw [headerValue_src h3 h4 h5]
    simp only
    rcases hv with hv | hv | hv
    · cases hv
    · cases hv; rfl
    · cases hv; rfl

theorem declPart_skip {name part : List Char} {v : Option (List Char)} (h : Spec.Source.DeclPart name part v) (t : List Char) :
    skip (part ++ t) = skip t ∨ ∃ r, skip (part ++ t) = skip (name ++ r) := by
  cases h with
  | none => exact Or.inl rfl
  | some h1 _ _ _ _ _ =>
    right
    simp only [List.append_assoc]
    rw [skip_blank h1]
    exact ⟨_, rfl⟩

theorem xmlDecl_src {x : List Char} {e : Option (List Char)} {a : Bool} (h : Spec.Source.Decl x e a) (t : List Char) :
    ∃ y, x ++ t = c!"<?" ++ y ∧ xmlDecl y = .ok (e, a, t) := by
  cases h with
  | @mk b1 enc alone b2 q e a h1 h2 h3 h4 h5 h6 h7 =>
    have hend : skip (b2 ++ (c!"?>" ++ t)) = c!"?>" ++ t := by rw [skip_blank h7]; exact skip_cons_not (by simp [White])
    obtain ⟨s2, g3, g4⟩ := standalone_src h5 h6 (b2 ++ (c!"?>" ++ t)) (by rw [hend]; simp)
    obtain ⟨s1, g1, g2⟩ := encoding_src h4 (alone ++ (b2 ++ (c!"?>" ++ t))) (by
      rcases declPart_skip h5 (b2 ++ (c!"?>" ++ t)) with h | ⟨r, h⟩
      · rw [h, hend]; simp
      · rw [h]
        rw [show skip (c!"standalone" ++ r) = c!"standalone" ++ r from skip_cons_not (by simp [White])]
        simp)
    refine ⟨c!"xml" ++ (b1 ++ (c!"version=" ++ (q :: c!"1.0" ++ q :: (enc ++ (alone ++ (b2 ++ (c!"?>" ++ t))))))), by simp, ?_⟩
    unfold xmlDecl
    rw [eat_append]
    simp only
    rw [skip_blank h1, show ∀ z, skip (c!"version=" ++ z) = c!"version=" ++ z from fun z => skip_cons_not (by simp [White]), inspect_append]
    simp only [notZero]
    have hq : skip (q :: c!"1.0" ++ q :: (enc ++ (alone ++ (b2 ++ (c!"?>" ++ t))))) = q :: c!"1.0" ++ q :: (enc ++ (alone ++ (b2 ++ (c!"?>" ++ t)))) := by
      refine skip_cons_not ?_
      rcases h3 with rfl | rfl <;> simp [White]
    have hi : inspectTwo (q :: c!"1.0" ++ q :: (enc ++ (alone ++ (b2 ++ (c!"?>" ++ t))))) c!"\"1.0\"" c!"'1.0'" =
        .yes (enc ++ (alone ++ (b2 ++ (c!"?>" ++ t)))) := by
      rcases h3 with rfl | rfl
      · exact inspectTwo_first c!"\"1.0\"" _ _
      · exact inspectTwo_second (a := c!"\"1.0\"") (b := c!"'1.0'") (by decide) (by simp)
    rw [hq, hi]
    simp only
    rw [g1, Res.ok_bind]
    simp only [g2]
    rw [g3, Res.ok_bind]
    simp only [g4, hend]
    rw [eat_append]

/-! ### What comes before the root -/

theorem misc_head {m : List Char} {ls : List Leaf} (h : Misc m ls) : m = [] ∨ (∃ w r, White w ∧ m = w :: r) ∨ c!"<!--" <+: m ∨ c!"<?" <+: m := by
  induction h with
  | nil => exact Or.inl rfl
  | @blank t u ls hb _ ih =>
    cases t with
    | nil => exact ih
    | cons w t => exact Or.inr (Or.inl ⟨w, t ++ u, hb w (by simp), rfl⟩)
  | comment hc _ _ =>
    cases hc with
    | mk _ _ => exact Or.inr (Or.inr (Or.inl ⟨_, by simp only [List.append_assoc]; rfl⟩))
  | pi hp _ _ =>
    obtain ⟨r, rfl⟩ := instruction_lt hp
    exact Or.inr (Or.inr (Or.inr ⟨_, by simp only [List.append_assoc]; rfl⟩))

theorem misc_split {m : List Char} {ls : List Leaf} (h : Misc m ls) : ∃ m1 m2 ls1 ls2, m = m1 ++ m2 ∧ Misc m1 ls1 ∧ Misc m2 ls2 ∧
    (∀ l ∈ ls1, ∃ c, l = .comment c) ∧ instructions ls = instructions ls2 ∧ (m2 = [] ∨ c!"<?" <+: m2) := by
  induction h with
  | nil => exact ⟨[], [], [], [], rfl, .nil, .nil, fun _ h => by simp at h, rfl, Or.inl rfl⟩
  | blank hb _ ih =>
    obtain ⟨m1, m2, ls1, ls2, rfl, h2, h3, h4, h5, h6⟩ := ih
    exact ⟨_, m2, ls1, ls2, (List.append_assoc ..).symm, .blank hb h2, h3, h4, h5, h6⟩
  | @comment t u c ls hc _ ih =>
    obtain ⟨m1, m2, ls1, ls2, rfl, h2, h3, h4, h5, h6⟩ := ih
    refine ⟨_, m2, _, ls2, (List.append_assoc ..).symm, .comment hc h2, h3, ?_, ?_, h6⟩
    · intro l hl
      rcases List.mem_cons.1 hl with rfl | hl
      · exact ⟨_, rfl⟩
      · exact h4 l hl
    · rw [← h5]; rfl
  | @pi t u p ls hp hm _ =>
    obtain ⟨r, hr⟩ := instruction_lt hp
    refine ⟨[], t ++ u, [], _, rfl, .nil, .pi hp hm, fun _ h => by simp at h, rfl, Or.inr ?_⟩
    rw [hr, List.append_assoc]
    exact List.prefix_append _ _

theorem elem_head (e : Element) (hv : e.Valid) (s : List Char) : ∃ c r, e.chars ++ s = '<' :: c :: r ∧ NameChar c := by
  cases e with
  | empty name as gap =>
    obtain ⟨c, r, rfl, hc⟩ := name_char hv.1
    exact ⟨c, _, rfl, hc⟩
  | pair name as gap content gapEnd =>
    obtain ⟨c, r, rfl, hc⟩ := name_char hv.1
    exact ⟨c, _, rfl, hc⟩

theorem new_comments {ls : List Leaf} (h : ∀ l ∈ ls, ∃ c, l = .comment c) : St.new.addAll ls = St.new := by
  rw [addAll_none ls rfl]
  have : instructions ls = [] := by
    induction ls with
    | nil => rfl
    | cons l ls ih =>
      obtain ⟨c, rfl⟩ := h _ (List.mem_cons_self ..)
      exact ih (fun l hl => h l (by simp [hl]))
  rw [this]
  rfl

/-- The comments before the root, read while the declaration is. -/
theorem comments_header {m : List Char} {ls : List Leaf} (hm : Misc m ls) (hl : ∀ l ∈ ls, ∃ c, l = .comment c) {s : List Char}
    (hs : skip s = s) (hn : ¬ c!"<!--" <+: s) : comments false ((m ++ s).length + 1) St.new (m ++ s) = .ok (St.new, s) := by
  have main : (comments false ((m ++ s).length + 1) St.new (m ++ s)).Ends fun x => x = (St.new, s) := by
    refine comments_only hm hl ?_ _
    intro fuel
    rw [new_comments hl]
    cases fuel with
    | zero => trivial
    | succ fuel =>
      rw [comments_none (by rw [hs]; exact hn) (fun h => by cases h), hs]
      rfl
  obtain ⟨x, h1, h2⟩ := ends_sat main (comments_sat false _ _ _ (by omega))
  rw [h1, h2]

/-- What is left for the root: it does not matter which part of the comments was read before. -/
theorem misc_left {m : List Char} {ls : List Leaf} (hm : Misc m ls) (e : Element) (hv : e.Valid) (rest : List Char) :
    ∃ m2 ls2, comments false ((m ++ (e.chars ++ rest)).length + 1) St.new (m ++ (e.chars ++ rest)) = .ok (St.new, m2 ++ (e.chars ++ rest)) ∧
      Misc m2 ls2 ∧ instructions ls2 = instructions ls ∧ ¬ c!"<!" <+: m2 ++ (e.chars ++ rest) := by
  obtain ⟨m1, m2, ls1, ls2, rfl, h2, h3, h4, h5, h6⟩ := misc_split hm
  obtain ⟨c, r, hr, hc⟩ := elem_head e hv rest
  have hne : c ≠ '!' := by rintro rfl; exact hc.2 (by simp)
  have hno : ¬ c!"<!" <+: m2 ++ (e.chars ++ rest) := by
    rcases h6 with rfl | ⟨y, rfl⟩
    · rw [hr, List.nil_append, List.cons_prefix_cons]
      exact fun h => not_prefix_cons hne.symm h.2
    · simp
  have hsk : skip (m2 ++ (e.chars ++ rest)) = m2 ++ (e.chars ++ rest) := by
    rcases h6 with rfl | ⟨y, rfl⟩
    · rw [hr]; exact skip_lt _
    · exact skip_lt _
  refine ⟨m2, ls2, ?_, h3, h5.symm, hno⟩
  rw [List.append_assoc]
  exact comments_header h2 h4 hsk (fun h => hno ((show c!"<!" <+: c!"<!--" from ⟨c!"--", rfl⟩).trans h))

theorem getUntilRef_gt {d s : List Char} (hd : '>' ∉ d) : (getUntilRef [c!">"] (d ++ c!">" ++ s)).2 = s := by
  unfold getUntilRef
  rw [getUntil_mark (by decide) (upTo_char.2 hd)]
  simp only
  split <;> rfl

theorem doctype_no {s : List Char} (h : ¬ c!"<!" <+: s) : doctype St.new s = .ok (St.new, s) := by
  unfold doctype
  rw [eat_none.2 (fun g => h ((show c!"<!" <+: c!"<!DOCTYPE" from ⟨c!"DOCTYPE", rfl⟩).trans g))]

theorem doctype_src {d : List Char} (hd : '>' ∉ d) {m : List Char} {ls : List Leaf} (hm : Misc m ls) (e : Element) (hv : e.Valid) (rest : List Char) :
    ∃ m2 ls2, doctype St.new (c!"<!DOCTYPE" ++ d ++ c!">" ++ m ++ (e.chars ++ rest)) = .ok (St.new, m2 ++ (e.chars ++ rest)) ∧
      Misc m2 ls2 ∧ instructions ls2 = instructions ls := by
  obtain ⟨m2, ls2, h1, h2, h3, _⟩ := misc_left hm e hv rest
  refine ⟨m2, ls2, ?_, h2, h3⟩
  unfold doctype
  rw [show c!"<!DOCTYPE" ++ d ++ c!">" ++ m ++ (e.chars ++ rest) = c!"<!DOCTYPE" ++ (d ++ c!">" ++ (m ++ (e.chars ++ rest))) by simp, eat_append]
  simp only
  rw [getUntilRef_gt hd]
  exact h1

theorem skipBom_src {bom s : List Char} (hb : bom = [] ∨ bom = ['ï', '»', '¿']) (hs : ∀ c r, s = c :: r → c ≠ 'ï') : skipBom (bom ++ s) = s := by
  unfold skipBom
  rcases hb with rfl | rfl
  · rw [eat_none.2]
    · rfl
    · intro h
      obtain ⟨r, hr⟩ := h
      exact hs 'ï' _ hr.symm rfl
  · rw [eat_append]

theorem parseHeader_src {prolog : List Char} {en : Option (List Char)} {a : Bool} {pis : List PI} (hp : Spec.Source.Prolog prolog en a pis)
    {bom : List Char} (hb : bom = [] ∨ bom = ['ï', '»', '¿']) (e : Element) (hv : e.Valid) (rest : List Char) :
    ∃ m ls, parseHeader (bom ++ prolog ++ e.chars ++ rest) = .ok (en, a, St.new, m ++ (e.chars ++ rest)) ∧ Misc m ls ∧ instructions ls = pis := by
  obtain ⟨c, r, hr, hc⟩ := elem_head e hv rest
  have hc1 : c ≠ '!' := by rintro rfl; exact hc.2 (by simp)
  have hc2 : c ≠ '?' := by rintro rfl; exact hc.2 (by simp)
  have hcut : bom ++ prolog ++ e.chars ++ rest = bom ++ (prolog ++ (e.chars ++ rest)) := by simp
  rw [hcut]
  -- without a declaration
  have hnone : ∀ {s : List Char} {m : List Char} {ls : List Leaf}, 2 ≤ s.length → ¬ c!"<?" <+: s → skipBom (bom ++ s) = s → doctype St.new s = .ok (St.new, m ++ (e.chars ++ rest)) →
      Misc m ls → instructions ls = pis → ∃ m ls, parseHeader (bom ++ s) = .ok (none, false, St.new, m ++ (e.chars ++ rest)) ∧ Misc m ls ∧ instructions ls = pis := by
    intro s m ls hlen hno hsb hd hm hi
    refine ⟨m, ls, ?_, hm, hi⟩
    unfold parseHeader
    have hin : inspect s c!"<?" = .no := by
      unfold inspect
      rw [if_neg (by simp; omega), if_neg]
      rw [List.isPrefixOf_iff_prefix]; exact hno
    rw [hsb, hin]
    simp only [notZero]
    rw [hd]
    rfl
  -- with it
  have hsome : ∀ {x s : List Char} {m1 m : List Char} {ls1 ls : List Leaf}, Spec.Source.Decl x en a →
      comments false (s.length + 1) St.new s = .ok (St.new, m1) → doctype St.new m1 = .ok (St.new, m ++ (e.chars ++ rest)) →
      Misc m ls → instructions ls = pis → ∃ m ls, parseHeader (bom ++ (x ++ s)) = .ok (en, a, St.new, m ++ (e.chars ++ rest)) ∧ Misc m ls ∧ instructions ls = pis := by
    intro x s m1 m ls1 ls hx hcm hd hm hi
    refine ⟨m, ls, ?_, hm, hi⟩
    obtain ⟨y, h1, h2⟩ := xmlDecl_src hx s
    unfold parseHeader
    rw [h1, skipBom_src hb (by intro c r h; cases h; decide), inspect_append]
    simp only [notZero]
    rw [h2, Res.ok_bind]
    simp only
    rw [hcm, Res.ok_bind]
    simp only
    rw [hd]
    rfl
  cases hp with
  | @bare m ls hm hno =>
    have hhead := misc_head hm
    have hno2 : ¬ c!"<?" <+: prolog ++ (e.chars ++ rest) := by
      rw [hr]
      rcases hhead with rfl | ⟨w, z, hw, rfl⟩ | ⟨z, rfl⟩ | h
      · rw [List.nil_append, List.cons_prefix_cons]
        exact fun h => not_prefix_cons hc2.symm h.2
      · rw [List.cons_append]
        refine not_prefix_cons ?_
        rintro rfl
        rcases hw with h | h | h | h <;> cases h
      · simp
      · exact absurd h hno
    have hno3 : ¬ c!"<!DOCTYPE" <+: prolog ++ (e.chars ++ rest) := by
      rw [hr]
      rcases hhead with rfl | ⟨w, z, hw, rfl⟩ | ⟨z, rfl⟩ | h
      · rw [List.nil_append, List.cons_prefix_cons]
        exact fun h => not_prefix_cons hc1.symm h.2
      · rw [List.cons_append]
        refine not_prefix_cons ?_
        rintro rfl
        rcases hw with h | h | h | h <;> cases h
      · simp
      · exact absurd h hno
    refine hnone (by rw [hr]; simp; omega) hno2 (skipBom_src hb ?_) ?_ hm rfl
    · intro d z hz
      rw [hr] at hz
      rcases hhead with rfl | ⟨w, y, hw, rfl⟩ | ⟨y, rfl⟩ | h
      · cases hz; decide
      · cases hz
        rintro rfl
        rcases hw with h | h | h | h <;> cases h
      · cases hz; decide
      · exact absurd h hno
    · unfold doctype
      rw [eat_none.2 hno3]
  | @bareType d m ls hd hm =>
    obtain ⟨m2, ls2, h1, h2, h3⟩ := doctype_src hd hm e hv rest
    refine hnone (by simp) (by simp) (skipBom_src hb ?_) h1 h2 h3
    intro d z hz
    cases hz; decide
  | @decl x m _ _ ls hx hm =>
    obtain ⟨m2, ls2, h1, h2, h3, h4⟩ := misc_left hm e hv rest
    rw [List.append_assoc]
    exact hsome (ls1 := []) hx h1 (doctype_no h4) h2 h3
  | @declType x m d m' _ _ ls ls' hx hm hl hd hm' =>
    obtain ⟨m2, ls2, h1, h2, h3⟩ := doctype_src hd hm' e hv rest
    rw [show x ++ m ++ c!"<!DOCTYPE" ++ d ++ c!">" ++ m' ++ (e.chars ++ rest) = x ++ (m ++ (c!"<!DOCTYPE" ++ d ++ c!">" ++ m' ++ (e.chars ++ rest))) by simp]
    refine hsome (ls1 := []) hx (comments_header hm hl ?_ ?_) h1 h2 h3
    · simp only [List.append_assoc]
      exact skip_lt _
    · simp

/-- A document written as XML asks is read, and the tree is the one it stands for. -/
theorem parse_src {prolog : List Char} {en : Option (List Char)} {a : Bool} {pis : List PI} (hp : Spec.Source.Prolog prolog en a pis)
    {bom : List Char} (hb : bom = [] ∨ bom = ['ï', '»', '¿']) (e : Element) (hv : e.Valid) (rest : List Char) :
    ∃ d, parse (bom ++ prolog ++ e.chars ++ rest) = .ok d ∧ d.encoding = en ∧ d.standalone = a ∧ Sim [] e d.root ∧ d.pis = pis ∧ d.noValue = [] := by
  obtain ⟨m, ls, h1, h2, h3⟩ := parseHeader_src hp hb e hv rest
  obtain ⟨st', n, g1, g2, g3, g4, g5, g6⟩ := body_src (st := St.new) rfl h2 e rest hv
  refine ⟨⟨en, a, n, st'.pis, st'.noValue⟩, ?_, rfl, rfl, g4, ?_, g6⟩
  · unfold parse
    rw [h1, Res.ok_bind]
    simp only
    rw [← List.append_assoc, g1, Res.ok_bind]
    simp only [g2, g3]
    rfl
  · rw [g5, h3]; rfl

end Parse
end Axl
