/-
Proofs about `axl-knife --htmlize`.
-/
import Verif.Model.Htmlize
import Verif.Spec.Htmlize
import Verif.Proofs.Dump
import Verif.Proofs.StrEdit

namespace Axl
namespace Htmlize
open Str Spec.Str Spec.Dump Spec.Htmlize Dump Attrs

/-! ## Reading a page by pieces -/

theorem tagsOf_append : ∀ a b : List Tok, tagsOf (a ++ b) = tagsOf a ++ tagsOf b
  | [], _ => rfl
  | .tag t :: a, b => by simp [tagsOf, tagsOf_append a b]
  | .char c :: a, b => by simp [tagsOf, tagsOf_append a b]

theorem charsOf_append : ∀ a b : List Tok, charsOf (a ++ b) = charsOf a ++ charsOf b
  | [], _ => rfl
  | .tag t :: a, b => by simp [charsOf, charsOf_append a b]
  | .char c :: a, b => by simp [charsOf, charsOf_append a b]

theorem tagsOf_chars : ∀ s : List Char, tagsOf (s.map Tok.char) = []
  | [] => rfl
  | _ :: s => by simp [tagsOf, tagsOf_chars s]

theorem charsOf_chars : ∀ s : List Char, charsOf (s.map Tok.char) = s
  | [] => rfl
  | _ :: s => by simp [charsOf, charsOf_chars s]

theorem spans_append {a b : List (List Char)} (ha : Spans a) (hb : Spans b) : Spans (a ++ b) := by
  induction ha with
  | nil => exact hb
  | span hk _ ih => exact .span hk ih

/-- This part of a page is read as these tags and characters, whatever follows. -/
def Piece (a : List Char) (ts : List Tok) : Prop := ∀ r, scan none (a ++ r) = ts ++ scan none r

theorem Piece.append {a b : List Char} {s t : List Tok} (ha : Piece a s) (hb : Piece b t) : Piece (a ++ b) (s ++ t) := by
  intro r
  rw [List.append_assoc, ha, hb, List.append_assoc]

theorem piece_text : ∀ {s : List Char}, '<' ∉ s → Piece s (s.map Tok.char)
  | [], _ => fun _ => rfl
  | c :: s, h => by
    intro r
    simp only [List.mem_cons, not_or] at h
    simp only [List.cons_append, scan, if_neg (Ne.symm h.1), piece_text h.2 r, List.map_cons]

theorem scan_tag : ∀ (t acc r : List Char), '>' ∉ t → scan (some acc) (t ++ '>' :: r) = .tag (acc.reverse ++ t) :: scan none r
  | [], acc, r, _ => by simp [scan]
  | c :: t, acc, r, h => by
    simp only [List.mem_cons, not_or] at h
    simp only [List.cons_append, scan, if_neg (Ne.symm h.1), scan_tag t _ r h.2]
    simp

theorem piece_tag {t : List Char} (h : '>' ∉ t) : Piece ('<' :: (t ++ ['>'])) [.tag t] := by
  intro r
  have := scan_tag t [] r h
  simpa [scan] using this

/-- This text is shown as that one, whatever follows. -/
def Shows (a v : List Char) : Prop := ∀ r, references (a ++ r) = v ++ references r

theorem Shows.append {a b v w : List Char} (ha : Shows a v) (hb : Shows b w) : Shows (a ++ b) (v ++ w) := by
  intro r
  rw [List.append_assoc, ha, hb, List.append_assoc]

theorem references_cons {c : Char} (h : c ≠ '&') (r : List Char) : references (c :: r) = c :: references r := by
  rw [references] <;> (intros; contradiction)

theorem shows_text : ∀ {s : List Char}, '&' ∉ s → Shows s s
  | [], _ => fun _ => rfl
  | c :: s, h => by
    intro r
    simp only [List.mem_cons, not_or] at h
    rw [List.cons_append, references_cons (Ne.symm h.1), shows_text h.2 r, List.cons_append]

theorem shows_lt : Shows c!"&lt;" c!"<" := fun _ => rfl
theorem shows_gt : Shows c!"&gt;" c!">" := fun _ => rfl

theorem norm_append (a b : List Char) : norm (a ++ b) = norm a ++ norm b := by simp [norm]

/-! ## What is printed -/

/-- A text printed without tags; if `ok`, what it shows is `text`. -/
structure IsText (out : List Char) (ok : Prop) (text : List Char) : Prop where
  noTag : '<' ∉ out
  shows : ok → ∃ v, Shows out v ∧ norm v = norm text

theorem IsText.append {a b x y : List Char} {p q : Prop} (ha : IsText a p x) (hb : IsText b q y) :
    IsText (a ++ b) (p ∧ q) (x ++ y) := by
  refine ⟨by simp [ha.noTag, hb.noTag], fun ⟨hp, hq⟩ => ?_⟩
  obtain ⟨v, h1, h2⟩ := ha.shows hp
  obtain ⟨w, h3, h4⟩ := hb.shows hq
  exact ⟨v ++ w, h1.append h3, by rw [norm_append, norm_append, h2, h4]⟩

theorem IsText.of {a x y : List Char} {p q : Prop} (ha : IsText a p x) (hpq : q → p) (hxy : q → norm x = norm y) : IsText a q y :=
  ⟨ha.noTag, fun hq => let ⟨v, h1, h2⟩ := ha.shows (hpq hq); ⟨v, h1, h2.trans (hxy hq)⟩⟩

theorem isText_plain {s : List Char} (h : '<' ∉ s) : IsText s ('&' ∉ s) s := ⟨h, fun h' => ⟨s, shows_text h', rfl⟩⟩

/-- A part of the page: what it has of tags are spans and, if `ok`, what it shows is `text`. -/
def IsPart (out : List Char) (ok : Prop) (text : List Char) : Prop :=
  ∃ ts, Piece out ts ∧ Spans (tagsOf ts) ∧ (ok → ∃ v, Shows (charsOf ts) v ∧ norm v = norm text)

theorem IsPart.append {a b x y : List Char} {p q : Prop} (ha : IsPart a p x) (hb : IsPart b q y) :
    IsPart (a ++ b) (p ∧ q) (x ++ y) := by
  obtain ⟨s, h1, h2, h3⟩ := ha
  obtain ⟨t, g1, g2, g3⟩ := hb
  refine ⟨s ++ t, h1.append g1, by rw [tagsOf_append]; exact spans_append h2 g2, fun ⟨hp, hq⟩ => ?_⟩
  obtain ⟨v, e1, e2⟩ := h3 hp
  obtain ⟨w, e3, e4⟩ := g3 hq
  exact ⟨v ++ w, by rw [charsOf_append]; exact e1.append e3, by rw [norm_append, norm_append, e2, e4]⟩

theorem IsPart.of {a x y : List Char} {p q : Prop} (ha : IsPart a p x) (hpq : q → p) (hxy : q → norm x = norm y) : IsPart a q y := by
  obtain ⟨s, h1, h2, h3⟩ := ha
  exact ⟨s, h1, h2, fun hq => let ⟨v, g1, g2⟩ := h3 (hpq hq); ⟨v, g1, g2.trans (hxy hq)⟩⟩

theorem IsText.part {a x : List Char} {p : Prop} (h : IsText a p x) : IsPart a p x :=
  ⟨a.map .char, piece_text h.noTag, by rw [tagsOf_chars]; exact .nil, by rw [charsOf_chars]; exact h.shows⟩

theorem isPart_nil : IsPart [] True [] := (isText_plain (s := []) (by simp)).part.of (by simp) (fun _ => rfl)

/-- A span. -/
theorem IsText.span {a x k : List Char} {p : Prop} (h : IsText a p x)
    (hk : k ∈ [c!"node", c!"attrvalue", c!"comment", c!"cdata"]) :
    IsPart (c!"<span class=\"" ++ (k ++ (c!"\">" ++ (a ++ c!"</span>")))) p x := by
  have hgt : '>' ∉ c!"span class=\"" ++ k ++ c!"\"" := by
    simp only [List.mem_cons, List.not_mem_nil, or_false] at hk
    rcases hk with rfl | rfl | rfl | rfl <;> decide
  have h1 := piece_tag hgt
  have h2 := piece_text h.noTag
  have h3 : Piece c!"</span>" [.tag c!"/span"] := piece_tag (t := c!"/span") (by decide)
  have e : c!"<span class=\"" ++ (k ++ (c!"\">" ++ (a ++ c!"</span>"))) =
      ('<' :: (c!"span class=\"" ++ k ++ c!"\"" ++ ['>'])) ++ (a ++ c!"</span>") := by simp
  refine ⟨_, e ▸ h1.append (h2.append h3), ?_, ?_⟩
  · rw [tagsOf_append, tagsOf_append, tagsOf_chars]
    exact .span hk .nil
  · rw [charsOf_append, charsOf_append, charsOf_chars]
    intro hp
    obtain ⟨v, g1, g2⟩ := h.shows hp
    exact ⟨v, by simpa [charsOf] using g1, g2⟩

/-! ## Texts -/

/-- One character replaced by a text. -/
def put (p : Char) (rep : List Char) (s : List Char) : List Char := s.flatMap fun c => if c = p then rep else [c]

theorem rewrites_put (p : Char) (rep : List Char) : ∀ s : List Char, Rewrites [p] rep s (put p rep s)
  | [] => .nil
  | c :: s => by
    have ih := rewrites_put p rep s
    by_cases h : c = p
    · subst h
      have := Rewrites.occurrence (pat := [c]) (rep := rep) (by simp) ih
      simpa [put] using this
    · have := Rewrites.other (c := c) (pat := [p]) (rep := rep) (t := s) (Or.inr (by simp [Ne.symm h])) ih
      simpa [put, h] using this

theorem replace_put (p : Char) (rep s : List Char) : replace s [p] rep = some (put p rep s, ((put p rep s).length : Int)) := by
  obtain ⟨out, h1, h2⟩ := replace_spec s [p] rep
  rw [h1, rewrites_unique h2 (rewrites_put p rep s)]

/-- What `__translate_content` gives. -/
def esc (s : List Char) : List Char := put '>' c!"&gt;" (put '<' c!"&lt;" s)

theorem translate_eq (s : List Char) : translate s = some (esc (toStr s)) := by
  simp [translate, replace_put, esc]

theorem put_append (p : Char) (rep a b : List Char) : put p rep (a ++ b) = put p rep a ++ put p rep b := by simp [put]

theorem esc_cons (c : Char) (s : List Char) :
    esc (c :: s) = (if c = '<' then c!"&lt;" else if c = '>' then c!"&gt;" else [c]) ++ esc s := by
  unfold esc
  rw [show c :: s = [c] ++ s from rfl, put_append, put_append]
  congr 1
  by_cases h : c = '<'
  · subst h; rfl
  · by_cases h' : c = '>'
    · subst h'; rfl
    · simp [put, h, h']

theorem isText_esc : ∀ s : List Char, IsText (esc s) ('&' ∉ s) s
  | [] => ⟨by simp [esc, put], fun _ => ⟨[], fun _ => rfl, rfl⟩⟩
  | c :: s => by
    have ih := isText_esc s
    rw [esc_cons]
    have h1 : IsText (if c = '<' then c!"&lt;" else if c = '>' then c!"&gt;" else [c]) ('&' ≠ c) [c] := by
      split
      · next h => subst h; exact ⟨by decide, fun _ => ⟨_, shows_lt, rfl⟩⟩
      · next h =>
        split
        · next h => subst h; exact ⟨by decide, fun _ => ⟨_, shows_gt, rfl⟩⟩
        · exact (isText_plain (s := [c]) (by simp [Ne.symm h])).of (by simp) (fun _ => rfl)
    exact (h1.append ih).of (by simp) (fun _ => rfl)

theorem toStr_id {s : List Char} (h : NUL ∉ s) : toStr s = s := by
  unfold toStr
  induction s with
  | nil => rfl
  | cons c s ih =>
    simp only [List.mem_cons, not_or] at h
    rw [List.takeWhile_cons, ih h.2, if_pos (by simpa using Ne.symm h.1)]

/-- White space is not compared. -/
theorem isText_white {s : List Char} (h : ∀ c ∈ s, c = ' ' ∨ c = '\n') : IsText s True [] := by
  refine (isText_plain (s := s) ?_).of (fun _ => ?_) (fun _ => ?_)
  · intro hm; rcases h _ hm with e | e <;> exact absurd e (by decide)
  · intro hm; rcases h _ hm with e | e <;> exact absurd e (by decide)
  · show norm s = []
    unfold norm
    rw [List.map_eq_nil_iff, List.filter_eq_nil_iff]
    intro c hc
    rcases h c hc with rfl | rfl <;> decide

theorem indentation_white : ∀ level, ∀ c ∈ indentation level, c = ' ' ∨ c = '\n'
  | 0 => by simp [indentation]
  | n + 1 => by
    intro c hc
    simp only [indentation, List.mem_append, List.mem_cons, List.not_mem_nil, or_false, or_self] at hc
    rcases hc with h | h
    · exact .inl h
    · exact indentation_white n c h

theorem isText_indent (level : Nat) : IsText (indentation level) True [] := isText_white (indentation_white level)

/-! ## Attributes -/

/-- The attributes in the order of the cursor. -/
def cursorOrder : Order := fun a =>
  match a.ptr with
  | .list l => l.map kv
  | .hash h => tablePairs h

theorem oneAttribute_eq {c : AttrCursor} {k v : List Char} (hk : c.getKey = some (some k)) (hv : c.getValue = some (some v)) :
    oneAttribute c = some (k ++ (c!"=<span class=\"attrvalue\">\"" ++ (v ++ c!"\"</span> "))) := by
  simp [oneAttribute, hk, hv]

/-- Names and values without this character. -/
def PairsWithout (c : Char) (qs : List (List Char × List Char)) : Prop := ∀ p ∈ qs, c ∉ p.1 ∧ c ∉ p.2

theorem norm_attr (k v : List Char) : norm (k ++ (c!"=" ++ (c!"\"" ++ v ++ c!"\""))) = norm (attrText (k, v)) := by
  have hq : ∀ q : Char, q = '\'' ∨ q = '"' → norm [q] = ['"'] := by rintro q (rfl | rfl) <;> rfl
  have : attrText (k, v) = [' '] ++ (k ++ (c!"=" ++ ([if '\'' ∈ v then '"' else '\''] ++ (v ++ [if '\'' ∈ v then '"' else '\''])))) := by
    simp [attrText]
  rw [this]
  simp only [norm_append]
  rw [hq (if '\'' ∈ v then '"' else '\'') (by split <;> simp)]
  simp [norm]

theorem isPart_attr {k v : List Char} (hk : '<' ∉ k) (hv : '<' ∉ v) :
    IsPart (k ++ (c!"=<span class=\"attrvalue\">\"" ++ (v ++ c!"\"</span> "))) ('&' ∉ k ∧ '&' ∉ v) (attrText (k, v)) := by
  have h1 := (isText_plain hk).part
  have h2 := (isText_plain (s := c!"=") (by decide)).part
  have h3 : IsText (c!"\"" ++ v ++ c!"\"") ('&' ∉ v) (c!"\"" ++ v ++ c!"\"") :=
    (isText_plain (s := c!"\"" ++ v ++ c!"\"") (by simp [hv])).of (by simp) (fun _ => rfl)
  have h4 := h3.span (k := c!"attrvalue") (by decide)
  have h5 := (isText_white (s := c!" ") (by simp)).part
  have h6 := (h1.append (h2.append (h4.append h5)))
  have e : k ++ (c!"=" ++ (c!"<span class=\"" ++ (c!"attrvalue" ++ (c!"\">" ++ (c!"\"" ++ v ++ c!"\"" ++ c!"</span>"))) ++ c!" ")) =
      k ++ (c!"=<span class=\"attrvalue\">\"" ++ (v ++ c!"\"</span> ")) := by simp
  rw [e] at h6
  exact h6.of (fun ⟨a, b⟩ => ⟨a, by decide, b, trivial⟩) (fun _ => by rw [List.append_nil]; exact norm_attr k v)

theorem between_white (skip : Bool) (level : Nat) (name : List Char) : ∀ c ∈ between skip level name, c = ' ' ∨ c = '\n' := by
  intro c hc
  simp only [between, List.mem_append] at hc
  rcases hc with h | h | h
  · cases skip
    · exact .inr (by simpa using h)
    · exact absurd h (by simp)
  · exact indentation_white level c h
  · exact .inl (List.eq_of_mem_replicate h)

theorem few_spec {qs : List (List Char × List Char)} {c : AttrCursor} (hr : AttrCursor.Reads c qs) :
    ∀ fuel, qs.length < fuel → ∃ t, fewAttributes fuel c = some t ∧
      (PairsWithout '<' qs → IsPart t (PairsWithout '&' qs) (qs.flatMap attrText)) := by
  induction hr with
  | done h =>
    intro fuel hf
    cases fuel with
    | zero => cases hf
    | succ fuel => exact ⟨[], by simp [fewAttributes, h], fun _ => isPart_nil.of (fun _ => trivial) (fun _ => rfl)⟩
  | item h hk hv hn hx hr ih =>
    intro fuel hf
    cases fuel with
    | zero => cases hf
    | succ fuel =>
      obtain ⟨t, h1, h2⟩ := ih fuel (by simpa using hf)
      refine ⟨_, by simp only [fewAttributes, h, oneAttribute_eq hk hv, hx, h1, Option.bind_eq_bind, Option.bind_some]; rfl, ?_⟩
      intro hw
      have g1 := hw _ (List.mem_cons_self ..)
      refine ((isPart_attr g1.1 g1.2).append (h2 fun p hp => hw p (List.mem_cons_of_mem _ hp))).of ?_ (fun _ => rfl)
      intro hq
      exact ⟨hq _ (List.mem_cons_self ..), fun p hp => hq p (List.mem_cons_of_mem _ hp)⟩

theorem reads_hasItem {qs : List (List Char × List Char)} {c : AttrCursor} (hr : AttrCursor.Reads c qs) :
    ∃ b, c.hasItem = some b := by
  cases hr with
  | done h => exact ⟨_, h⟩
  | item h => exact ⟨_, h⟩

theorem many_spec (skip : Bool) (level : Nat) (name : List Char) {qs : List (List Char × List Char)} {c : AttrCursor}
    (hr : AttrCursor.Reads c qs) :
    ∀ fuel, qs.length < fuel → ∃ t, manyAttributes skip level name fuel c = some t ∧
      (PairsWithout '<' qs → IsPart t (PairsWithout '&' qs) (qs.flatMap attrText)) := by
  induction hr with
  | done h =>
    intro fuel hf
    cases fuel with
    | zero => cases hf
    | succ fuel => exact ⟨[], by simp [manyAttributes, h], fun _ => isPart_nil.of (fun _ => trivial) (fun _ => rfl)⟩
  | item h hk hv hn hx hr ih =>
    intro fuel hf
    cases fuel with
    | zero => cases hf
    | succ fuel =>
      obtain ⟨t, h1, h2⟩ := ih fuel (by simpa using hf)
      obtain ⟨b, hb⟩ := reads_hasItem hr
      refine ⟨_, by simp only [manyAttributes, h, oneAttribute_eq hk hv, hx, hb, h1, Option.bind_eq_bind, Option.bind_some]; rfl, ?_⟩
      intro hw
      have g1 := hw _ (List.mem_cons_self ..)
      have g2 : IsPart (if b then between skip level name else []) True [] := by
        cases b
        · exact isPart_nil
        · exact (isText_white (between_white skip level name)).part
      refine ((isPart_attr g1.1 g1.2).append (g2.append (h2 fun p hp => hw p (List.mem_cons_of_mem _ hp)))).of ?_ (fun _ => rfl)
      intro hq
      exact ⟨hq _ (List.mem_cons_self ..), trivial, fun p hp => hq p (List.mem_cons_of_mem _ hp)⟩

theorem num_eq {a : Attrs} {ps : List (List Char × List Char)} (hr : Rep a ps) : a.numAttributes = some ps.length := by
  obtain ⟨num, ptr⟩ := a
  obtain ⟨-, hr⟩ := hr
  cases ptr with
  | list l =>
    obtain ⟨h1, h2, h3⟩ := hr
    have := h3.length_eq
    simp only [List.length_map] at this
    simp only at h1
    rw [numAttributes, if_pos (by simp only; omega)]
    simp only [Option.some.injEq]; omega
  | hash h =>
    obtain ⟨h1, h2, h3⟩ := hr
    simp only at h2
    have := h1.items
    rw [numAttributes, if_neg (by simp only; omega)]
    simp only [Option.some.injEq]; omega

theorem reads_unique {c : AttrCursor} {ps : List (List Char × List Char)} (h : AttrCursor.Reads c ps) :
    ∀ {qs : List (List Char × List Char)}, AttrCursor.Reads c qs → ps = qs := by
  induction h with
  | done h =>
    intro qs h'
    cases h' with
    | done => rfl
    | item g => rw [h] at g; cases g
  | item h hk hv _ hx _ ih =>
    intro qs h'
    cases h' with
    | done g => rw [h] at g; cases g
    | item g gk gv _ gx gr =>
      rw [hk] at gk; rw [hv] at gv; rw [hx] at gx
      cases gk; cases gv; cases gx
      rw [ih gr]

theorem cursorOrder_reads {a : Attrs} (h : a.Made) : ∃ c, AttrCursor.new a = some c ∧ AttrCursor.Reads c (cursorOrder a) ∧
    a.Lists (cursorOrder a) ∧ a.numAttributes = some (cursorOrder a).length := by
  obtain ⟨ps, hr⟩ := made_rep h
  clear h
  obtain ⟨qs, h1, ⟨c, h2, h3⟩, -, h4⟩ := AttrCursor.rep_cursor hr
  have e : qs = cursorOrder a := by
    have hr' := hr
    obtain ⟨num, ptr⟩ := a
    obtain ⟨hd, hr⟩ := hr
    cases ptr with
    | list l =>
      obtain ⟨g1, g2, g3⟩ := hr
      simp only at g1
      have hle : num ≤ 10 := by omega
      have hc : c = ⟨⟨num, .list l⟩, num, .list l⟩ := by simpa [AttrCursor.new, hle] using h2.symm
      subst hc
      exact reads_unique h3 (AttrCursor.reads_list _ hle l)
    | hash h =>
      obtain ⟨g1, g2, g3⟩ := hr
      simp only at g2
      have hne : (⟨num, .hash h⟩ : Attrs).hasAttributes = true := rfl
      unfold Attrs.foreach at h4
      simp only [hne, Bool.not_true, Bool.false_eq_true, if_false] at h4
      rw [if_neg (by omega), g1.foreachAll] at h4
      have h5 := Option.some.inj h4
      exact ((List.map_inj_right (by rintro ⟨a, b⟩ ⟨c, d⟩ h; simpa [sp] using h)).1 h5).symm
  subst e
  refine ⟨c, h2, h3, rep_lists hr h1, ?_⟩
  rw [num_eq hr, h1.length_eq]

theorem attributes_spec (skip : Bool) (level : Nat) (name : List Char) {a : Attrs} (h : a.Made) :
    ∃ t, attributes skip level name a = some t ∧
      (PairsWithout '<' (cursorOrder a) → IsPart t (PairsWithout '&' (cursorOrder a)) ((cursorOrder a).flatMap attrText)) := by
  obtain ⟨c, h1, h2, h3, h4⟩ := cursorOrder_reads h
  simp only [attributes, h1, h4, Option.bind_eq_bind, Option.bind_some]
  split
  · exact few_spec h2 _ (Nat.lt_succ_self _)
  · exact many_spec skip level name h2 _ (Nat.lt_succ_self _)

/-! ## Nodes -/

theorem cursorOrder_nil {a : Attrs} (h : a.hasAttributes = false) : cursorOrder a = [] := by
  obtain ⟨num, ptr⟩ := a
  cases ptr with
  | list l =>
    rw [hasAttributes_list] at h
    cases l with
    | nil => rfl
    | cons _ _ => simp at h
  | hash _ => cases h

theorem isPart_name {name pre post : List Char} (h : '<' ∉ name) (hp : '<' ∉ pre) (hq : '<' ∉ post) :
    IsPart (c!"&lt;" ++ (pre ++ (c!"<span class=\"node\">" ++ (name ++ (c!"</span>" ++ post)))))
      ('&' ∉ name ∧ '&' ∉ pre ∧ '&' ∉ post) (c!"<" ++ pre ++ name ++ post) := by
  have h1 : IsText c!"&lt;" True c!"<" := ⟨by decide, fun _ => ⟨_, shows_lt, rfl⟩⟩
  have h2 := (isText_plain h).span (k := c!"node") (by decide)
  have h3 := h1.part.append ((isText_plain hp).part.append (h2.append (isText_plain hq).part))
  have e : c!"&lt;" ++ (pre ++ (c!"<span class=\"" ++ (c!"node" ++ (c!"\">" ++ (name ++ c!"</span>"))) ++ post)) =
      c!"&lt;" ++ (pre ++ (c!"<span class=\"node\">" ++ (name ++ (c!"</span>" ++ post)))) := by simp
  rw [e] at h3
  exact h3.of (fun ⟨a, b, c⟩ => ⟨trivial, b, a, c⟩) (fun _ => by simp)

theorem leaf_spec (level : Nat) (l : Leaf) : ∃ t, leaf level l = some t ∧ IsPart t (LeafShown l) (leafText .plain level l) := by
  cases l with
  | content s =>
    refine ⟨_, translate_eq s, ?_⟩
    refine (isText_esc (toStr s)).part.of ?_ ?_
    · rintro ⟨h, hn⟩; rw [toStr_id hn]; exact h
    · rintro ⟨h, hn⟩; rw [toStr_id hn]; rfl
  | cdata s =>
    refine ⟨_, by simp [leaf, translate_eq]; rfl, ?_⟩
    have h1 : IsText c!"&lt;![CDATA[" True c!"<![CDATA[" :=
      ⟨by decide, fun _ => ⟨_, shows_lt.append (shows_text (s := c!"![CDATA[") (by decide)), rfl⟩⟩
    have h2 := h1.span (k := c!"cdata") (by decide)
    have h3 := (isText_plain (s := c!"]]>") (by decide)).span (k := c!"cdata") (by decide)
    have h4 := h2.append ((isText_esc (toStr s)).part.append h3)
    refine (show IsPart _ _ _ from ?_)
    refine IsPart.of (p := True ∧ '&' ∉ toStr s ∧ '&' ∉ c!"]]>") (x := c!"<![CDATA[" ++ (toStr s ++ c!"]]>")) ?_ ?_ ?_
    · simpa using h4
    · rintro ⟨h, hn⟩; rw [toStr_id hn]; exact ⟨trivial, h, by decide⟩
    · rintro ⟨h, hn⟩; rw [toStr_id hn]; rfl
  | comment s =>
    refine ⟨_, by simp [leaf, translate_eq]; rfl, ?_⟩
    have h1 : IsText c!"&lt;!-- " True c!"<!-- " :=
      ⟨by decide, fun _ => ⟨_, shows_lt.append (shows_text (s := c!"!-- ") (by decide)), rfl⟩⟩
    have h2 := h1.append ((isText_esc (toStr s)).append (isText_plain (s := c!" -->") (by decide)))
    have h3 := h2.span (k := c!"comment") (by decide)
    have h4 := (isText_indent (level + 1)).part.append (h3.append (isText_white (s := c!"\n") (by simp)).part)
    refine IsPart.of (p := True ∧ (True ∧ '&' ∉ toStr s ∧ '&' ∉ c!" -->") ∧ True)
      (x := [] ++ (c!"<!-- " ++ (toStr s ++ c!" -->") ++ [])) ?_ ?_ ?_
    · simpa using h4
    · rintro ⟨h, hn⟩; rw [toStr_id hn]; exact ⟨trivial, ⟨trivial, h, by decide⟩, trivial⟩
    · rintro ⟨h, hn⟩
      rw [toStr_id hn]
      show _ = norm ([] ++ commentText s ++ [])
      simp only [commentText, norm_append, List.append_nil, List.nil_append]
      have e1 : norm (if s.head? = some ' ' then [] else [' ']) = [] := by split <;> rfl
      have e2 : norm (if s.getLast? = some ' ' then [] else [' ']) = [] := by split <;> rfl
      rw [e1, e2, List.append_nil, List.append_nil]
      rw [List.append_assoc]
      rfl
  | pi p => exact ⟨[], rfl, isPart_nil.of (fun _ => trivial) (fun h => h.elim)⟩
  | ref s => exact ⟨[], rfl, isPart_nil.of (fun _ => trivial) (fun h => h.elim)⟩

theorem blocks_or_texts : ∀ {i : Items}, ItemsShowable i → i ≠ .nil → hasBlocks i ∨ hasTexts i
  | .nil, _, h => absurd rfl h
  | .node _ _, _, _ => .inl trivial
  | .leaf (.content _) _, _, _ => .inr (.inl trivial)
  | .leaf (.cdata _) _, _, _ => .inr (.inl trivial)
  | .leaf (.comment _) _, _, _ => .inl (.inl trivial)
  | .leaf (.pi _) _, h, _ => h.1.elim
  | .leaf (.ref _) _, h, _ => h.1.elim

theorem finish_spec {level : Nat} {name : List Char} {items : Items} (h : '<' ∉ name) (hi : noItem items = false) :
    IsPart (finish level name items) ('&' ∉ name) (c!"</" ++ name ++ c!">") := by
  have h1 : IsPart (if items.haveChilds then indentation level else []) True [] := by
    split
    · exact (isText_indent level).part
    · exact isPart_nil
  have h2 := isPart_name (pre := c!"/") (post := c!">\n") h (by decide) (by decide)
  have h3 := h1.append h2
  unfold finish
  rw [hi]
  refine IsPart.of (p := True ∧ '&' ∉ name ∧ '&' ∉ c!"/" ∧ '&' ∉ c!">\n") (x := [] ++ (c!"<" ++ c!"/" ++ name ++ c!">\n")) ?_ ?_ ?_
  · simpa using h3
  · exact fun h => ⟨trivial, h, by decide, by decide⟩
  · intro _
    simp only [norm_append]
    rfl

theorem finish_empty (level : Nat) (name : List Char) : finish level name .nil = [] := rfl

theorem noItem_iff {items : Items} : noItem items = true ↔ items = .nil := by
  cases items <;> simp [noItem]

theorem nodeText_plain (level : Nat) (name : List Char) (attrs : Attrs) (items : Items) (hs : ItemsShowable items) (hi : items ≠ .nil) :
    nodeText cursorOrder .plain level (.mk name attrs items) =
      c!"<" ++ name ++ (cursorOrder attrs).flatMap attrText ++ c!">" ++ itemsText cursorOrder .plain level items ++ (c!"</" ++ name ++ c!">") := by
  rw [nodeText]
  by_cases hb : hasBlocks items
  · simp [hb, Layout.pad, Layout.line]
  · have := (blocks_or_texts hs hi).resolve_left hb
    simp [hb, this, Layout.pad, Layout.line]

theorem nodeText_empty (level : Nat) (name : List Char) (attrs : Attrs) :
    nodeText cursorOrder .plain level (.mk name attrs .nil) = c!"<" ++ name ++ (cursorOrder attrs).flatMap attrText ++ c!" />" := by
  rw [nodeText]
  simp [hasBlocks, hasTexts, Layout.pad, Layout.line]

theorem enter_part (skip : Bool) : IsPart (if skip then [] else c!"\n") True [] := by
  cases skip
  · exact (isText_white (s := c!"\n") (by simp)).part
  · exact isPart_nil

mutual
theorem node_spec (skip : Bool) : ∀ (level : Nat) (n : Node), Without '<' n → ∃ t, node skip level n = some t ∧
    IsPart t (Without '&' n ∧ Showable n) (nodeText cursorOrder .plain level n)
  | level, .mk name attrs items, h => by
    obtain ⟨hm, hn, hq, hi⟩ := h
    obtain ⟨b, hb, hb'⟩ := chain_spec skip level items hi
    have hl := (cursorOrder_reads hm)
    obtain ⟨-, -, -, hl, -⟩ := hl
    rw [node]
    by_cases ha : attrs.hasAttributes = true
    · obtain ⟨t, ht, ht'⟩ := attributes_spec skip level name hm
      have ht' := ht' (hq _ hl)
      have hst : ∀ close : List Char, '<' ∉ close → IsPart (c!"&lt;<span class=\"node\">" ++ (name ++ (c!"</span> " ++ (t ++ (close ++ if skip then [] else c!"\n")))))
          ('&' ∉ name ∧ PairsWithout '&' (cursorOrder attrs) ∧ '&' ∉ close) (c!"<" ++ name ++ (cursorOrder attrs).flatMap attrText ++ close) := by
        intro close hc
        have h1 := isPart_name (pre := []) (post := c!" ") hn (by simp) (by decide)
        have h2 := h1.append (ht'.append ((isText_plain hc).part.append (enter_part skip)))
        refine IsPart.of (p := _) (x := _) (by simpa using h2) ?_ ?_
        · intro ⟨g1, g2, g3⟩
          simp [g1, g2, g3]
        · intro _
          simp only [norm_append]
          simp [norm]
      rw [if_pos ha, start, ht]
      cases hi' : noItem items with
      | true =>
        obtain rfl := noItem_iff.1 hi'
        simp only [Option.bind_eq_bind, Option.bind_some, Option.pure_def, if_true]
        refine ⟨_, rfl, ?_⟩
        refine ((isText_indent level).part.append (hst c!"/>" (by decide))).of ?_ ?_
        · rintro ⟨⟨-, g1, g2, -⟩, -⟩
          exact ⟨trivial, g1, g2 _ hl, by decide⟩
        · intro _
          rw [nodeText_empty]
          simp only [norm_append]
          rfl
      | false =>
        simp only [Option.bind_eq_bind, Option.bind_some, Option.pure_def, Bool.false_eq_true, if_false, hb]
        refine ⟨_, rfl, ?_⟩
        refine ((isText_indent level).part.append ((hst c!">" (by decide)).append (hb'.append (finish_spec hn hi')))).of ?_ ?_
        · rintro ⟨⟨-, g1, g2, g3⟩, -, g5⟩
          exact ⟨trivial, ⟨g1, g2 _ hl, by decide⟩, ⟨g3, g5⟩, g1⟩
        · rintro ⟨⟨-, g1, g2, g3⟩, -, g5⟩
          rw [nodeText_plain _ _ _ _ g5 (fun e => by rw [noItem_iff.2 e] at hi'; cases hi')]
          simp only [norm_append, List.append_assoc]
          rfl
    · have ha' : attrs.hasAttributes = false := by simpa using ha
      rw [if_neg ha, hb]
      simp only [Option.bind_eq_bind, Option.bind_some, Option.pure_def]
      refine ⟨_, rfl, ?_⟩
      have h1 := isPart_name (pre := []) (post := c!">") hn (by simp) (by decide)
      have h2 : IsPart (if items.haveChilds && !skip then c!"\n" else []) True [] := by
        split
        · exact (isText_white (s := c!"\n") (by simp)).part
        · exact isPart_nil
      have h3 : IsPart (startPlain skip name items) ('&' ∉ name) (c!"<" ++ name ++ c!">") := by
        refine IsPart.of (p := _) (x := _) (by simpa [startPlain] using h1.append h2) ?_ ?_
        · intro g; simp [g]
        · intro _; simp
      cases hi' : noItem items with
      | true =>
        obtain rfl := noItem_iff.1 hi'
        rw [finish_empty]
        refine ((isText_indent level).part.append (h3.append (hb'.append isPart_nil))).of ?_ ?_
        · rintro ⟨-, h, -⟩; rcases h with h | h
          · exact absurd h ha
          · exact absurd rfl h
        · rintro ⟨-, h, -⟩; rcases h with h | h
          · exact absurd h ha
          · exact absurd rfl h
      | false =>
        refine ((isText_indent level).part.append (h3.append (hb'.append (finish_spec hn hi')))).of ?_ ?_
        · rintro ⟨⟨-, g1, g2, g3⟩, -, g5⟩
          exact ⟨trivial, g1, ⟨g3, g5⟩, g1⟩
        · rintro ⟨⟨-, g1, g2, g3⟩, -, g5⟩
          rw [nodeText_plain _ _ _ _ g5 (fun e => by rw [noItem_iff.2 e] at hi'; cases hi'), cursorOrder_nil ha']
          simp
theorem chain_spec (skip : Bool) : ∀ (level : Nat) (i : Items), ItemsWithout '<' i → ∃ t, chain skip level i = some t ∧
    IsPart t (ItemsWithout '&' i ∧ ItemsShowable i) (itemsText cursorOrder .plain level i)
  | level, .nil, _ => ⟨[], by rw [chain], isPart_nil.of (fun _ => trivial) (fun _ => by rw [itemsText])⟩
  | level, .node n next, h => by
    obtain ⟨h1, h2⟩ := h
    obtain ⟨t, g1, g2⟩ := node_spec skip (level + 1) n h1
    obtain ⟨r, g3, g4⟩ := chain_spec skip level next h2
    refine ⟨t ++ r, by rw [chain, g1, g3]; rfl, (g2.append g4).of ?_ ?_⟩
    · rintro ⟨⟨a, b⟩, c, d⟩; exact ⟨⟨a, c⟩, b, d⟩
    · intro _; rw [itemsText]
  | level, .leaf l next, h => by
    obtain ⟨t, g1, g2⟩ := leaf_spec level l
    obtain ⟨r, g3, g4⟩ := chain_spec skip level next h
    refine ⟨t ++ r, by rw [chain, g1, g3]; rfl, (g2.append g4).of ?_ ?_⟩
    · rintro ⟨b, c, d⟩; exact ⟨c, b, d⟩
    · intro _; rw [itemsText]
end

end Htmlize
end Axl
