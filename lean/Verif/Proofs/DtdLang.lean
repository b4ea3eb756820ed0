/-
Facts about the languages of content models, and about positions in the list of children.
-/
import Verif.Spec.DtdContent

namespace Axl.Dtd

/-- Induction over particles and lists of them. -/
theorem Part.ind {P : Part → Prop} {Q : List Part → Prop}
    (node : ∀ t n, P (.node t n)) (list : ∀ k t items, Q items → P (.list k t items))
    (nil : Q []) (cons : ∀ p ps, P p → Q ps → Q (p :: ps)) : (∀ p, P p) ∧ ∀ ps, Q ps :=
  ⟨fun p => Part.rec (motive_1 := P) (motive_2 := Q) node list nil cons p,
   fun ps => Part.rec_1 (motive_1 := P) (motive_2 := Q) node list nil cons ps⟩

/-- The children from `i` to `j` are `u`. -/
def Span (w : Word) (i j : Nat) (u : Word) : Prop :=
  ∃ x y, w = x ++ (u ++ y) ∧ x.length = i ∧ i + u.length = j

theorem Span.le {w : Word} {i j : Nat} {u : Word} (h : Span w i j u) : i ≤ j ∧ j ≤ w.length := by
  obtain ⟨x, y, rfl, rfl, rfl⟩ := h
  simp only [List.length_append]
  omega

theorem Span.refl {w : Word} {i : Nat} (h : i ≤ w.length) : Span w i i [] :=
  ⟨w.take i, w.drop i, by simp, by simp [h], rfl⟩

theorem Span.trans {w : Word} {i j k : Nat} {u v : Word} (h : Span w i j u) (g : Span w j k v) :
    Span w i k (u ++ v) := by
  obtain ⟨x, y, rfl, rfl, rfl⟩ := h
  obtain ⟨x', y', e, hx, rfl⟩ := g
  rw [← List.append_assoc] at e
  obtain ⟨e1, e2⟩ := List.append_inj e (by simp [hx])
  exact ⟨x, y', by rw [e2]; simp, rfl, by simp [Nat.add_assoc]⟩

theorem Span.one {w : Word} {i : Nat} {c : List Char} (h : w[i]? = some c) : Span w i (i + 1) [c] := by
  have hi : i < w.length := by
    rcases Nat.lt_or_ge i w.length with h' | h'
    · exact h'
    · rw [List.getElem?_eq_none h'] at h; exact absurd h (by simp)
  refine ⟨w.take i, w.drop (i + 1), ?_, by simp; omega, rfl⟩
  rw [List.getElem?_eq_getElem hi] at h
  injection h with h
  subst h
  simp

theorem Span.nil_of_eq {w : Word} {i : Nat} {u : Word} (h : Span w i i u) : u = [] := by
  obtain ⟨x, y, -, -, e⟩ := h
  exact List.eq_nil_of_length_eq_zero (by omega)

theorem Span.all {w u : Word} (h : Span w 0 w.length u) : u = w := by
  obtain ⟨x, y, e, hx, hl⟩ := h
  have := List.eq_nil_of_length_eq_zero hx
  subst this
  rw [List.nil_append] at e
  have hy : y.length = 0 := by rw [e, List.length_append] at hl; omega
  rw [List.eq_nil_of_length_eq_zero hy, List.append_nil] at e
  exact e.symm

theorem drop_cons {w : Word} {i : Nat} {c : List Char} {r : Word} (h : w.drop i = c :: r) :
    w[i]? = some c ∧ w.drop (i + 1) = r ∧ i < w.length := by
  refine ⟨?_, ?_, ?_⟩
  · have := congrArg List.head? h
    simpa [List.head?_drop] using this
  · have := congrArg List.tail h
    simpa [List.tail_drop] using this
  · rcases Nat.lt_or_ge i w.length with h' | h'
    · exact h'
    · rw [List.drop_eq_nil_of_le h'] at h; exact absurd h (by simp)

theorem drop_of_get {w : Word} {i : Nat} {c : List Char} (h : w[i]? = some c) :
    w.drop i = c :: w.drop (i + 1) ∧ i < w.length := by
  have hi : i < w.length := by
    rcases Nat.lt_or_ge i w.length with h' | h'
    · exact h'
    · rw [List.getElem?_eq_none h'] at h; exact absurd h (by simp)
  rw [List.getElem?_eq_getElem hi] at h
  injection h with h
  exact ⟨by rw [← h]; simp, hi⟩

theorem drop_nil {w : Word} {i : Nat} (h : w.drop i = []) : w.length ≤ i := by
  simpa using h

/-! ### Languages -/

theorem star_append {L : Word → Prop} {u v : Word} (hu : Star L u) (hv : Star L v) : Star L (u ++ v) := by
  induction hu with
  | nil => exact hv
  | cons h _ ih => rw [List.append_assoc]; exact .cons h ih

theorem star_one {L : Word → Prop} {u : Word} (h : L u) : Star L u := by
  have := Star.cons h (.nil (L := L))
  rwa [List.append_nil] at this

theorem rep_of {L : Word → Prop} {u : Word} (t : Times) (h : L u) : Rep L t u := by
  cases t with
  | one => exact h
  | opt => exact .inr h
  | many => exact star_one h
  | some1 => exact ⟨u, [], (List.append_nil u).symm, h, .nil⟩

theorem rep_nil {L : Word → Prop} {t : Times} (h : t.optional = true) : Rep L t [] := by
  cases t with
  | one => exact absurd h (by decide)
  | opt => exact .inl rfl
  | many => exact .nil
  | some1 => exact absurd h (by decide)

theorem star_nil_or {L : Word → Prop} {u : Word} (h : Star L u) :
    u = [] ∨ ∃ a b, u = a ++ b ∧ a ≠ [] ∧ L a ∧ Star L b := by
  induction h with
  | nil => exact .inl rfl
  | @cons a b ha hb ih =>
    cases a with
    | nil => exact ih
    | cons c a => exact .inr ⟨c :: a, b, rfl, by simp, ha, hb⟩

theorem rep_nil_iff {L : Word → Prop} {t : Times} : Rep L t [] ↔ t.optional = true ∨ L [] := by
  constructor
  · intro h
    cases t with
    | one => exact .inr h
    | opt => exact .inl rfl
    | many => exact .inl rfl
    | some1 =>
      obtain ⟨u, v, e, hu, -⟩ := h
      have := (List.append_eq_nil_iff.1 e.symm).1
      exact .inr (this ▸ hu)
  · rintro (h | h)
    · exact rep_nil h
    · exact rep_of t h

theorem seqLang_nil : SeqLang [] = fun w => w = [] := by
  funext w; simp [SeqLang]

/-- `nullable` says whether the empty sequence is described. -/
theorem nullable_all : (∀ p : Part, p.nullable = true ↔ p.Lang []) ∧
    ∀ ps : List Part, (allNullable ps = true ↔ SeqLang ps []) ∧ (anyNullable ps = true ↔ AltLang ps []) := by
  apply Part.ind
  · intro t n
    rw [Part.nullable, Part.Lang, rep_nil_iff]
    simp
  · intro k t items ih
    rw [Part.nullable, Part.Lang, rep_nil_iff, Bool.or_eq_true]
    split
    · rw [ih.1]
    · rw [ih.2]
  · simp [allNullable, anyNullable, SeqLang, AltLang]
  · intro p ps hp ih
    refine ⟨?_, ?_⟩
    · rw [allNullable, Bool.and_eq_true, hp, ih.1, SeqLang]
      constructor
      · rintro ⟨a, b⟩
        exact ⟨[], [], rfl, a, b⟩
      · rintro ⟨u, v, e, a, b⟩
        obtain ⟨rfl, rfl⟩ := List.append_eq_nil_iff.1 e.symm
        exact ⟨a, b⟩
    · rw [anyNullable, Bool.or_eq_true, hp, ih.2, AltLang]

theorem nullable_iff (p : Part) : p.nullable = true ↔ p.Lang [] := nullable_all.1 p

theorem allNullable_iff (ps : List Part) : allNullable ps = true ↔ SeqLang ps [] := (nullable_all.2 ps).1

theorem seqLang_append {ps qs : List Part} {u v : Word} (h : SeqLang ps u) (g : SeqLang qs v) :
    SeqLang (ps ++ qs) (u ++ v) := by
  induction ps generalizing u with
  | nil => rw [SeqLang] at h; subst h; exact g
  | cons p ps ih =>
    rw [SeqLang] at h
    obtain ⟨a, b, rfl, ha, hb⟩ := h
    rw [List.cons_append, SeqLang]
    exact ⟨a, b ++ v, by simp, ha, ih hb⟩

/-! ### The greatest number of children -/

theorem star_one_of {n : List Char} {k : Nat} : Star (fun w => w = [n]) (List.replicate k n) := by
  induction k with
  | zero => exact .nil
  | succ k ih => rw [List.replicate_succ]; exact .cons (u := [n]) rfl ih

theorem most_all : (∀ (p : Part) (m : Nat) (w : Word), p.most = some m → p.Lang w → w.length ≤ m) ∧
    ∀ ps : List Part, (∀ (m : Nat) (w : Word), seqMost ps = some m → SeqLang ps w → w.length ≤ m) ∧
      ∀ (m : Nat) (w : Word), altMost ps = some m → AltLang ps w → w.length ≤ m := by
  apply Part.ind
  · intro t n m w h hl
    cases t <;> simp only [Part.most, Part.Lang, Rep, Option.some.injEq, reduceCtorEq] at h hl
    · subst h; subst hl; simp
    · subst h
      rcases hl with rfl | rfl <;> simp
  · intro k t items ih m w h hl
    have key : ∀ {m : Nat} {w : Word}, (if k = .seq then seqMost items else altMost items) = some m →
        (if k = .seq then SeqLang items else AltLang items) w → w.length ≤ m := by
      intro m w h hl
      split at h
      · rw [if_pos ‹_›] at hl; exact ih.1 m w h hl
      · rw [if_neg ‹_›] at hl; exact ih.2 m w h hl
    cases t <;> simp only [Part.most, Part.Lang, Rep, reduceCtorEq] at h hl
    · exact key h hl
    · rcases hl with rfl | hl
      · simp
      · exact key h hl
  · refine ⟨fun m w h hl => ?_, fun m w _ hl => ?_⟩
    · rw [SeqLang] at hl; subst hl; simp
    · rw [AltLang] at hl; exact hl.elim
  · intro p ps hp ih
    refine ⟨fun m w h hl => ?_, fun m w h hl => ?_⟩
    · rw [seqMost] at h
      split at h
      · injection h with h
        rw [SeqLang] at hl
        obtain ⟨u, v, rfl, hu, hv⟩ := hl
        have := hp _ _ ‹_› hu
        have := ih.1 _ _ ‹_› hv
        rw [List.length_append]; omega
      · exact absurd h (by simp)
    · rw [altMost] at h
      split at h
      · injection h with h
        rw [AltLang] at hl
        rcases hl with hl | hl
        · have := hp _ _ ‹_› hl; omega
        · have := ih.2 _ _ ‹_› hl; omega
      · exact absurd h (by simp)

theorem most_le {p : Part} {m : Nat} {w : Word} (h : p.most = some m) (hl : p.Lang w) : w.length ≤ m :=
  most_all.1 p m w h hl

end Axl.Dtd
