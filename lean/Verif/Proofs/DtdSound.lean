/-
The matcher accepts only words of the content model, for the models of the class `exact`.
-/
import Verif.Proofs.DtdLang

namespace Axl.Dtd

variable {fuel : Nat} {w : Word}

/-! ### The loops -/

theorem itemList_nested (fuel num : Nat) (k : Kind) (t : Times) (s c : Nat → Option (Bool × Nat)) (i : Nat) :
    itemList fuel num k t false s c i = itemListTimes fuel k t s c i := by
  unfold itemList
  cases itemListTimes fuel k t s c i with
  | none => rfl
  | some r =>
    obtain ⟨b, p⟩ := r
    cases b <;> simp

theorem restOptional_eq (t : Times) (ps : List Part) : restOptional t ps = (t.optional || ps.isEmpty) := by
  induction ps with
  | nil => simp [restOptional]
  | cons p ps ih =>
    rw [restOptional]
    cases h : t.optional
    · simp
    · simp [ih, h]

theorem repeatSeq_quiet {body : Nat → Option (Bool × Nat)} (hq : ∀ i j, body i = some (false, j) → j = i) :
    ∀ (f i j : Nat), repeatSeq body f i ≠ some (false, j)
  | 0, i, j => by simp [repeatSeq]
  | f + 1, i, j => by
    rw [repeatSeq]
    split
    · simp
    · exact repeatSeq_quiet hq f _ _
    · rename_i p h
      have := hq _ _ h
      subst this
      simp

theorem repeatChoice_true {body : Nat → Option (Bool × Nat)} :
    ∀ (f i j : Nat), repeatChoice body f i ≠ some (false, j)
  | 0, i, j => by simp [repeatChoice]
  | f + 1, i, j => by
    rw [repeatChoice]
    split
    · simp
    · exact repeatChoice_true f _ _
    · simp

theorem repeatSeq_sound {body : Nat → Option (Bool × Nat)} {L : Word → Prop}
    (hs : ∀ i j, i ≤ w.length → body i = some (true, j) → ∃ u, Span w i j u ∧ L u) :
    ∀ (f i j : Nat), i ≤ w.length → repeatSeq body f i = some (true, j) →
      ∃ u, Span w i j u ∧ Star L u ∧ (i = j ∨ Rep L .some1 u)
  | 0, i, j, _, h => by simp [repeatSeq] at h
  | f + 1, i, j, hi, h => by
    rw [repeatSeq] at h
    split at h
    · simp at h
    · rename_i p hb
      obtain ⟨u, hsp, hu⟩ := hs _ _ hi hb
      obtain ⟨v, hsp', hv, -⟩ := repeatSeq_sound hs f p j hsp.le.2 h
      exact ⟨u ++ v, hsp.trans hsp', .cons hu hv, .inr ⟨u, v, rfl, hu, hv⟩⟩
    · split at h
      · simp at h
      · rename_i hp
        injection h with h; injection h with _ h
        have : i = j := by omega
        subst this
        exact ⟨[], .refl hi, .nil, .inl rfl⟩

theorem repeatChoice_sound {body : Nat → Option (Bool × Nat)} {L : Word → Prop}
    (hs : ∀ i j, i ≤ w.length → body i = some (true, j) → ∃ u, Span w i j u ∧ L u)
    (hq : ∀ i j, body i = some (false, j) → j = i) :
    ∀ (f i j : Nat), i ≤ w.length → repeatChoice body f i = some (true, j) →
      ∃ u, Span w i j u ∧ Star L u ∧ (i = j ∨ Rep L .some1 u)
  | 0, i, j, _, h => by simp [repeatChoice] at h
  | f + 1, i, j, hi, h => by
    rw [repeatChoice] at h
    split at h
    · simp at h
    · rename_i p hb
      obtain ⟨u, hsp, hu⟩ := hs _ _ hi hb
      obtain ⟨v, hsp', hv, -⟩ := repeatChoice_sound hs hq f p j hsp.le.2 h
      exact ⟨u ++ v, hsp.trans hsp', .cons hu hv, .inr ⟨u, v, rfl, hu, hv⟩⟩
    · rename_i p hb
      injection h with h; injection h with _ h
      have := hq _ _ hb
      have : i = j := by omega
      subst this
      exact ⟨[], .refl hi, .nil, .inl rfl⟩

theorem manyLoop_span (n : List Char) : ∀ (r : Word) (i : Nat), w.drop i = r → i ≤ w.length →
    ∃ k, Span w i (manyLoop n r i) (List.replicate k n)
  | [], i, _, hi => ⟨0, by rw [manyLoop]; exact .refl hi⟩
  | c :: r, i, hr, hi => by
    obtain ⟨hc, hr', hi'⟩ := drop_cons hr
    rw [manyLoop]
    split
    · rename_i e
      subst e
      obtain ⟨k, hk⟩ := manyLoop_span c r (i + 1) hr' hi'
      exact ⟨k + 1, by rw [List.replicate_succ]; exact (Span.one hc).trans hk⟩
    · exact ⟨0, .refl hi⟩

/-! ### Failures that consume nothing -/

/-- The call of `__axl_dtd_validate_item_list` for a nested list. -/
def nested (fuel : Nat) (w : Word) (k : Kind) (t : Times) (items : List Part) (pos : Nat) : Option (Bool × Nat) :=
  itemList fuel w.length k t false (seqLoop fuel w items t false) (choiceStart w (choiceLoop fuel w items)) pos

theorem nested_eq (k : Kind) (t : Times) (items : List Part) (i : Nat) :
    nested fuel w k t items i =
      itemListTimes fuel k t (seqLoop fuel w items t false) (choiceStart w (choiceLoop fuel w items)) i :=
  itemList_nested ..

theorem seqItem_list {k : Kind} {t : Times} {items rest : List Part} {i : Nat} :
    seqItem fuel w (.list k t items) rest i =
      if w.length ≤ i then some (atEnd (.list k t items) rest false i)
      else match nested fuel w k t items i with
        | none => none
        | some (false, p) => some (.stop false p)
        | some (true, p) => some (.next p) := by
  rw [seqItem]; rfl

theorem choiceItem_list {k : Kind} {t : Times} {items : List Part} {c : List Char} {i : Nat} :
    choiceItem fuel w (.list k t items) c i = nested fuel w k t items i := by
  rw [choiceItem]; rfl

/-- What a match of an alternative that is a name consumes. -/
def nodeTakes (w : Word) (n : List Char) (i : Nat) : Times → Nat
  | .one => i + 1
  | .opt => i + 1
  | .many => manyLoop n (w.drop (i + 1)) (i + 1)
  | .some1 => manyLoop n (w.drop (i + 1)) (i + 1)

theorem choiceItem_node {t : Times} {n c : List Char} {i : Nat} :
    choiceItem fuel w (.node t n) c i = if c = n then some (true, nodeTakes w n i t) else some (false, i) := by
  rw [choiceItem.eq_def]
  cases t <;> rfl

theorem atEnd_stop_false {it : Part} {rest : List Part} {m : Bool} {i j : Nat}
    (h : atEnd it rest m i = .stop false j) : j = i ∧ it.times.optional = false := by
  unfold atEnd at h
  split at h
  · split at h <;> simp at h
  · rw [restOptional_eq] at h
    injection h with h1 h2
    exact ⟨h2.symm, by simpa using h1⟩

theorem nodeLoop_stop_false {t : Times} {n : List Char} {rest : List Part} :
    ∀ (r : Word) (i j : Nat) (m : Bool), nodeLoop t n rest r i m = .stop false j →
      t.optional = false ∧ (m = false → j = i)
  | [], i, j, m, h => by
    rw [nodeLoop] at h
    have := atEnd_stop_false h
    exact ⟨this.2, fun _ => this.1⟩
  | c :: r, i, j, m, h => by
    rw [nodeLoop.eq_def] at h
    dsimp only at h
    cases t with
    | one =>
      dsimp only at h
      split at h
      · simp at h
      · injection h with _ h
        exact ⟨rfl, fun _ => h.symm⟩
    | opt =>
      dsimp only at h
      split at h <;> simp at h
    | many =>
      dsimp only at h
      split at h
      · exact absurd (nodeLoop_stop_false r _ _ _ h).1 (by decide)
      · simp at h
    | some1 =>
      dsimp only at h
      split at h
      · exfalso
        revert h
        generalize i + 1 = i'
        clear m
        intro h
        have : ∀ (r : Word) (i : Nat), nodeLoop .some1 n rest r i true ≠ .stop false j := by
          intro r
          induction r with
          | nil =>
            intro i h
            rw [nodeLoop, atEnd.eq_def] at h
            simp only [Part.times, decide_true, Bool.and_self, if_true] at h
            split at h <;> simp at h
          | cons c r ih =>
            intro i h
            rw [nodeLoop.eq_def] at h
            dsimp only at h
            split at h
            · exact ih _ h
            · simp at h
        exact this r i' h
      · split at h
        · simp at h
        · injection h with _ h
          exact ⟨rfl, fun _ => h.symm⟩

theorem choiceStart_false {loop : List Char → Nat → Option (Bool × Nat)} {i j : Nat}
    (hl : ∀ c, loop c i = some (false, j) → j = i) (h : choiceStart w loop i = some (false, j)) : j = i := by
  unfold choiceStart at h
  split at h
  · injection h with h; injection h with _ h; exact h.symm
  · exact hl _ h

theorem quiet_all : (∀ p : Part,
      (p.quiet = true → ∀ rest i j, seqItem fuel w p rest i = some (.stop false j) → j = i) ∧
      (p.quiet = true → ∀ c i j, choiceItem fuel w p c i = some (false, j) → j = i) ∧
      (p.sure = true → ∀ rest i j, seqItem fuel w p rest i ≠ some (.stop false j))) ∧
    ∀ ps : List Part,
      (seqQuiet ps = true → ∀ lt i j, seqLoop fuel w ps lt false i = some (false, j) → j = i) ∧
      (altQuiet ps = true → ∀ c i j, choiceLoop fuel w ps c i = some (false, j) → j = i) ∧
      (allSure ps = true → ∀ lt i j, seqLoop fuel w ps lt false i ≠ some (false, j)) := by
  apply Part.ind
  · intro t n
    refine ⟨fun _ rest i j h => ?_, fun _ c i j h => ?_, fun hs rest i j h => ?_⟩
    · rw [seqItem] at h
      injection h with h
      exact (nodeLoop_stop_false _ _ _ _ h).2 rfl
    · rw [choiceItem_node] at h
      split at h
      · simp at h
      · injection h with h; injection h with _ h; exact h.symm
    · rw [seqItem] at h
      injection h with h
      have := (nodeLoop_stop_false _ _ _ _ h).1
      rw [Part.sure] at hs
      rw [hs] at this
      exact absurd this (by decide)
  · intro k t items ih
    have hn : (Part.list k t items).quiet = true → ∀ i j, nested fuel w k t items i = some (false, j) → j = i := by
      intro hq i j h
      rw [nested_eq] at h
      rw [Part.quiet] at hq
      unfold itemListTimes at h
      by_cases hk : k = .seq
      · simp only [if_pos hk] at h hq
        have hb := ih.1 hq t
        cases t with
        | one => exact hb i j h
        | opt => exact hb i j h
        | many => exact absurd h (repeatSeq_quiet hb _ _ _)
        | some1 => exact absurd h (repeatSeq_quiet hb _ _ _)
      · simp only [if_neg hk] at h hq
        cases t with
        | one =>
          simp only [ne_eq, not_true_eq_false, decide_false, Bool.false_or] at hq
          exact choiceStart_false (fun c => ih.2.1 hq c i j) h
        | opt =>
          dsimp only at h
          split at h <;> simp at h
        | many => exact absurd h (repeatChoice_true _ _ _)
        | some1 => exact absurd h (repeatChoice_true _ _ _)
    refine ⟨fun hq rest i j h => ?_, fun hq c i j h => ?_, fun hs rest i j h => ?_⟩
    · rw [seqItem_list] at h
      split at h
      · injection h with h
        exact (atEnd_stop_false h).1
      · split at h
        · simp at h
        · rename_i p hp
          injection h with h; injection h with _ h
          subst h
          exact hn hq _ _ hp
        · simp at h
    · rw [choiceItem_list] at h
      exact hn hq _ _ h
    · rw [Part.sure, Bool.and_eq_true] at hs
      rw [seqItem_list] at h
      split at h
      · injection h with h
        have := (atEnd_stop_false h).2
        rw [Part.times, hs.1] at this
        exact absurd this (by decide)
      · split at h
        · simp at h
        · rename_i p hp
          rw [nested_eq] at hp
          unfold itemListTimes at hp
          by_cases hk : k = .seq
          · simp only [if_pos hk] at hp hs
            have hs2 := hs.2
            rw [Bool.and_eq_true, decide_eq_true_eq] at hs2
            obtain ⟨rfl, hs2⟩ := hs2
            exact absurd hp (repeatSeq_quiet (ih.1 hs2 _) _ _ _)
          · simp only [if_neg hk] at hp
            cases t with
            | one => exact absurd hs.1 (by decide)
            | opt =>
              dsimp only at hp
              split at hp <;> simp at hp
            | many => exact absurd hp (repeatChoice_true _ _ _)
            | some1 => exact absurd hs.1 (by decide)
        · simp at h
  · refine ⟨fun _ lt i j h => ?_, fun _ c i j h => ?_, fun _ lt i j h => ?_⟩
    · rw [seqLoop] at h
      simp at h
    · rw [choiceLoop] at h
      injection h with h; injection h with _ h; exact h.symm
    · rw [seqLoop] at h
      simp at h
  · intro p ps hp ih
    refine ⟨fun hq lt i j h => ?_, fun hq c i j h => ?_, fun hs lt i j h => ?_⟩
    · rw [seqQuiet, Bool.and_eq_true] at hq
      rw [seqLoop] at h
      split at h
      · simp at h
      · exact absurd h (ih.2.2 hq.2 _ _ _)
      · rename_i b p' hi
        injection h with h; injection h with h1 h2
        subst h1; subst h2
        exact hp.1 hq.1 _ _ _ hi
    · rw [altQuiet, Bool.and_eq_true] at hq
      rw [choiceLoop] at h
      split at h
      · simp at h
      · simp at h
      · rename_i p' hi
        have := hp.2.1 hq.1 _ _ _ hi
        subst this
        exact ih.2.1 hq.2 _ _ _ h
    · rw [allSure, Bool.and_eq_true] at hs
      rw [seqLoop] at h
      split at h
      · simp at h
      · exact absurd h (ih.2.2 hs.2 _ _ _)
      · rename_i b p' hi
        injection h with h; injection h with h1 h2
        subst h1
        exact absurd hi (hp.2.2 hs.1 _ _ _)

/-! ### Accepted words -/

/-- What an item of a sequence did is a word of it. -/
def StepSound (w : Word) (fin : Bool) (p : Part) (rest : List Part) (i : Nat) : Step → Prop
  | .next j => ∃ u, Span w i j u ∧ ((fin = true → j = w.length) → p.Lang u)
  | .stop true j => ∃ u, Span w i j u ∧ j = w.length ∧ p.Lang u ∧
      (rest = [] ∨ p.times.optional = true ∧ (i = j ∨ ∃ n, p = .node .many n))
  | .stop false _ => True

theorem atEnd_sound {fin : Bool} {p : Part} {rest : List Part} {i : Nat} (hi : i = w.length) :
    StepSound w fin p rest i (atEnd p rest false i) := by
  unfold atEnd
  simp only [Bool.and_false, if_neg Bool.false_ne_true]
  rw [restOptional_eq]
  cases h : p.times.optional with
  | false => simp [StepSound]
  | true =>
    refine ⟨[], .refl (by omega), hi, ?_, .inr ⟨h, .inl rfl⟩⟩
    cases p with
    | node t n => exact rep_nil h
    | list k t items => exact rep_nil h

theorem nodeLoop_many {n : List Char} {rest : List Part} {fin : Bool} :
    ∀ (r : Word) (i0 i k : Nat) (m : Bool), w.drop i = r → i ≤ w.length → Span w i0 i (List.replicate k n) →
      StepSound w fin (.node .many n) rest i0 (nodeLoop .many n rest r i m)
  | [], i0, i, k, m, hr, hi, hs => by
    have := drop_nil hr
    rw [nodeLoop, atEnd.eq_def]
    simp only [Part.times, reduceCtorEq, decide_false, Bool.false_and, if_neg Bool.false_ne_true]
    rw [restOptional_eq]
    exact ⟨_, hs, by omega, star_one_of, .inr ⟨rfl, .inr ⟨n, rfl⟩⟩⟩
  | c :: r, i0, i, k, m, hr, hi, hs => by
    obtain ⟨hc, hr', hi'⟩ := drop_cons hr
    rw [nodeLoop.eq_def]
    dsimp only
    split
    · rename_i e
      subst e
      have := hs.trans (Span.one hc)
      rw [← List.replicate_succ'] at this
      exact nodeLoop_many r i0 (i + 1) _ true hr' hi' this
    · exact ⟨_, hs, fun _ => star_one_of⟩

theorem nodeLoop_some1 {n : List Char} {rest : List Part} {fin : Bool} :
    ∀ (r : Word) (i0 i k : Nat) (m : Bool), w.drop i = r → i ≤ w.length → Span w i0 i (List.replicate k n) →
      (m = true ↔ 0 < k) →
      StepSound w fin (.node .some1 n) rest i0 (nodeLoop .some1 n rest r i m)
  | [], i0, i, k, m, hr, hi, hs, hm => by
    have := drop_nil hr
    rw [nodeLoop, atEnd.eq_def]
    cases m with
    | false =>
      simp only [Bool.and_false, if_neg Bool.false_ne_true]
      rw [restOptional_eq]
      simp [StepSound, Part.times, Times.optional]
    | true =>
      have hk : 0 < k := hm.1 rfl
      have hl : (Part.node .some1 n).Lang (List.replicate k n) := by
        obtain ⟨k, rfl⟩ : ∃ k', k = k' + 1 := ⟨k - 1, by omega⟩
        rw [List.replicate_succ]
        exact ⟨[n], _, rfl, rfl, star_one_of⟩
      simp only [Part.times, decide_true, Bool.and_self, if_true]
      split
      · exact ⟨_, hs, by omega, hl, .inl rfl⟩
      · exact ⟨_, hs, fun _ => hl⟩
  | c :: r, i0, i, k, m, hr, hi, hs, hm => by
    obtain ⟨hc, hr', hi'⟩ := drop_cons hr
    rw [nodeLoop.eq_def]
    dsimp only
    split
    · rename_i e
      subst e
      have := hs.trans (Span.one hc)
      rw [← List.replicate_succ'] at this
      exact nodeLoop_some1 r i0 (i + 1) _ true hr' hi' this (by simp)
    · split
      · rename_i hm'
        have hk : 0 < k := hm.1 hm'
        obtain ⟨k, rfl⟩ : ∃ k', k = k' + 1 := ⟨k - 1, by omega⟩
        rw [List.replicate_succ] at hs
        exact ⟨_, hs, fun _ => ⟨[n], _, rfl, rfl, star_one_of⟩⟩
      · trivial

theorem nodeLoop_sound {t : Times} {n : List Char} {rest : List Part} {fin : Bool} {i : Nat} (hi : i ≤ w.length) :
    StepSound w fin (.node t n) rest i (nodeLoop t n rest (w.drop i) i false) := by
  cases t with
  | many => exact nodeLoop_many _ i i 0 false rfl hi (.refl hi)
  | some1 => exact nodeLoop_some1 _ i i 0 false rfl hi (.refl hi) (by simp)
  | one =>
    cases hr : w.drop i with
    | nil =>
      rw [nodeLoop]
      exact atEnd_sound (by have := drop_nil hr; omega)
    | cons c r =>
      obtain ⟨hc, -, -⟩ := drop_cons hr
      rw [nodeLoop.eq_def]
      dsimp only
      split
      · rename_i e
        subst e
        exact ⟨_, .one hc, fun _ => rfl⟩
      · trivial
  | opt =>
    cases hr : w.drop i with
    | nil =>
      rw [nodeLoop]
      exact atEnd_sound (by have := drop_nil hr; omega)
    | cons c r =>
      obtain ⟨hc, -, -⟩ := drop_cons hr
      rw [nodeLoop.eq_def]
      dsimp only
      split
      · rename_i e
        subst e
        exact ⟨_, .one hc, fun _ => .inr rfl⟩
      · exact ⟨_, .refl hi, fun _ => .inl rfl⟩

theorem initQuiet_of_alt {ps : List Part} (h : altQuiet ps = true) : initQuiet ps = true := by
  induction ps with
  | nil => rfl
  | cons p ps ih =>
    rw [altQuiet, Bool.and_eq_true] at h
    rw [initQuiet, Bool.and_eq_true, Bool.or_eq_true]
    exact ⟨.inr h.1, ih h.2⟩

theorem choiceItem_node_sound {t : Times} {n c : List Char} {i j : Nat} (hc : w[i]? = some c)
    (h : choiceItem fuel w (.node t n) c i = some (true, j)) : ∃ u, Span w i j u ∧ (Part.node t n).Lang u := by
  rw [choiceItem_node] at h
  split at h
  · rename_i e
    subst e
    have h1 := Span.one hc
    obtain ⟨k, hk⟩ := manyLoop_span (w := w) c _ (i + 1) rfl h1.le.2
    have hp := h1.trans hk
    cases t with
    | one =>
      injection h with h; injection h with _ h; subst h
      exact ⟨_, h1, rfl⟩
    | opt =>
      injection h with h; injection h with _ h; subst h
      exact ⟨_, h1, .inr rfl⟩
    | many =>
      injection h with h; injection h with _ h; subst h
      exact ⟨_, hp, .cons rfl star_one_of⟩
    | some1 =>
      injection h with h; injection h with _ h; subst h
      exact ⟨_, hp, _, _, rfl, rfl, star_one_of⟩
  · simp at h

/-- From the sequence or the choice to the list with its repetition. -/
theorem times_sound {k : Kind} {t : Times} {items : List Part} {fin : Bool} {s c : Nat → Option (Bool × Nat)}
    {i j : Nat}
    (hs : k = .seq → ∀ i' j, ((t = .one || t = .opt) = true → i' = i) → i' ≤ w.length → s i' = some (true, j) →
      ∃ u, Span w i' j u ∧ (((fin && (t = .one || t = .opt)) = true → j = w.length) → SeqLang items u))
    (hc : k ≠ .seq → ∀ i j, i ≤ w.length → c i = some (true, j) →
      ∃ u, Span w i j u ∧ (((fin && (t = .one || t = .opt)) = true → j = w.length) → AltLang items u))
    (hq : k ≠ .seq → t ≠ .one → ∀ i j, c i = some (false, j) → j = i) (hi : i ≤ w.length)
    (h : itemListTimes fuel k t s c i = some (true, j)) :
    ∃ u, Span w i j u ∧ ((fin = true → j = w.length) → (t = .some1 → i < j) →
      Rep (if k = .seq then SeqLang items else AltLang items) t u) := by
  unfold itemListTimes at h
  by_cases hk' : k = .seq
  · simp only [if_pos hk'] at h ⊢
    cases t with
    | one =>
      obtain ⟨u, hsp, hu⟩ := hs hk' i j (fun _ => rfl) hi h
      exact ⟨u, hsp, fun hf _ => hu (by simpa using hf)⟩
    | opt =>
      obtain ⟨u, hsp, hu⟩ := hs hk' i j (fun _ => rfl) hi h
      exact ⟨u, hsp, fun hf _ => .inr (hu (by simpa using hf))⟩
    | many =>
      obtain ⟨u, hsp, hu, -⟩ := repeatSeq_sound (L := SeqLang items)
        (fun i j hi h => (hs hk' i j (by simp) hi h).imp fun u g => ⟨g.1, g.2 (by simp)⟩) _ i j hi h
      exact ⟨u, hsp, fun _ _ => hu⟩
    | some1 =>
      obtain ⟨u, hsp, -, hu⟩ := repeatSeq_sound (L := SeqLang items)
        (fun i j hi h => (hs hk' i j (by simp) hi h).imp fun u g => ⟨g.1, g.2 (by simp)⟩) _ i j hi h
      refine ⟨u, hsp, fun _ hlt => ?_⟩
      rcases hu with e | hu
      · have := hlt rfl; omega
      · exact hu
  · simp only [if_neg hk'] at h ⊢
    cases t with
    | one =>
      obtain ⟨u, hsp, hu⟩ := hc hk' i j hi h
      exact ⟨u, hsp, fun hf _ => hu (by simpa using hf)⟩
    | opt =>
      dsimp only at h
      split at h
      · simp at h
      · rename_i b p hb
        injection h with h; injection h with _ h; subst h
        cases b with
        | true =>
          obtain ⟨u, hsp, hu⟩ := hc hk' i _ hi hb
          exact ⟨u, hsp, fun hf _ => .inr (hu (by simpa using hf))⟩
        | false =>
          have := hq hk' (by decide) _ _ hb
          subst this
          exact ⟨[], .refl hi, fun _ _ => .inl rfl⟩
    | many =>
      obtain ⟨u, hsp, hu, -⟩ := repeatChoice_sound (L := AltLang items)
        (fun i j hi h => (hc hk' i j hi h).imp fun u g => ⟨g.1, g.2 (by simp)⟩) (hq hk' (by decide)) _ i j hi h
      exact ⟨u, hsp, fun _ _ => hu⟩
    | some1 =>
      obtain ⟨u, hsp, -, hu⟩ := repeatChoice_sound (L := AltLang items)
        (fun i j hi h => (hc hk' i j hi h).imp fun u g => ⟨g.1, g.2 (by simp)⟩) (hq hk' (by decide)) _ i j hi h
      refine ⟨u, hsp, fun _ hlt => ?_⟩
      rcases hu with e | hu
      · have := hlt rfl; omega
      · exact hu

theorem choiceStart_sound {items : List Part} {L : Word → Nat → Prop} {i j : Nat}
    (hl : ∀ c, w[i]? = some c → choiceLoop fuel w items c i = some (true, j) → ∃ u, Span w i j u ∧ L u j)
    (h : choiceStart w (choiceLoop fuel w items) i = some (true, j)) : ∃ u, Span w i j u ∧ L u j := by
  unfold choiceStart at h
  split at h
  · simp at h
  · exact hl _ ‹_› h

theorem sound_all : (∀ (p : Part) (fin : Bool), p.exact fin = true →
      (∀ rest i r, i ≤ w.length → seqItem fuel w p rest i = some r → StepSound w fin p rest i r) ∧
      ∀ c i j, w[i]? = some c → choiceItem fuel w p c i = some (true, j) →
        ∃ u, Span w i j u ∧ ((fin = true → j = w.length) → p.Lang u)) ∧
    ∀ (ps : List Part) (fin : Bool),
      (seqExact fin ps = true → ∀ min sofar lt top i j, tidy min sofar ps = true → (∀ b, sofar = some b → i ≤ b) →
        min ≤ w.length → i ≤ w.length → seqLoop fuel w ps lt top i = some (true, j) →
        ∃ u, Span w i j u ∧ ((fin = true → j = w.length) → SeqLang ps u)) ∧
      (altExact fin ps = true → initQuiet ps = true → ∀ c i j, w[i]? = some c →
        choiceLoop fuel w ps c i = some (true, j) →
        ∃ u, Span w i j u ∧ ((fin = true → j = w.length) → AltLang ps u)) := by
  apply Part.ind
  · intro t n fin _
    refine ⟨fun rest i r hi h => ?_, fun c i j hc h => ?_⟩
    · rw [seqItem] at h
      injection h with h
      subst h
      exact nodeLoop_sound hi
    · obtain ⟨u, h1, h2⟩ := choiceItem_node_sound hc h
      exact ⟨u, h1, fun _ => h2⟩
  · intro k t items ih fin he
    rw [Part.exact, Bool.and_eq_true, Bool.and_eq_true] at he
    obtain ⟨⟨-, h1⟩, he⟩ := he
    have key : ∀ i j, i < w.length → nested fuel w k t items i = some (true, j) →
        ∃ u, Span w i j u ∧ ((fin = true → j = w.length) → (Part.list k t items).Lang u) := by
      intro i j hi h
      rw [nested_eq] at h
      have := times_sound (w := w) (fin := fin) (items := items) ?_ ?_ ?_ (Nat.le_of_lt hi) h
      · obtain ⟨u, hsp, hu⟩ := this
        refine ⟨u, hsp, fun hf => hu hf fun ht => ?_⟩
        rw [ht] at h1
        simp only [ne_eq, not_true_eq_false, decide_false, Bool.false_or] at h1
        rw [hf h1]
        exact hi
      · intro hks i j _ hi h
        rw [if_pos hks, Bool.and_eq_true] at he
        exact (ih _).1 he.2 0 none t false i j he.1 (by simp) (Nat.zero_le _) hi h
      · intro hks i j _ h
        rw [if_neg hks, Bool.and_eq_true] at he
        refine choiceStart_sound (L := fun u j => _ → AltLang items u) (fun c hc h => ?_) h
        refine (ih _).2 he.1 ?_ c i j hc h
        have := he.2
        split at this
        · exact this
        · exact initQuiet_of_alt this
      · intro hks ht i j h
        rw [if_neg hks, Bool.and_eq_true, if_neg ht] at he
        exact choiceStart_false (fun c => (quiet_all.2 items).2.1 he.2 c i j) h
    refine ⟨fun rest i r hi h => ?_, fun c i j hc h => ?_⟩
    · rw [seqItem_list] at h
      split at h
      · injection h with h
        subst h
        exact atEnd_sound (by omega)
      · split at h
        · simp at h
        · injection h with h; subst h; trivial
        · injection h with h; subst h
          exact key _ _ (by omega) ‹_›
    · rw [choiceItem_list] at h
      exact key _ _ (drop_of_get hc).2 h
  · intro fin
    refine ⟨fun _ min sofar lt top i j _ _ _ hi h => ?_, fun _ _ c i j _ h => ?_⟩
    · rw [seqLoop] at h
      split at h
      · simp at h
      · injection h with h; injection h with _ h; subst h
        exact ⟨[], .refl hi, fun _ => by rw [SeqLang]⟩
    · rw [choiceLoop] at h
      simp at h
  · intro p ps hp ih fin
    refine ⟨fun he min sofar lt top i j ht hb hm hi h => ?_, fun he hq c i j hc h => ?_⟩
    · rw [seqExact, Bool.and_eq_true] at he
      rw [tidy.eq_def] at ht
      dsimp only at ht
      rw [Bool.and_eq_true] at ht
      rw [seqLoop] at h
      split at h
      · simp at h
      · rename_i p' hi'
        obtain ⟨u, hsp, hu⟩ := (hp _ he.1).1 _ _ _ hi hi'
        cases ps with
        | nil =>
          rw [seqLoop] at h
          split at h
          · simp at h
          · injection h with h; injection h with _ h; subst h
            refine ⟨u, hsp, fun hf => ?_⟩
            rw [SeqLang]
            exact ⟨u, [], (List.append_nil u).symm, hu (by simpa using hf), by rw [SeqLang]⟩
        | cons q qs =>
          have hu := hu (by simp)
          obtain ⟨v, hsp', hv⟩ := (ih fin).1 he.2 min _ lt top p' j ht.2 (by
            intro b hb'
            split at hb'
            · rename_i a m hm'
              injection hb' with hb'
              have h1 := hb _ rfl
              have h2 := most_le hm' hu
              obtain ⟨_, _, _, _, h3⟩ := hsp
              omega
            · simp at hb') hm hsp.le.2 h
          refine ⟨u ++ v, hsp.trans hsp', fun hf => ?_⟩
          rw [SeqLang]
          exact ⟨u, v, rfl, hu, hv hf⟩
      · rename_i b p' hi'
        injection h with h; injection h with h1 h2
        subst h1; subst h2
        obtain ⟨u, hsp, hj, hu, hr⟩ := (hp _ he.1).1 _ _ _ hi hi'
        have hn : SeqLang ps [] := by
          rcases hr with rfl | ⟨ho, hr⟩
          · rw [SeqLang]
          · have h1 := ht.1
            rw [ho, Bool.not_true, Bool.false_or, Bool.or_eq_true] at h1
            rcases h1 with h1 | h1
            · exact (allNullable_iff ps).1 h1
            · exfalso
              rw [Bool.and_eq_true] at h1
              obtain ⟨hbel, hnm⟩ := h1
              rcases hr with e | ⟨n, rfl⟩
              · cases sofar with
                | none => simp [below] at hbel
                | some b =>
                  have := hb b rfl
                  simp only [below, decide_eq_true_eq] at hbel
                  omega
              · simp at hnm
        exact ⟨u, hsp, fun _ => by rw [SeqLang]; exact ⟨u, [], (List.append_nil u).symm, hu, hn⟩⟩
    · rw [altExact, Bool.and_eq_true] at he
      rw [initQuiet, Bool.and_eq_true, Bool.or_eq_true] at hq
      rw [choiceLoop] at h
      split at h
      · simp at h
      · rename_i p' hi'
        injection h with h; injection h with _ h; subst h
        obtain ⟨u, hsp, hu⟩ := (hp _ he.1).2 _ _ _ hc hi'
        exact ⟨u, hsp, fun hf => by rw [AltLang]; exact .inl (hu hf)⟩
      · rename_i p' hi'
        rcases hq.1 with e | hq1
        · rw [List.isEmpty_iff] at e
          subst e
          rw [choiceLoop] at h
          simp at h
        · have := (quiet_all.1 p).2.1 hq1 _ _ _ hi'
          subst this
          obtain ⟨u, hsp, hu⟩ := (ih _).2 he.2 hq.2 _ _ _ hc h
          exact ⟨u, hsp, fun hf => by rw [AltLang]; exact .inr (hu hf)⟩

/-- An accepted list of children is a word of the model. -/
theorem children_sound {l : Content} {top : Bool} {w : Word} (he : l.exact = true)
    (h : children fuel l top w = some true) : l.Lang w := by
  obtain ⟨k, t, items⟩ := l
  unfold children at h
  split at h
  · simp at h
  rename_i hmin
  unfold Content.exact at he
  rw [Bool.and_eq_true, Bool.and_eq_true] at he
  obtain ⟨⟨-, h1⟩, he⟩ := he
  dsimp only at h1 he h
  split at h
  · simp at h
  · simp at h
  · rename_i p hp
    have hp' : itemListTimes fuel k t (seqLoop fuel w items t top) (choiceStart w (choiceLoop fuel w items)) 0 = some (true, p) := by
      unfold itemList at hp
      split at hp
      · simp at hp
      · simp at hp
      · split at hp
        · simp at hp
        · injection hp with hp; injection hp with _ hp; subst hp; assumption
    have := times_sound (w := w) (fin := true) (items := items) ?_ ?_ ?_ (Nat.zero_le _) hp'
    · obtain ⟨u, hsp, hu⟩ := this
      have hl := hsp.le
      have hpw : p = w.length := by
        injection h with h
        simp at h
        omega
      subst hpw
      have := hsp.all
      subst this
      refine hu (fun _ => rfl) fun ht => ?_
      subst ht
      simp only [ne_eq, not_true_eq_false, decide_false, Bool.false_or, decide_eq_true_eq] at h1
      omega
    · intro hks i j hi0 hi h
      rw [if_pos hks, Bool.and_eq_true] at he
      rw [Bool.true_and]
      have ht := he.1
      split at ht
      · rename_i ht1
        have hi0 := hi0 ht1
        subst hi0
        exact (sound_all.2 items _).1 he.2 _ (some 0) t top 0 j ht (by simp) (by omega) hi h
      · exact (sound_all.2 items _).1 he.2 0 none t top i j ht (by simp) (Nat.zero_le _) hi h
    · intro hks i j _ h
      rw [if_neg hks, Bool.and_eq_true] at he
      refine choiceStart_sound (L := fun u j => _ → AltLang items u) (fun c hc h => ?_) h
      rw [Bool.true_and]
      refine (sound_all.2 items _).2 he.1 ?_ c i j hc h
      have := he.2
      split at this
      · exact this
      · exact initQuiet_of_alt this
    · intro hks ht i j h
      rw [if_neg hks, Bool.and_eq_true, if_neg ht] at he
      exact choiceStart_false (fun c => (quiet_all.2 items).2.1 he.2 c i j) h

end Axl.Dtd
