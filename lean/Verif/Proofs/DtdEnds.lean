import Verif.Proofs.DtdSound

/-! # The matcher of content models ends -/

namespace Axl.Dtd

variable {fuel : Nat} {w : Word}

/-- Where a step of a sequence leaves the position. -/
def Step.pos : Step → Nat
  | .next p => p
  | .stop _ p => p

/-- A step that goes on or accepts. -/
def Step.good : Step → Bool
  | .next _ => true
  | .stop b _ => b

theorem atEnd_pos (it : Part) (rest : List Part) (m : Bool) (i : Nat) : (atEnd it rest m i).pos = i := by
  unfold atEnd
  split
  · cases rest <;> rfl
  · rfl

theorem nodeLoop_pos (t : Times) (n : List Char) (rest : List Part) : ∀ (r : Word) (i : Nat) (m : Bool),
    i ≤ (nodeLoop t n rest r i m).pos
  | [], i, m => by rw [nodeLoop, atEnd_pos]; exact Nat.le_refl _
  | c :: r, i, m => by
    have ih := nodeLoop_pos t n rest r (i + 1) true
    cases t
    all_goals
      rw [nodeLoop.eq_def]
      dsimp only
      repeat' split
      all_goals first
        | (simp only [Step.pos]; omega)
        | omega

/-- A name that is not optional consumes a child. -/
theorem nodeLoop_firm {t : Times} {n : List Char} {rest : List Part} (ht : t.optional = false) (r : Word) (i : Nat)
    (h : (nodeLoop t n rest r i false).good = true) : r ≠ [] ∧ i < (nodeLoop t n rest r i false).pos := by
  cases r with
  | nil =>
    exfalso
    rw [nodeLoop, atEnd.eq_def] at h
    simp only [Bool.and_false, if_neg Bool.false_ne_true] at h
    rw [restOptional_eq, Part.times, ht] at h
    simp [Step.good] at h
  | cons c r =>
    refine ⟨by simp, ?_⟩
    have ih := nodeLoop_pos t n rest r (i + 1) true
    cases t with
    | opt => cases ht
    | many => cases ht
    | one =>
      rw [nodeLoop.eq_def] at h ⊢
      dsimp only at h ⊢
      split at h
      · rw [if_pos ‹_›]; simp only [Step.pos]; omega
      · simp [Step.good] at h
    | some1 =>
      rw [nodeLoop.eq_def] at h ⊢
      dsimp only at h ⊢
      split at h
      · rw [if_pos ‹_›]; omega
      · simp [Step.good] at h

theorem manyLoop_pos (n : List Char) : ∀ (r : Word) (i : Nat), i ≤ manyLoop n r i
  | [], i => Nat.le_refl _
  | c :: r, i => by
    have := manyLoop_pos n r (i + 1)
    rw [manyLoop]
    split <;> omega

theorem nodeTakes_pos (n : List Char) (i : Nat) (t : Times) : i < nodeTakes w n i t := by
  cases t
  all_goals
    first
      | exact manyLoop_pos n _ (i + 1)
      | exact Nat.lt_succ_self i

/-! ### The position never goes back -/

theorem repeatSeq_pos {body : Nat → Option (Bool × Nat)} (hb : ∀ i b j, body i = some (b, j) → i ≤ j) :
    ∀ (f i : Nat) (b : Bool) (j : Nat), repeatSeq body f i = some (b, j) → i ≤ j
  | 0, i, b, j, h => by simp [repeatSeq] at h
  | f + 1, i, b, j, h => by
    rw [repeatSeq] at h
    split at h
    · cases h
    · rename_i p hp
      exact Nat.le_trans (hb _ _ _ hp) (repeatSeq_pos hb f p b j h)
    · rename_i p hp
      have := hb _ _ _ hp
      split at h
      · injection h with h; injection h with _ h; omega
      · injection h with h; injection h with _ h; omega

theorem repeatChoice_pos {body : Nat → Option (Bool × Nat)} (hb : ∀ i b j, body i = some (b, j) → i ≤ j) :
    ∀ (f i : Nat) (b : Bool) (j : Nat), repeatChoice body f i = some (b, j) → i ≤ j
  | 0, i, b, j, h => by simp [repeatChoice] at h
  | f + 1, i, b, j, h => by
    rw [repeatChoice] at h
    split at h
    · cases h
    · rename_i p hp
      exact Nat.le_trans (hb _ _ _ hp) (repeatChoice_pos hb f p b j h)
    · rename_i p hp
      have := hb _ _ _ hp
      injection h with h; injection h with _ h; omega

theorem times_pos {k : Kind} {t : Times} {s c : Nat → Option (Bool × Nat)} (hs : ∀ i b j, s i = some (b, j) → i ≤ j)
    (hc : ∀ i b j, c i = some (b, j) → i ≤ j) (i : Nat) (b : Bool) (j : Nat) (h : itemListTimes fuel k t s c i = some (b, j)) :
    i ≤ j := by
  unfold itemListTimes at h
  cases t with
  | one => dsimp only at h; split at h; (exact hs _ _ _ h); (exact hc _ _ _ h)
  | opt =>
    dsimp only at h
    split at h
    · exact hs _ _ _ h
    · split at h
      · cases h
      · rename_i b' p hp
        injection h with h; injection h with _ h
        exact h ▸ hc _ _ _ hp
  | many => dsimp only at h; split at h; (exact repeatSeq_pos hs _ _ _ _ h); (exact repeatChoice_pos hc _ _ _ _ h)
  | some1 => dsimp only at h; split at h; (exact repeatSeq_pos hs _ _ _ _ h); (exact repeatChoice_pos hc _ _ _ _ h)

theorem choiceStart_pos {loop : List Char → Nat → Option (Bool × Nat)} (h : ∀ c i b j, loop c i = some (b, j) → i ≤ j)
    (i : Nat) (b : Bool) (j : Nat) (hj : choiceStart w loop i = some (b, j)) : i ≤ j := by
  unfold choiceStart at hj
  split at hj
  · injection hj with hj; injection hj with _ hj; omega
  · exact h _ _ _ _ hj

theorem pos_all : (∀ p : Part, (∀ rest i r, seqItem fuel w p rest i = some r → i ≤ r.pos) ∧
      ∀ c i b j, choiceItem fuel w p c i = some (b, j) → i ≤ j) ∧
    ∀ ps : List Part, (∀ lt top i b j, seqLoop fuel w ps lt top i = some (b, j) → i ≤ j) ∧
      ∀ c i b j, choiceLoop fuel w ps c i = some (b, j) → i ≤ j := by
  apply Part.ind
  · intro t n
    refine ⟨fun rest i r h => ?_, fun c i b j h => ?_⟩
    · rw [seqItem] at h
      injection h with h
      exact h ▸ nodeLoop_pos ..
    · rw [choiceItem_node] at h
      split at h
      · injection h with h; injection h with _ h
        exact h ▸ Nat.le_of_lt (nodeTakes_pos ..)
      · injection h with h; injection h with _ h
        omega
  · intro k t items ih
    have hn : ∀ i b j, nested fuel w k t items i = some (b, j) → i ≤ j := by
      intro i b j h
      rw [nested_eq] at h
      exact times_pos (ih.1 t false) (choiceStart_pos ih.2) i b j h
    refine ⟨fun rest i r h => ?_, fun c i b j h => ?_⟩
    · rw [seqItem_list] at h
      split at h
      · injection h with h
        rw [← h, atEnd_pos]
        exact Nat.le_refl _
      · split at h
        · cases h
        · rename_i p hp; injection h with h; exact h ▸ hn _ _ _ hp
        · rename_i p hp; injection h with h; exact h ▸ hn _ _ _ hp
    · rw [choiceItem_list] at h
      exact hn _ _ _ h
  · refine ⟨fun lt top i b j h => ?_, fun c i b j h => ?_⟩
    · rw [seqLoop] at h
      split at h
      · injection h with h; injection h with _ h; omega
      · injection h with h; injection h with _ h; omega
    · rw [choiceLoop] at h
      injection h with h; injection h with _ h; omega
  · intro p ps hp ih
    refine ⟨fun lt top i b j h => ?_, fun c i b j h => ?_⟩
    · rw [seqLoop] at h
      split at h
      · cases h
      · rename_i q hq
        exact Nat.le_trans (hp.1 _ _ _ hq) (ih.1 _ _ _ _ _ h)
      · rename_i b' q hq
        injection h with h; injection h with _ h
        exact h ▸ hp.1 _ _ _ hq
    · rw [choiceLoop] at h
      split at h
      · cases h
      · rename_i q hq
        injection h with h; injection h with _ h
        exact h ▸ hp.2 _ _ _ _ hq
      · rename_i q hq
        exact Nat.le_trans (hp.2 _ _ _ _ hq) (ih.2 _ _ _ _ h)

/-! ### Firm particles consume -/

theorem firm_all : (∀ p : Part, (p.firm = true → ∀ rest i r, seqItem fuel w p rest i = some r → r.good = true →
        i < w.length ∧ i < r.pos) ∧
      ((p.isNode || p.firm) = true → ∀ c i j, choiceItem fuel w p c i = some (true, j) → i < j)) ∧
    ∀ ps : List Part, (headFirm ps = true → ∀ lt top i j, seqLoop fuel w ps lt top i = some (true, j) → i < w.length ∧ i < j) ∧
      (altFirm ps = true → ∀ c i j, choiceLoop fuel w ps c i = some (true, j) → i < j) := by
  apply Part.ind
  · intro t n
    refine ⟨fun hf rest i r h hg => ?_, fun _ c i j h => ?_⟩
    · rw [seqItem] at h
      injection h with h
      subst h
      rw [Part.firm] at hf
      obtain ⟨h1, h2⟩ := nodeLoop_firm (by simpa using hf) _ _ hg
      refine ⟨?_, h2⟩
      rw [ne_eq, List.drop_eq_nil_iff] at h1
      omega
    · rw [choiceItem_node] at h
      split at h
      · injection h with h; injection h with _ h
        exact h ▸ nodeTakes_pos ..
      · injection h with h; injection h with h _; cases h
  · intro k t items ih
    have hn : (Part.list k t items).firm = true → ∀ i j, nested fuel w k t items i = some (true, j) → i < w.length ∧ i < j := by
      intro hf i j h
      rw [Part.firm, Bool.and_eq_true, decide_eq_true_eq] at hf
      obtain ⟨rfl, hf⟩ := hf
      rw [nested_eq] at h
      unfold itemListTimes at h
      dsimp only at h
      split at hf
      · rw [if_pos ‹_›] at h
        exact ih.1 hf _ _ _ _ h
      · rw [if_neg ‹_›] at h
        unfold choiceStart at h
        split at h
        · cases h
        · rename_i c hc
          exact ⟨(List.getElem?_eq_some_iff.1 hc).1, ih.2 hf _ _ _ h⟩
    refine ⟨fun hf rest i r h hg => ?_, fun hf c i j h => ?_⟩
    · rw [seqItem_list] at h
      split at h
      · exfalso
        injection h with h
        rw [Part.firm, Bool.and_eq_true, decide_eq_true_eq] at hf
        obtain ⟨rfl, hf⟩ := hf
        rw [← h, atEnd.eq_def] at hg
        simp only [Bool.and_false, if_neg Bool.false_ne_true] at hg
        rw [restOptional_eq, Part.times] at hg
        simp [Step.good, Times.optional] at hg
      · split at h
        · cases h
        · injection h with h
          rw [← h] at hg
          cases hg
        · rename_i p hp
          injection h with h
          exact h ▸ hn hf _ _ hp
    · rw [choiceItem_list] at h
      rw [Part.isNode, Bool.false_or] at hf
      exact (hn hf _ _ h).2
  · refine ⟨fun h => by simp [headFirm] at h, fun _ c i j h => ?_⟩
    rw [choiceLoop] at h
    cases h
  · intro p ps hp ih
    refine ⟨fun hf lt top i j h => ?_, fun hf c i j h => ?_⟩
    · rw [headFirm] at hf
      rw [seqLoop] at h
      split at h
      · cases h
      · rename_i q hq
        have := hp.1 hf _ _ _ hq rfl
        exact ⟨this.1, Nat.lt_of_lt_of_le this.2 ((pos_all.2 ps).1 _ _ _ _ _ h)⟩
      · rename_i b q hq
        injection h with h; injection h with h1 h2
        subst h1; subst h2
        exact hp.1 hf _ _ _ hq rfl
    · rw [altFirm, Bool.and_eq_true] at hf
      rw [choiceLoop] at h
      split at h
      · cases h
      · rename_i q hq
        injection h with h; injection h with _ h
        exact h ▸ hp.2 hf.1 _ _ _ hq
      · rename_i q hq
        exact Nat.lt_of_le_of_lt ((pos_all.1 p).2 _ _ _ _ hq) (ih.2 hf.2 _ _ _ h)

/-! ### An answer is given -/

theorem repeatSeq_ends {body : Nat → Option (Bool × Nat)} (hs : ∀ i, body i ≠ none)
    (hb : ∀ i j, body i = some (true, j) → i < w.length ∧ i < j) :
    ∀ f i, w.length - i < f → repeatSeq body f i ≠ none
  | 0, i, h => absurd h (Nat.not_lt_zero _)
  | f + 1, i, h => by
    rw [repeatSeq]
    split
    · exact absurd ‹_› (hs i)
    · rename_i p hp
      have := hb _ _ hp
      exact repeatSeq_ends hs hb f p (by omega)
    · split <;> simp

theorem repeatChoice_ends {body : Nat → Option (Bool × Nat)} (hs : ∀ i, body i ≠ none)
    (hb : ∀ i j, body i = some (true, j) → i < w.length ∧ i < j) :
    ∀ f i, w.length - i < f → repeatChoice body f i ≠ none
  | 0, i, h => absurd h (Nat.not_lt_zero _)
  | f + 1, i, h => by
    rw [repeatChoice]
    split
    · exact absurd ‹_› (hs i)
    · rename_i p hp
      have := hb _ _ hp
      exact repeatChoice_ends hs hb f p (by omega)
    · simp

theorem times_ends {k : Kind} {t : Times} {items : List Part} {top : Bool} (hfuel : w.length < fuel)
    (hr : (t = .one || t = .opt || (if k = .seq then headFirm items else altFirm items)) = true)
    (hs : ∀ lt top i, seqLoop fuel w items lt top i ≠ none) (hc : ∀ c i, choiceLoop fuel w items c i ≠ none) (i : Nat) :
    itemListTimes fuel k t (seqLoop fuel w items t top) (choiceStart w (choiceLoop fuel w items)) i ≠ none := by
  have hc' : ∀ i, choiceStart w (choiceLoop fuel w items) i ≠ none := by
    intro i
    unfold choiceStart
    split
    · simp
    · exact hc _ _
  have hbs : headFirm items = true → ∀ i j, seqLoop fuel w items t top i = some (true, j) → i < w.length ∧ i < j :=
    fun h i j => (firm_all.2 items).1 h t top i j
  have hbc : altFirm items = true → ∀ i j, choiceStart w (choiceLoop fuel w items) i = some (true, j) → i < w.length ∧ i < j := by
    intro h i j hj
    unfold choiceStart at hj
    split at hj
    · cases hj
    · rename_i c hc
      exact ⟨(List.getElem?_eq_some_iff.1 hc).1, (firm_all.2 items).2 h _ _ _ hj⟩
  unfold itemListTimes
  cases t with
  | one => dsimp only; split; (exact hs _ _ _); (exact hc' _)
  | opt =>
    dsimp only
    split
    · exact hs _ _ _
    · split
      · exact absurd ‹_› (hc' _)
      · simp
  | many =>
    simp only [reduceCtorEq, decide_false, Bool.false_or] at hr
    dsimp only
    split
    · rw [if_pos ‹_›] at hr; exact repeatSeq_ends (hs _ _) (hbs hr) _ _ (by omega)
    · rw [if_neg ‹_›] at hr; exact repeatChoice_ends hc' (hbc hr) _ _ (by omega)
  | some1 =>
    simp only [reduceCtorEq, decide_false, Bool.false_or] at hr
    dsimp only
    split
    · rw [if_pos ‹_›] at hr; exact repeatSeq_ends (hs _ _) (hbs hr) _ _ (by omega)
    · rw [if_neg ‹_›] at hr; exact repeatChoice_ends hc' (hbc hr) _ _ (by omega)

theorem ends_all (hfuel : w.length < fuel) : (∀ p : Part, p.ends = true → (∀ rest i, seqItem fuel w p rest i ≠ none) ∧
      ∀ c i, choiceItem fuel w p c i ≠ none) ∧
    ∀ ps : List Part, allEnd ps = true → (∀ lt top i, seqLoop fuel w ps lt top i ≠ none) ∧
      ∀ c i, choiceLoop fuel w ps c i ≠ none := by
  apply Part.ind
  · intro t n _
    refine ⟨fun rest i => by rw [seqItem]; simp, fun c i => ?_⟩
    rw [choiceItem_node]
    split <;> simp
  · intro k t items ih he
    rw [Part.ends, Bool.and_eq_true] at he
    have ih := ih he.1
    have hn : ∀ i, nested fuel w k t items i ≠ none := by
      intro i
      rw [nested_eq]
      exact times_ends hfuel he.2 ih.1 ih.2 i
    refine ⟨fun rest i => ?_, fun c i => ?_⟩
    · rw [seqItem_list]
      split
      · simp
      · split
        · exact absurd ‹_› (hn i)
        · simp
        · simp
    · rw [choiceItem_list]
      exact hn i
  · intro _
    refine ⟨fun lt top i => ?_, fun c i => by rw [choiceLoop]; simp⟩
    rw [seqLoop]
    split <;> simp
  · intro p ps hp ih he
    rw [allEnd, Bool.and_eq_true] at he
    have hp := hp he.1
    have ih := ih he.2
    refine ⟨fun lt top i => ?_, fun c i => ?_⟩
    · rw [seqLoop]
      split
      · exact absurd ‹_› (hp.1 _ _)
      · exact ih.1 _ _ _
      · simp
    · rw [choiceLoop]
      split
      · exact absurd ‹_› (hp.2 _ _)
      · simp
      · exact ih.2 _ _

/-- The matcher gives an answer. -/
theorem children_ends {l : Content} {top : Bool} (hl : l.ends = true) (hfuel : w.length < fuel) : children fuel l top w ≠ none := by
  rw [Content.ends, Bool.and_eq_true] at hl
  have h := (ends_all hfuel).2 l.items hl.1
  have hn := times_ends (top := top) hfuel hl.2 h.1 h.2 0
  rw [children]
  split
  · simp
  · unfold itemList
    split
    · rename_i h
      exfalso
      split at h
      · exact hn ‹_›
      · cases h
      · split at h <;> cases h
    · simp
    · simp

end Axl.Dtd
