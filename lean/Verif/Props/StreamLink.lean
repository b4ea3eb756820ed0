/-
C83: what is linked to a stream is destroyed with it.
-/
import Verif.Spec.StreamLink

namespace Axl.Link
open Axl.Spec.Link
variable {α φ : Type}

/-- Something is unlinked in the history. -/
def unlinks (cs : List (Call α φ)) : Bool := cs.any fun c => match c with | .unlink => true | _ => false

/-- What a history destroys, from its first call on. -/
def pendingOf : List (Call α φ) → List (φ × α)
  | [] => []
  | c :: cs => (match linkedBy c with
    | some (f, e, kept) => if kept || !unlinks cs then [(f, e)] else []
    | none => []) ++ pendingOf cs

theorem flatMap_unlink (l : List (Data α φ)) : (unlinkLoop l).flatMap dataFree = (l.filter (·.freeOnFinish)).flatMap dataFree := by
  induction l with
  | nil => rfl
  | cons d l ih =>
    cases h : d.freeOnFinish <;> simp [unlinkLoop, h, ih, dataFree]

theorem filter_unlink (l : List (Data α φ)) :
    ((unlinkLoop l).filter (·.freeOnFinish)).flatMap dataFree = (l.filter (·.freeOnFinish)).flatMap dataFree := by
  induction l with
  | nil => rfl
  | cons d l ih =>
    cases h : d.freeOnFinish <;> simp [unlinkLoop, h, ih]

/-- What is left of the elements that a stream has, after a history. -/
def left (s : Stream α φ) (cs : List (Call α φ)) : List (φ × α) :=
  ((s.linked.getD []).filter fun d => d.freeOnFinish || !unlinks cs).flatMap dataFree

theorem free_eq (s : Stream α φ) : free s = (s.linked.getD []).flatMap dataFree := by
  cases h : s.linked <;> simp [free, h]

theorem left_link (s : Stream α φ) (e : α) (f : φ) (b : Bool) (cs : List (Call α φ)) :
    left (linkFull s (some e) (some f) b) cs = left s cs ++ if b || !unlinks cs then [(f, e)] else [] := by
  simp only [left, linkFull, Option.isNone_some, Bool.false_eq_true, if_false, Option.getD_some, List.filter_append, List.flatMap_append]
  congr 1
  by_cases h : (b || !unlinks cs) = true
  · simp [List.filter_cons, h, dataFree]
  · simp [List.filter_cons, h]

theorem left_unlink (s : Stream α φ) (cs : List (Call α φ)) : left (unlink s) cs = ((s.linked.getD []).filter (·.freeOnFinish)).flatMap dataFree := by
  have e : (unlink s).linked.getD [] = unlinkLoop (s.linked.getD []) := by
    cases h : s.linked <;> simp [unlink, h, unlinkLoop]
  rw [left, e]
  by_cases h : unlinks cs = true
  · simpa [h] using filter_unlink _
  · have t : ∀ l : List (Data α φ), l.filter (fun d => d.freeOnFinish || !unlinks cs) = l := fun l => List.filter_eq_self.2 fun d _ => by simp [h]
    rw [t, flatMap_unlink]

theorem free_run (cs : List (Call α φ)) : ∀ s : Stream α φ, free (run s cs) = left s cs ++ pendingOf cs := by
  induction cs with
  | nil =>
    intro s
    have t : ∀ l : List (Data α φ), l.filter (fun d => d.freeOnFinish || !unlinks ([] : List (Call α φ))) = l :=
      fun l => List.filter_eq_self.2 fun d _ => by simp [unlinks]
    simp only [run, List.foldl_nil, free_eq, left, pendingOf, List.append_nil, t]
  | cons c cs ih =>
    intro s
    have h1 : run s (c :: cs) = run (step s c) cs := rfl
    rw [h1, ih]
    have key : ∀ (e : α) (f : φ) (b : Bool), linkedBy c = some (f, e, b) → step s c = linkFull s (some e) (some f) b →
        unlinks (c :: cs) = unlinks cs → left (step s c) cs ++ pendingOf cs = left s (c :: cs) ++ pendingOf (c :: cs) := by
      intro e f b hl hs hu
      have h2 : left s (c :: cs) = left s cs := by simp only [left, hu]
      rw [hs, left_link, h2, pendingOf, hl]
      simp only [List.append_assoc]
    have none_ : linkedBy c = none → step s c = s → unlinks (c :: cs) = unlinks cs →
        left (step s c) cs ++ pendingOf cs = left s (c :: cs) ++ pendingOf (c :: cs) := by
      intro hl hs hu
      have h2 : left s (c :: cs) = left s cs := by simp only [left, hu]
      rw [hs, h2, pendingOf, hl]
      simp
    cases c with
    | unlink =>
      have h2 : left s (.unlink :: cs) = ((s.linked.getD []).filter (·.freeOnFinish)).flatMap dataFree := by
        simp [left, unlinks]
      rw [h2, pendingOf]
      simp only [step, left_unlink, linkedBy, List.nil_append]
    | link e f =>
      cases e with
      | none => exact none_ (by simp [linkedBy]) (by simp [step, link, linkFull]) (by simp [unlinks])
      | some e =>
        cases f with
        | none => exact none_ (by simp [linkedBy]) (by simp [step, link, linkFull]) (by simp [unlinks])
        | some f => exact key e f false (by simp [linkedBy]) rfl (by simp [unlinks])
    | linkFull e f b =>
      cases e with
      | none => exact none_ (by simp [linkedBy]) (by simp [step, linkFull]) (by simp [unlinks])
      | some e =>
        cases f with
        | none => exact none_ (by simp [linkedBy]) (by simp [step, linkFull]) (by simp [unlinks])
        | some f => exact key e f b (by simp [linkedBy]) rfl (by simp [unlinks])

theorem unlinks_iff (cs : List (Call α φ)) : unlinks cs = false ↔ ∀ j : Nat, cs[j]? ≠ some .unlink := by
  constructor
  · intro h j hj
    have := List.mem_of_getElem? hj
    have : unlinks cs = true := List.any_eq_true.2 ⟨_, this, rfl⟩
    rw [h] at this; cases this
  · intro h
    rw [← Bool.not_eq_true]
    intro hu
    obtain ⟨c, hc, hh⟩ := List.any_eq_true.1 hu
    obtain ⟨j, hj⟩ := List.getElem?_of_mem hc
    cases c <;> simp at hh
    exact h j hj

theorem pending_zero (c : Call α φ) (cs : List (Call α φ)) (x : φ × α) :
    Pending (c :: cs) 0 x ↔ ∃ kept, linkedBy c = some (x.1, x.2, kept) ∧ (kept = true ∨ unlinks cs = false) := by
  have e : (∀ j : Nat, 0 < j → (c :: cs)[j]? ≠ some .unlink) ↔ unlinks cs = false := by
    rw [unlinks_iff]
    constructor
    · intro h j; simpa using h (j + 1) (by omega)
    · intro h j hj
      obtain ⟨j, rfl⟩ : ∃ k, j = k + 1 := ⟨j - 1, by omega⟩
      simpa using h j
  constructor
  · rintro ⟨c', kept, h1, h2, h3⟩
    simp only [List.getElem?_cons_zero, Option.some.injEq] at h1
    subst h1
    exact ⟨kept, h2, h3.imp_right e.1⟩
  · rintro ⟨kept, h2, h3⟩
    exact ⟨c, kept, rfl, h2, h3.imp_right e.2⟩

theorem pending_succ (c : Call α φ) (cs : List (Call α φ)) (i : Nat) (x : φ × α) : Pending (c :: cs) (i + 1) x ↔ Pending cs i x := by
  have e : (∀ j : Nat, i + 1 < j → (c :: cs)[j]? ≠ some .unlink) ↔ ∀ j : Nat, i < j → cs[j]? ≠ some .unlink := by
    constructor
    · intro h j hj; simpa using h (j + 1) (by omega)
    · intro h j hj
      obtain ⟨j, rfl⟩ : ∃ k, j = k + 1 := ⟨j - 1, by omega⟩
      simpa using h j (by omega)
  simp only [Pending, List.getElem?_cons_succ, e]

theorem pendingOf_destroyed : ∀ cs : List (Call α φ), Destroyed cs (pendingOf cs)
  | [] => ⟨[], by simp [pendingOf, Pending]⟩
  | c :: cs => by
    obtain ⟨ps, h1, h2, h3, h4⟩ := pendingOf_destroyed cs
    have hmap : (ps.map (· + 1)).Pairwise (· < ·) := by
      rw [List.pairwise_map]; exact h1.imp fun h => by omega
    have hmem : ∀ i, i ∈ ps.map (· + 1) ↔ ∃ j, i = j + 1 ∧ ∃ x, Pending cs j x := by
      intro i
      simp only [List.mem_map]
      constructor
      · rintro ⟨j, hj, rfl⟩; exact ⟨j, rfl, (h2 j).1 hj⟩
      · rintro ⟨j, rfl, hj⟩; exact ⟨j, (h2 j).2 hj, rfl⟩
    have tail : ∀ (k i : Nat) (x : φ × α), (ps.map (· + 1))[k]? = some i → (pendingOf cs)[k]? = some x → Pending (c :: cs) i x := by
      intro k i x hk hx
      rw [List.getElem?_map, Option.map_eq_some_iff] at hk
      obtain ⟨j, hj, rfl⟩ := hk
      exact (pending_succ c cs j x).2 (h4 k j x hj hx)
    by_cases hp : ∃ x, Pending (c :: cs) 0 x
    · obtain ⟨x, hx⟩ := hp
      obtain ⟨kept, hl, hk⟩ := (pending_zero c cs x).1 hx
      have e : pendingOf (c :: cs) = x :: pendingOf cs := by
        have hk' : (kept || !unlinks cs) = true := by rcases hk with hk | hk <;> simp [hk]
        rw [pendingOf, hl]
        simp only [hk', if_true, List.cons_append, List.nil_append]
      refine ⟨0 :: ps.map (· + 1), ?_, fun i => ?_, by simp [e, h3], ?_⟩
      · refine List.pairwise_cons.2 ⟨fun i hi => ?_, hmap⟩
        obtain ⟨j, rfl, -⟩ := (hmem i).1 hi
        omega
      · cases i with
        | zero => simp; exact ⟨_, _, hx⟩
        | succ i =>
          simp only [List.mem_cons, Nat.add_eq_zero_iff, Nat.one_ne_zero, and_false, false_or, hmem, pending_succ]
          constructor
          · rintro ⟨j, hj, hh⟩
            have : i = j := by omega
            subst this; exact hh
          · intro hh; exact ⟨i, rfl, hh⟩
      · intro k i y hk hy
        rw [e] at hy
        cases k with
        | zero =>
          simp only [List.getElem?_cons_zero, Option.some.injEq] at hk hy
          subst hk; subst hy; exact hx
        | succ k => exact tail k i y (by simpa using hk) (by simpa using hy)
    · have e : pendingOf (c :: cs) = pendingOf cs := by
        rw [pendingOf]
        cases hl : linkedBy c with
        | none => rfl
        | some t =>
          obtain ⟨f, e, kept⟩ := t
          by_cases hk : (kept || !unlinks cs) = true
          · exact absurd ⟨(f, e), (pending_zero c cs (f, e)).2 ⟨kept, hl, by simpa using hk⟩⟩ hp
          · simp only [hk, if_false, List.nil_append]
            rfl
      refine ⟨ps.map (· + 1), hmap, fun i => ?_, by simp [e, h3], by rw [e]; exact tail⟩
      cases i with
      | zero =>
        rw [hmem]
        constructor
        · rintro ⟨j, hj, -⟩; omega
        · intro h; exact absurd h hp
      | succ i =>
        simp only [hmem, pending_succ]
        constructor
        · rintro ⟨j, hj, hh⟩
          have : i = j := by omega
          subst this; exact hh
        · intro hh; exact ⟨i, rfl, hh⟩

/-- **C83**.  After any calls that link and unlink, freeing the stream calls the function given with each element, once for
each call that linked it and in their order, for the elements that were linked to be kept and for those after which nothing
was unlinked; and calls nothing else. -/
theorem C83_destroyed_once (cs : List (Call α φ)) : Destroyed cs (free (run new cs)) := by
  rw [free_run]
  simpa [left, new] using pendingOf_destroyed cs

/-- **C83**.  What is destroyed is determined by the calls. -/
theorem C83_determined (cs : List (Call α φ)) (out : List (φ × α)) (h : Destroyed cs out) : out = free (run new cs) := by
  obtain ⟨ps, a1, a2, a3, a4⟩ := h
  obtain ⟨qs, b1, b2, b3, b4⟩ := C83_destroyed_once cs
  have hpq : ps = qs := by
    refine List.Perm.eq_of_pairwise (le := (· < ·)) (fun a b _ _ h1 h2 => by omega) a1 b1 ?_
    exact (List.perm_ext_iff_of_nodup (a1.imp fun h => by omega) (b1.imp fun h => by omega)).2 fun i => by rw [a2, b2]
  subst hpq
  apply List.ext_getElem?
  intro k
  by_cases hk : k < ps.length
  · have e1 := List.getElem?_eq_getElem (l := ps) hk
    have e2 := List.getElem?_eq_getElem (l := out) (i := k) (by omega)
    have e3 := List.getElem?_eq_getElem (l := free (run new cs)) (i := k) (by omega)
    obtain ⟨c, x1, x2, x3, -⟩ := a4 k _ _ e1 e2
    obtain ⟨c', y1, y2, y3, -⟩ := b4 k _ _ e1 e3
    rw [x2] at y2
    cases y2
    rw [x3] at y3
    rw [e2, e3]
    simp only [Option.some.injEq, Prod.mk.injEq] at y3 ⊢
    exact Prod.ext y3.1 y3.2.1
  · rw [List.getElem?_eq_none (by omega), List.getElem?_eq_none (by omega)]

/-- **C83**.  Once for each call: an element that is linked twice is destroyed twice. -/
theorem C83_linked_twice (e : α) (f : φ) : free (run new [.link (some e) (some f), .link (some e) (some f)]) = [(f, e), (f, e)] := rfl

/-- **C83**.  A document that a parse links before it reads and unlinks at its end is destroyed if the parse stops, and not
if it ends; an element linked to be kept is destroyed both ways. -/
theorem C83_parse (doc x : α) (f g : φ) :
    free (run new [.linkFull (some x) (some g) true, .link (some doc) (some f)]) = [(g, x), (f, doc)] ∧
    free (run new [.linkFull (some x) (some g) true, .link (some doc) (some f), .unlink]) = [(g, x)] := ⟨rfl, rfl⟩

example : free (run new [.link (some 1) (some 'f'), .unlink, .linkFull (some 2) (some 'g') true, .link none (some 'f'), .link (some 3) none,
    .link (some 4) (some 'h'), .linkFull (some 5) (some 'f') false]) = [('g', 2), ('h', 4), ('f', 5)] := by decide +kernel

example : Pending [.link (some 1) (some 'f'), .unlink, .linkFull (some 2) (some 'g') true, .unlink] 2 ('g', 2) ∧
    ¬ Pending [.link (some 1) (some 'f'), .unlink, .linkFull (some 2) (some 'g') true, .unlink] 0 ('f', 1) := by
  refine ⟨⟨_, true, rfl, rfl, .inl rfl⟩, ?_⟩
  rintro ⟨c, kept, h1, h2, h3⟩
  cases h1
  cases h2
  rcases h3 with h3 | h3
  · cases h3
  · exact h3 1 (by omega) rfl

end Axl.Link
