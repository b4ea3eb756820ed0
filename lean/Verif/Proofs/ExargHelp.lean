/-
Proofs about the usage and the help.
-/
import Verif.Model.ExargHelp
import Verif.Spec.ExargHelp
import Verif.Proofs.Exarg
import Verif.Proofs.StrEdit

namespace Axl
namespace Exarg
open Spec.Exarg
open Str hiding split

theorem sp_eq : c!" " = [' '] := rfl
theorem nl_eq : c!"\n" = ['\n'] := rfl

theorem cat_ne {p : List Char} {ps : List (List Char)} (h : ps ≠ []) :
    List.intercalate [' '] (p :: ps) = p ++ [' '] ++ List.intercalate [' '] ps := intercalate_cons_ne h

theorem cat_one (p : List Char) : List.intercalate [' '] [p] = p := by simp [List.intercalate]

theorem cat_merge (l w : List Char) (ws : List (List Char)) :
    List.intercalate [' '] (l :: w :: ws) = List.intercalate [' '] ((l ++ [' '] ++ w) :: ws) := by
  cases ws with
  | nil => simp [List.intercalate, List.intersperse]
  | cons a ws => simp [List.intercalate, List.intersperse]

/-- What the loop prints of the lines. -/
def rest (fill : List Char) (first : Bool) (lines : List (List Char)) : List Char :=
  if first then screen fill lines else (lines.map fun l => fill ++ l ++ ['\n']).flatten

theorem wrapLoop_spec (size : Nat) (fill : List Char) : ∀ (ws : List (List Char)) (cur : Option (List Char)) (sum : Nat) (first : Bool),
    (∀ w ∈ ws, ' ' ∉ w) → (∀ l, cur = some l → sum = l.length + 1 ∧ sum < size) → (cur = none → sum = 0) →
    (∀ l, cur = some l → ∀ a b, l = a ++ ' ' :: b → a.length + 1 < size) →
    (first = true → cur.toList ++ ws ≠ [] ∧ size ≤ (List.intercalate [' '] (cur.toList ++ ws)).length + 1) →
    ∃ lines, wrapLoop size fill ws cur sum first = some (rest fill first lines) ∧
      (lines = [] ↔ cur.toList ++ ws = []) ∧
      List.intercalate [' '] lines = List.intercalate [' '] (cur.toList ++ ws) ∧
      (∀ l ∈ lines.dropLast, size ≤ l.length + 1) ∧
      ∀ l ∈ lines, ∀ a b, l = a ++ ' ' :: b → a.length + 1 < size := by
  intro ws
  induction ws with
  | nil =>
    intro cur sum first _ hc hn he hf
    cases cur with
    | none =>
      have := hn rfl
      subst this
      refine ⟨[], ?_, by simp, by simp, by simp, by simp⟩
      cases first <;> simp [wrapLoop, rest, screen]
    | some l =>
      obtain ⟨h1, h2⟩ := hc l rfl
      have hfirst : first = false := by
        cases first with
        | false => rfl
        | true =>
          have := (hf rfl).2
          simp [List.intercalate] at this
          omega
      subst hfirst
      refine ⟨[l], ?_, by simp, by simp, by simp, ?_⟩
      · simp [wrapLoop, rest, h1, nl_eq]
      · intro l' hl'
        simp at hl'
        subst hl'
        exact he l' rfl
  | cons w ws ih =>
    intro cur sum first hw hc hn he hf
    have hwl : ∀ l, l = addWord cur w →
        sum + w.length + 1 = l.length + 1 ∧ (∀ a b, l = a ++ ' ' :: b → a.length + 1 < size) ∧
        List.intercalate [' '] (cur.toList ++ w :: ws) = List.intercalate [' '] (l :: ws) := by
      intro l hl
      cases cur with
      | none =>
        simp only [addWord] at hl
        subst hl
        have := hn rfl
        refine ⟨by omega, ?_, rfl⟩
        intro a b h
        exact absurd (by rw [h]; simp) (hw l (by simp))
      | some l0 =>
        simp only [addWord, sp_eq] at hl
        subst hl
        obtain ⟨h1, h2⟩ := hc l0 rfl
        refine ⟨by simp; omega, ?_, by simpa using cat_merge l0 w ws⟩
        intro a b h
        have hb : a.length ≤ l0.length := by
          apply Classical.byContradiction
          intro hlt
          have hlt : l0.length < a.length := by omega
          have h := congrArg (List.drop (l0.length + 1)) h
          rw [List.drop_append_of_le_length (l₁ := l0 ++ [' ']) (by simp), List.drop_append_of_le_length (l₁ := a) (by omega)] at h
          have e : List.drop (l0.length + 1) (l0 ++ [' ']) = [] := by simp
          rw [e] at h
          simp only [List.nil_append] at h
          exact hw w (by simp) (by rw [h]; simp)
        omega
    obtain ⟨h1, h2, h3⟩ := hwl _ rfl
    generalize hl : addWord cur w = l at h1 h2 h3
    have e : wrapLoop size fill (w :: ws) cur sum first =
        if sum + w.length + 1 ≥ size then
          (wrapLoop size fill ws none 0 false).map fun out => (if first then [] else fill) ++ l ++ c!"\n" ++ out
        else wrapLoop size fill ws (some l) (sum + w.length + 1) first := by
      rw [← hl]
      rfl
    rw [e]
    split
    · rename_i hge
      obtain ⟨lines, g1, g2, g3, g4, g5⟩ := ih none 0 false (fun x hx => hw x (by simp [hx])) (by simp) (by simp) (by simp) (by simp)
      refine ⟨l :: lines, ?_, by simp, ?_, ?_, ?_⟩
      · rw [g1]
        simp only [Option.map_some, nl_eq, rest]
        cases first <;> simp [screen]
      · rw [h3]
        cases hls : lines with
        | nil =>
          have : ws = [] := by simpa using g2.1 hls
          rw [this]
        | cons x xs =>
          have hws : ws ≠ [] := by
            intro h
            have := g2.2 (by simp [h])
            rw [hls] at this
            cases this
          rw [cat_ne (by simp), cat_ne hws, ← hls, g3]
          simp
      · intro x hx
        cases hls : lines with
        | nil => rw [hls] at hx; simp at hx
        | cons y ys =>
          rw [hls] at hx g4
          simp only [List.dropLast] at hx
          rcases List.mem_cons.1 hx with rfl | hx
          · omega
          · exact g4 x hx
      · intro x hx
        rcases List.mem_cons.1 hx with rfl | hx
        · exact h2
        · exact g5 x hx
    · rename_i hlt
      have hlt : sum + w.length + 1 < size := Nat.lt_of_not_le hlt
      obtain ⟨lines, g1, g2, g3, g4, g5⟩ := ih (some l) (sum + w.length + 1) first (fun x hx => hw x (by simp [hx]))
        (by intro l' hl'; cases hl'; exact ⟨h1, hlt⟩) (by simp) (by intro l' hl'; cases hl'; exact h2)
        (by
          intro hft
          refine ⟨by simp, ?_⟩
          have := (hf hft).2
          rw [h3] at this
          simpa using this)
      refine ⟨lines, g1, ?_, ?_, g4, g5⟩
      · rw [g2]; simp
      · rw [g3, h3]; simp

theorem wrap_spec (t : List Char) (size : Nat) (fill : List Char) :
    ∃ lines, Wraps size t lines ∧ wrap (some t) size fill = some (screen fill lines) := by
  unfold wrap
  by_cases h : t.length ≤ size
  · refine ⟨[t], ⟨cat_one t, by simp, fun _ => rfl, by simp, by omega⟩, ?_⟩
    simp [h, screen, nl_eq]
  · simp only [h, ↓reduceIte]
    rw [sp_eq]
    obtain ⟨ws, e, hs⟩ := split_spec t [[' ']] (by intro h0; subst h0; simp at h)
    have hcat := splits_intercalate hs
    obtain ⟨hne, hpart⟩ := splits_parts hs
    obtain ⟨lines, g1, g2, g3, g4, g5⟩ := wrapLoop_spec size fill ws none 0 true
      (by
        intro w hw hsp
        obtain ⟨a, b, hab⟩ := List.append_of_mem hsp
        exact hpart w hw [' '] (by simp) (by simp) ⟨a, b, by rw [hab]; simp⟩)
      (by simp) (by simp) (by simp)
      (by
        intro _
        refine ⟨by simpa using hne, ?_⟩
        have : List.intercalate [' '] ws = t := hcat
        simp only [Option.toList_none, List.nil_append, this]
        omega)
    refine ⟨lines, ⟨?_, ?_, fun h' => absurd h' h, g4, fun _ => g5⟩, ?_⟩
    · rw [g3]; exact hcat
    · intro h0
      exact hne (by simpa using g2.1 h0)
    · rw [e]
      exact g1

theorem usageItem_eq (o : Opt) : usageItem o = usageOf o := by
  unfold usageItem usageOf
  cases o.kind <;> cases o.short <;> simp [valueName]

theorem usage_fold : ∀ (opts : List Opt) (s : List Char), opts.foldl usageNext (some s) = some (s ++ (opts.map usageOf).flatten)
  | [], s => by simp
  | o :: opts, s => by
    simp only [List.foldl_cons, usageNext, usage_fold opts, usageItem_eq, List.map_cons, List.flatten_cons, List.append_assoc]

theorem usage_all {opts : List Opt} (h : opts ≠ []) : opts.foldl usageNext none = some (opts.map usageOf).flatten := by
  cases opts with
  | nil => exact absurd rfl h
  | cons o opts => simp only [List.foldl_cons, usageNext, usage_fold opts, usageItem_eq, List.map_cons, List.flatten_cons]

theorem depLoop_spec (opts : List Opt) : ∀ (is : List Nat) (r : List Char), (∀ i ∈ is, i < opts.length) → is ≠ [] →
    ∃ names : List (List Char), names.map some = (is.map fun i => opts[i]?.map Opt.name) ∧
      depLoop opts r is = some (r ++ (names.map fun n => c!" --" ++ n).flatten ++ c!"]")
  | [], _, _, h => absurd rfl h
  | i :: is, r, hi, _ => by
    have hlt := hi i (by simp)
    obtain ⟨o, ho⟩ : ∃ o, opts[i]? = some o := ⟨_, List.getElem?_eq_getElem hlt⟩
    by_cases h0 : is = []
    · subst h0
      refine ⟨[o.name], by simp [ho], ?_⟩
      simp [depLoop, ho]
    · obtain ⟨names, g1, g2⟩ := depLoop_spec opts is (r ++ c!" --" ++ o.name) (fun j hj => hi j (by simp [hj])) h0
      refine ⟨o.name :: names, by simp [ho, g1], ?_⟩
      simp only [depLoop, ho, h0, ↓reduceIte, List.append_nil]
      rw [g2]
      simp

theorem deps_spec {opts : List Opt} {o : Opt} (title : List Char) (exclude : Bool) (places : List Nat)
    (hp : places = if exclude then o.excludes else o.depends) (ht : c!"[" ++ title ++ c!": " = if exclude then c!"[excludes: " else c!"[depends on: ")
    (hi : ∀ i ∈ places, i < opts.length) :
    ∃ dep out, depString opts o exclude = some dep ∧ depLines dep = some out ∧ HelpOf.Below opts title places out := by
  by_cases h0 : places = []
  · refine ⟨none, [], ?_, rfl, Or.inl ⟨h0, rfl⟩⟩
    unfold depString
    cases exclude
    · have : o.depends = [] := by simpa [h0] using hp.symm
      simp [this]
    · have : o.excludes = [] := by simpa [h0] using hp.symm
      simp [this]
  · obtain ⟨names, g1, g2⟩ := depLoop_spec opts places (if exclude then c!"[excludes: " else c!"[depends on: ") hi h0
    obtain ⟨lines, w1, w2⟩ := wrap_spec (namesList title names) 40 (List.replicate 33 ' ')
    refine ⟨some (namesList title names), List.replicate 35 ' ' ++ screen (List.replicate 33 ' ') lines, ?_, ?_, Or.inr ⟨h0, names, lines, g1, w1, rfl⟩⟩
    · have e : depString opts o exclude = (depLoop opts (if exclude then c!"[excludes: " else c!"[depends on: ") places).map some := by
        unfold depString
        cases exclude
        · have : ¬ o.depends = [] := by intro h; exact h0 (by simpa [h] using hp)
          simp [this, hp]
        · have : ¬ o.excludes = [] := by intro h; exact h0 (by simpa [h] using hp)
          simp [this, hp]
      rw [e, g2, ← ht]
      simp [namesList]
    · simp only [depLines, w2, Option.map_some]

theorem helpItem_spec {opts : List Opt} {o : Opt} (d : List Char) (hd : ∀ i ∈ o.depends, i < opts.length)
    (hx : ∀ i ∈ o.excludes, i < opts.length) : ∃ out, helpItem opts o (some d) = some out ∧ HelpOf opts o d out := by
  obtain ⟨about, w1, w2⟩ := wrap_spec d 40 (List.replicate 33 ' ')
  obtain ⟨dep, needs, e1, e2, b1⟩ := deps_spec (opts := opts) (o := o) c!"depends on" false o.depends rfl (by rfl) hd
  obtain ⟨dep', excl, e3, e4, b2⟩ := deps_spec (opts := opts) (o := o) c!"excludes" true o.excludes rfl (by rfl) hx
  unfold helpItem
  cases hs : o.short with
  | none =>
    refine ⟨_, by simp only [w2, e1, e2, e3, e4, Option.bind_eq_bind, Option.bind_some]; rfl, 22 - o.name.length + 7, about, needs, excl, ?_, by omega, ?_, w1, b1, b2⟩
    · simp only [namesOf, hs, padTo, List.append_assoc]
      rw [show c!"       " = List.replicate 7 ' ' from rfl, ← List.replicate_append_replicate]
      simp only [List.append_assoc]
    · intro ⟨h, _⟩
      simp [namesOf, hs] at h ⊢
      omega
  | some s =>
    refine ⟨_, by simp only [w2, e1, e2, e3, e4, Option.bind_eq_bind, Option.bind_some]; rfl, 18 - o.name.length + 7, about, needs, excl, ?_, by omega, ?_, w1, b1, b2⟩
    · simp only [namesOf, hs, padTo, List.append_assoc]
      rw [show c!"       " = List.replicate 7 ' ' from rfl, ← List.replicate_append_replicate]
      simp only [List.append_assoc]
    · intro ⟨h, h1⟩
      have := h1 s hs
      simp [namesOf, hs] at h ⊢
      omega

theorem basename_spec (p : List Char) : ∀ n, n ≤ p.length → (∀ c ∈ p.drop n, c ≠ '/' ∧ c ≠ '\\') →
    (∀ c ∈ p.drop (basenameLoop p n), c ≠ '/' ∧ c ≠ '\\') ∧
      (p.take (basenameLoop p n) = [] ∨ ∃ d, p.take (basenameLoop p n) = d ++ ['/'] ∨ p.take (basenameLoop p n) = d ++ ['\\'])
  | 0, _, h => ⟨h, Or.inl rfl⟩
  | n + 1, hn, h => by
    have hlt : n < p.length := by omega
    have e : p[n]? = some p[n] := List.getElem?_eq_getElem hlt
    simp only [basenameLoop, e]
    split
    · rename_i hc
      refine basename_spec p n (by omega) ?_
      rw [List.drop_eq_getElem_cons hlt]
      intro c hc'
      rcases List.mem_cons.1 hc' with rfl | hc'
      · exact hc
      · exact h c hc'
    · rename_i hc
      refine ⟨h, Or.inr ⟨p.take n, ?_⟩⟩
      rw [List.take_succ_eq_append_getElem hlt]
      by_cases h1 : p[n] = '/'
      · left; rw [h1]
      · right
        by_cases h2 : p[n] = '\\'
        · rw [h2]
        · exact absurd ⟨h1, h2⟩ hc

end Exarg
end Axl
