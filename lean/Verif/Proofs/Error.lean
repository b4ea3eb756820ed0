/- The memory of errors and what the variables show. -/
import Verif.Spec.Error

namespace Axl.Err
open Str Printf
open Spec.Err (Var Shown Error)

/-- The text of an error is in its block. -/
def Txt (cells : List (Option Cell)) : Option Nat → Option (List Char) → Prop
  | none, none => True
  | some q, some t => cells[q]? = some (some (.str (t ++ [NUL])))
  | _, _ => False

/-- The block of an error. -/
def At (cells : List (Option Cell)) (p : Nat) : Option Error → Prop
  | some (c, t) => ∃ q, cells[p]? = some (some (.err c q magic)) ∧ Txt cells q t
  | none => cells[p]? = some none

/-- `loc`: where each error is. -/
structure RelAt (s : St) (a : Shown) (loc : List Nat) : Prop where
  len : loc.length = a.errors.length
  vars : s.vars = a.vars.map (Option.map fun e => loc.getD e 0)
  shown : ∀ e, some e ∈ a.vars → e < a.errors.length
  err : ∀ (e p : Nat) x, loc[e]? = some p → a.errors[e]? = some x → At s.cells p x
  inj : ∀ (e e' p : Nat), loc[e]? = some p → loc[e']? = some p → e = e'
  own : ∀ (p p' : Nat) c q d c' d', s.cells[p]? = some (some (.err c (some q) d)) →
    s.cells[p']? = some (some (.err c' (some q) d')) → p = p'
  bound : ∀ (p : Nat) c q d, s.cells[p]? = some (some (.err c (some q) d)) → q < s.cells.length
  count : s.blocks = (a.errors.map Spec.Err.blocks).sum

def Rel (s : St) (a : Shown) : Prop := ∃ loc, RelAt s a loc

theorem txt_append {cells ext : List (Option Cell)} {q t} (h : Txt cells q t) : Txt (cells ++ ext) q t := by
  cases q <;> cases t <;> simp_all only [Txt]
  rw [List.getElem?_append_left (by grind)]
  exact h

theorem at_bound {cells : List (Option Cell)} {p x} (h : At cells p x) : p < cells.length := by
  cases x with
  | none => simp only [At] at h; grind
  | some x => obtain ⟨q, h1, h2⟩ := h; grind

theorem at_append {cells ext : List (Option Cell)} {p x} (h : At cells p x) : At (cells ++ ext) p x := by
  have hp := at_bound h
  cases x with
  | none => simp only [At] at h ⊢; rw [List.getElem?_append_left hp]; exact h
  | some x =>
    obtain ⟨q, h2, h3⟩ := h
    exact ⟨q, by rw [List.getElem?_append_left hp]; exact h2, txt_append h3⟩

theorem sum_set_none : ∀ (l : List (Option Error)) (i : Nat) y, l[i]? = some y →
    ((l.set i none).map Spec.Err.blocks).sum + Spec.Err.blocks y = (l.map Spec.Err.blocks).sum
  | [], _, _, h => by simp at h
  | a :: l, 0, y, h => by simp at h; subst h; simp [Spec.Err.blocks]; omega
  | a :: l, i + 1, y, h => by
    have := sum_set_none l i y (by simpa using h)
    simp only [List.set_cons_succ, List.map_cons, List.sum_cons]; omega

theorem count_set : ∀ (l : List (Option Cell)) (i : Nat) c, l[i]? = some (some c) →
    (l.set i none).countP Option.isSome + 1 = l.countP Option.isSome
  | [], _, _, h => by simp at h
  | a :: l, 0, c, h => by simp at h; subst h; simp
  | a :: l, i + 1, c, h => by
    have := count_set l i c (by simpa using h)
    simp [List.countP_cons]; omega

/-- A variable gets another value, and there may be blocks that were taken and given back. -/
theorem assign_rel {s : St} {a : Shown} (h : Rel s a) (v : Nat) (x : Option Nat) (hx : ∀ e, x = some e → some e ∈ a.vars)
    (ext : List (Option Cell)) (hext : ∀ c ∈ ext, c = none) :
    ∃ r, Rel ⟨s.cells ++ ext, s.vars.set v r⟩ ⟨a.errors, a.vars.set v x⟩ ∧
      (x = none → r = none) ∧ (∀ w : Nat, a.vars[w]? = some x → s.vars[w]? = some r) := by
  obtain ⟨loc, h⟩ := h
  have hlive : ∀ (p : Nat) c, (s.cells ++ ext)[p]? = some (some c) → s.cells[p]? = some (some c) := by
    intro p c hp
    rw [List.getElem?_append] at hp
    split at hp
    · exact hp
    · have := hext _ (List.mem_of_getElem? hp); simp at this
  refine ⟨x.map fun e => loc.getD e 0, ⟨loc, h.len, ?_, ?_, ?_, h.inj, ?_, ?_, ?_⟩, ?_, ?_⟩
  · simp only [h.vars, List.map_set]
  · intro e he
    rcases List.mem_or_eq_of_mem_set he with he | he
    · exact h.shown e he
    · exact h.shown e (hx e he.symm)
  · intro e p y h1 h2; exact at_append (h.err e p y h1 h2)
  · intro p p' c q d c' d' h1 h2; exact h.own p p' c q d c' d' (hlive _ _ h1) (hlive _ _ h2)
  · intro p c q d h1
    have := h.bound p c q d (hlive _ _ h1)
    simp only [List.length_append]; omega
  · have h0 : ext.countP Option.isSome = 0 := List.countP_eq_zero.mpr fun c hc => by simp [hext c hc]
    have := h.count
    simp only [St.blocks] at this ⊢
    rw [List.countP_append, h0]
    simpa using this
  · intro e; subst e; rfl
  · intro w hw
    rw [h.vars, List.getElem?_map, hw]; rfl

theorem clear_rel {s : St} {a : Shown} (h : Rel s a) (v : Nat) : Rel (store s v none) ⟨a.errors, a.vars.set v none⟩ := by
  obtain ⟨r, h1, h2, _⟩ := assign_rel h v none (by simp) [] (by simp)
  rw [h2 rfl] at h1
  simpa [store] using h1

/-- An error in new blocks. -/
theorem put_rel {s : St} {a : Shown} {e : Error} (h : Rel s a) (v : Nat) (p : Nat)
    (ext : List (Option Cell)) (hx : At (s.cells ++ ext) p (some e)) (hr : s.cells.length ≤ p)
    (hc : ext.countP Option.isSome = Spec.Err.blocks (some e))
    (hq : ∀ (k : Nat) c q d, ext[k]? = some (some (.err c (some q) d)) → s.cells.length ≤ q ∧ q < s.cells.length + ext.length)
    (hu : ∀ (k k' : Nat) c q d c' d', ext[k]? = some (some (.err c (some q) d)) → ext[k']? = some (some (.err c' (some q) d')) → k = k') :
    Rel ⟨s.cells ++ ext, s.vars.set v (some p)⟩ (a.report v e) := by
  obtain ⟨loc, h⟩ := h
  have hlen := h.len
  have hb : ∀ (i p' : Nat), loc[i]? = some p' → p' < s.cells.length := by
    intro i p' hi
    have hlt : i < a.errors.length := by grind
    exact at_bound (h.err i _ _ hi (List.getElem?_eq_getElem hlt))
  refine ⟨loc ++ [p], ?_, ?_, ?_, ?_, ?_, ?_, ?_, ?_⟩
  · simp [Shown.report, hlen]
  · simp only [Shown.report, List.map_set, h.vars, Option.map_some]
    have e1 : (loc ++ [p]).getD a.errors.length 0 = p := by simp [← hlen]
    rw [e1]
    congr 1
    refine List.map_congr_left fun x hx => ?_
    cases x with
    | none => rfl
    | some i =>
      have := h.shown i hx
      simp [List.getElem?_append_left (show i < loc.length by omega)]
  · intro i hi
    simp only [Shown.report, List.length_append, List.length_singleton] at hi ⊢
    rcases List.mem_or_eq_of_mem_set hi with hi | hi
    · have := h.shown i hi; omega
    · simp at hi; omega
  · intro i p' x h1 h2
    simp only [Shown.report] at h2
    by_cases hi : i < a.errors.length
    · rw [List.getElem?_append_left (by omega)] at h1 h2
      exact at_append (h.err i p' x h1 h2)
    · rw [List.getElem?_append_right (by omega)] at h1 h2
      have hk : i - a.errors.length = 0 := by
        cases hh : i - a.errors.length with
        | zero => rfl
        | succ k => simp [hh] at h2
      simp [hk] at h2
      simp [hlen, hk] at h1
      subst h1; subst h2; exact hx
  · intro i j p' h1 h2
    have := h.inj i j p'
    have := hb i p'
    have := hb j p'
    grind
  · intro p1 p2 c q d c' d' h1 h2
    simp only [List.getElem?_append] at h1 h2
    have e1 := h.own p1 p2 c q d c' d'
    have e2 := h.bound p1 c q d
    have e3 := h.bound p2 c' q d'
    have e4 := hq (p1 - s.cells.length) c q d
    have e5 := hq (p2 - s.cells.length) c' q d'
    have e6 := hu (p1 - s.cells.length) (p2 - s.cells.length) c q d c' d'
    split at h1 <;> split at h2
    · exact e1 h1 h2
    · have := e2 h1; have := e5 h2; omega
    · have := e4 h1; have := e3 h2; omega
    · have := e6 h1 h2; omega
  · intro p1 c q d h1
    simp only [List.getElem?_append] at h1
    simp only [List.length_append]
    split at h1
    · have := h.bound p1 c q d h1; omega
    · exact (hq _ c q d h1).2
  · have h2 := h.count
    simp only [St.blocks] at h2 ⊢
    simp only [Shown.report, List.countP_append, List.map_append, List.map_cons, List.map_nil, List.sum_append_nat, List.sum_cons, List.sum_nil]
    omega

theorem hold_rel {s : St} {a : Shown} (v : Nat) (c : Int) (h : Rel s a) :
    Rel ⟨s.cells ++ [some (.err c none magic)], s.vars.set v (some s.cells.length)⟩ (a.report v (c, none)) :=
  put_rel h v _ _ ⟨none, by simp, trivial⟩ (Nat.le_refl _) rfl
    (by intro k c' q d hk; cases k <;> simp at hk) (by intro k k' c' q d c'' d' hk; cases k <;> simp at hk)

theorem hold_text_rel {s : St} {a : Shown} (v : Nat) (c : Int) (t : List Char) (h : Rel s a) :
    Rel ⟨s.cells ++ [some (.str (t ++ [NUL])), some (.err c (some s.cells.length) magic)], s.vars.set v (some (s.cells.length + 1))⟩
      (a.report v (c, some t)) := by
  refine put_rel h v _ _ ⟨some s.cells.length, ?_, ?_⟩ (by omega) rfl ?_ ?_
  · rw [List.getElem?_append_right (by omega)]; simp
  · simp only [Txt]; rw [List.getElem?_append_right (by omega)]; simp
  · intro k c' q d hk
    match k with
    | 0 => simp at hk
    | 1 => simp at hk; simp; omega
    | k + 2 => simp at hk
  · intro k k' c' q d c'' d' hk hk'
    match k, k' with
    | 0, _ => simp at hk
    | k + 2, _ => simp at hk
    | 1, 0 => simp at hk'
    | 1, 1 => rfl
    | 1, k + 2 => simp at hk'

/-- The memory is there for a text, and then not for the error. -/
theorem dropped_rel {s : St} {a : Shown} (v : Nat) (h : Rel s a) :
    Rel ⟨s.cells ++ [none], s.vars.set v none⟩ ⟨a.errors, a.vars.set v none⟩ := by
  obtain ⟨r, h1, h2, _⟩ := assign_rel h v none (by simp) [none] (by simp)
  rw [h2 rfl] at h1
  exact h1

theorem printfv_text (L : Libc Arg) (f : Option (List Char)) (args : List Arg) :
    strdupPrintfv true L f (some args) = some (match Spec.Err.textOf L f args with
      | none => .null
      | some s => .block (s ++ [NUL])) := by
  cases f with
  | none => rfl
  | some f =>
    simp only [strdupPrintfv, Spec.Err.textOf, if_true, vasprintf, Libc.args, Option.bind_some, bind]
    cases hr : L.render f args with
    | text s =>
      have : (s.length : Int) ≠ -1 := by omega
      simp [this]
    | fail s => simp

theorem new_rel {s : St} {a : Shown} (h : Rel s a) (c : Int) (t : Option (List Char)) (v : Nat) (str : Bool) (ht : str = true ∨ t = none) :
    ∃ s', new s true str c t (some v) = some s' ∧ Rel s' (a.report v (c, t)) := by
  cases t with
  | none => exact ⟨_, rfl, by simpa [alloc, store] using hold_rel v c h⟩
  | some t =>
    have : str = true := by simpa using ht
    subst this
    exact ⟨_, rfl, by simpa [alloc, store] using hold_text_rel v c t h⟩

theorem textOf_exhausted (L : Libc Arg) (f : Option (List Char)) (args : List Arg) : Spec.Err.textOf (exhausted L) f args = none := by
  cases f <;> rfl

theorem report_rel {s : St} {a : Shown} (L : Libc Arg) (h : Rel s a) (mem str : Bool) (c : Int) (f : Option (List Char)) (args : List Arg)
    (v : Nat) :
    ∃ s', report true L s mem str (some v) c f args = some s' ∧
      Rel s' (if mem then a.report v (c, if str then Spec.Err.textOf L f args else none) else ⟨a.errors, a.vars.set v none⟩) := by
  have hL : Spec.Err.textOf (if str || !true then L else exhausted L) f args = if str then Spec.Err.textOf L f args else none := by
    cases str <;> simp [textOf_exhausted]
  simp only [report, printfv_text, Option.bind_some, bind, hL]
  cases (if str then Spec.Err.textOf L f args else none) with
  | none =>
    cases mem with
    | true => exact ⟨_, rfl, by simpa [alloc, store] using hold_rel v c h⟩
    | false => exact ⟨_, rfl, by simpa using clear_rel h v⟩
  | some t =>
    cases mem with
    | true => exact ⟨_, rfl, by simpa [alloc, store] using hold_text_rel v c t h⟩
    | false =>
      refine ⟨⟨s.cells ++ [none], s.vars.set v none⟩, ?_, by simpa using dropped_rel v h⟩
      simp [alloc, freeBlock, load, store]

theorem loadErr_of {s : St} {p : Nat} {c : Int} {q : Option Nat} {d : Int} (h : s.cells[p]? = some (some (.err c q d))) :
    loadErr s p = some (c, q, d) := by simp [loadErr, load, h]

/-- What a variable has, for what it shows. -/
theorem var_of {s : St} {a : Shown} {loc : List Nat} (h : RelAt s a loc) {v : Nat} (hv : v < a.vars.length) :
    (a.vars[v]? = some none ∧ s.vars[v]? = some none) ∨
    ∃ (e p : Nat) (x : Option Error), a.vars[v]? = some (some e) ∧ a.errors[e]? = some x ∧ loc[e]? = some p ∧
      s.vars[v]? = some (some p) ∧ At s.cells p x := by
  have hl := h.len
  have hx := List.getElem?_eq_getElem hv
  have hs : s.vars[v]? = some ((a.vars[v]).map fun e => loc.getD e 0) := by rw [h.vars, List.getElem?_map, hx]; rfl
  cases hc : a.vars[v] with
  | none => rw [hc] at hx hs; exact .inl ⟨hx, hs⟩
  | some e =>
    rw [hc] at hx hs
    have he := h.shown e (List.mem_of_getElem? hx)
    have e1 : loc[e]? = some loc[e] := List.getElem?_eq_getElem (by omega)
    have e2 : a.errors[e]? = some a.errors[e] := List.getElem?_eq_getElem he
    exact .inr ⟨e, loc[e], a.errors[e], hx, e2, e1, by rw [hs]; simp [e1], h.err e _ _ e1 e2⟩

/-- The blocks of an error are given back: nothing else changes. -/
theorem free_rel {s : St} {a : Shown} {loc : List Nat} (h : RelAt s a loc) {v e p : Nat} {c : Int} {t : Option (List Char)}
    (he : a.errors[e]? = some (some (c, t))) (hloc : loc[e]? = some p) (hr : s.vars[v]? = some (some p)) :
    ∃ s', free s v = some s' ∧ Rel s' ⟨a.errors.set e none, a.vars⟩ := by
  have hl := h.len
  have hlt : e < a.errors.length := by grind
  obtain ⟨q, hp, ht⟩ := h.err e p _ hloc he
  have hs := sum_set_none a.errors e _ he
  have hcnt := h.count
  have hplt : p < s.cells.length := by grind
  -- the cells after
  obtain ⟨s', hs', hvars, hcells⟩ : ∃ s', free s v = some s' ∧ s'.vars = s.vars ∧
      s'.cells = (match q with | none => s.cells | some q => s.cells.set q none).set p none := by
    cases q with
    | none => exact ⟨⟨s.cells.set p none, s.vars⟩, by simp [free, hr, loadErr_of hp, freeBlock, load, hp], rfl, rfl⟩
    | some q =>
      cases t with
      | none => simp [Txt] at ht
      | some t =>
        simp only [Txt] at ht
        have hne : q ≠ p := by intro e; subst e; rw [hp] at ht; simp at ht
        refine ⟨⟨(s.cells.set q none).set p none, s.vars⟩, ?_, rfl, rfl⟩
        simp [free, hr, loadErr_of hp, freeBlock, load, hp, ht, List.getElem?_set, hne]
  refine ⟨s', hs', loc, ?_⟩
  -- what is behind a pointer after
  have hget : ∀ k : Nat, s'.cells[k]? = if k = p ∨ some k = q then (s.cells[k]?).map (fun _ => none) else s.cells[k]? := by
    intro k
    rw [hcells]
    cases q with
    | none =>
      simp only [List.getElem?_set]
      by_cases hk : p = k
      · subst hk; simp [hplt]
      · simp [hk, Ne.symm hk]
    | some q =>
      simp only [List.getElem?_set, List.length_set]
      by_cases hk : p = k
      · subst hk; simp [hplt]
      · by_cases hk' : q = k
        · subst hk'
          simp only [hk, Ne.symm hk, if_false, if_true, or_true]
          split <;> grind
        · simp [hk, Ne.symm hk, hk', Ne.symm hk']
  have hlive : ∀ (k : Nat) c', s'.cells[k]? = some (some c') → s.cells[k]? = some (some c') := by
    intro k c' hk
    rw [hget] at hk
    split at hk
    · cases hh : s.cells[k]? <;> simp [hh] at hk
    · exact hk
  have hlen : s'.cells.length = s.cells.length := by rw [hcells]; cases q <;> simp
  refine ⟨by simp [hl], by rw [hvars]; exact h.vars, by simpa using h.shown, ?_, h.inj, ?_, ?_, ?_⟩
  · intro i p' x h1 h2
    simp only [List.getElem?_set] at h2
    by_cases hi : e = i
    · subst hi
      simp [hlt] at h2
      subst h2
      rw [hloc] at h1
      cases h1
      simp only [At]; rw [hget]; simp [hp]
    · simp [hi] at h2
      have hat := h.err i p' x h1 h2
      cases x with
      | none =>
        simp only [At] at hat ⊢
        rw [hget]
        split <;> simp [hat]
      | some x =>
        obtain ⟨q', hp', ht'⟩ := hat
        have hpp : p' ≠ p := by
          intro e'; subst e'
          exact hi (h.inj _ _ _ hloc h1)
        have hpq : some p' ≠ q := by
          intro e'; subst e'
          cases t with
          | none => simp [Txt] at ht
          | some t => simp only [Txt] at ht; rw [hp'] at ht; simp at ht
        refine ⟨q', by rw [hget]; simp [hpp, hpq, hp'], ?_⟩
        obtain ⟨c', t'⟩ := x
        cases q' with
        | none => cases t' <;> simp_all [Txt]
        | some q' =>
          cases t' with
          | none => simp [Txt] at ht'
          | some t' =>
            simp only [Txt] at ht' ⊢
            have h1 : q' ≠ p := by intro e; subst e; rw [hp] at ht'; simp at ht'
            have h2 : some q' ≠ q := by
              intro e; subst e
              exact hpp (h.own p' p _ _ _ _ _ hp' hp)
            rw [hget]
            simp [h1, h2, ht']
  · intro p1 p2 c1 q1 d1 c2 d2 h1 h2
    exact h.own p1 p2 c1 q1 d1 c2 d2 (hlive _ _ h1) (hlive _ _ h2)
  · intro p1 c1 q1 d1 h1
    rw [hlen]
    exact h.bound p1 c1 q1 d1 (hlive _ _ h1)
  · simp only [St.blocks] at hcnt ⊢
    rw [hcells]
    cases q with
    | none =>
      have := count_set s.cells p _ hp
      cases t with
      | some t => simp [Txt] at ht
      | none => simp only [Spec.Err.blocks] at hs; simp only; omega
    | some q =>
      cases t with
      | none => simp [Txt] at ht
      | some t =>
        simp only [Txt] at ht
        have hne : q ≠ p := by intro e; subst e; rw [hp] at ht; simp at ht
        have e1 := count_set s.cells q _ ht
        have e2 := count_set (s.cells.set q none) p (.err c (some q) magic) (by simp [List.getElem?_set, hne, hp])
        simp only [Spec.Err.blocks] at hs
        simp only
        omega

theorem spec_len {L : Libc Arg} {a a' : Shown} {c : Call Arg} (h : Spec.Err.step L a c = some a') : a'.vars.length = a.vars.length := by
  simp only [Spec.Err.step] at h
  repeat' split at h
  all_goals first
    | contradiction
    | (cases h; simp [Shown.report])

/-- One call: undefined behaviour where the specification has none, and what the variables show. -/
theorem step_rel {L : Libc Arg} {s : St} {a : Shown} (h : Rel s a) (c : Call Arg) (hk : Spec.Err.Known a.vars.length c) :
    (Spec.Err.step L a c = none → step true L s c = none) ∧
    (∀ a', Spec.Err.step L a c = some a' → ∃ s', step true L s c = some s' ∧ Rel s' a') := by
  cases c with
  | new mem str code text out =>
    cases out with
    | none => cases mem <;> cases str <;> cases text <;> simp [Spec.Err.step, step, new, h]
    | some v =>
      cases mem with
      | false => cases str <;> cases text <;> simp [Spec.Err.step, step, new, h]
      | true =>
        cases str with
        | true => simpa [Spec.Err.step, step] using new_rel h code text v true (.inl rfl)
        | false =>
          cases text with
          | none => simpa [Spec.Err.step, step] using new_rel h code none v false (.inr rfl)
          | some t => simp [Spec.Err.step, step, new, strdup]
  | report mem str out code f args =>
    cases out with
    | none => cases mem <;> cases str <;> simp [Spec.Err.step, step, report, h]
    | some v =>
      have := report_rel L h mem str code f args v
      cases mem <;> cases str <;> simpa [Spec.Err.step, step] using this
  | clear v => simpa [Spec.Err.step, step] using clear_rel h v
  | copy v w =>
    have hlt : w < a.vars.length := hk.2
    have hw := List.getElem?_eq_getElem hlt
    obtain ⟨r, h1, _, h3⟩ := assign_rel h v (a.vars[w]) (fun e he => by rw [← he]; exact List.getElem_mem _) [] (by simp)
    have h4 := h3 w hw
    simp only [List.append_nil] at h1
    simp [Spec.Err.step, step, hw, h4, store, h1]
  | free v =>
    obtain ⟨loc, hR⟩ := h
    rcases var_of hR hk with ⟨h1, h2⟩ | ⟨e, p, x, h1, h2, h3, h4, h5⟩
    · simp [Spec.Err.step, step, h1, free, h2]
      exact ⟨loc, hR⟩
    · cases x with
      | none =>
        simp only [At] at h5
        simp [Spec.Err.step, step, h1, h2, free, h4, loadErr, load, h5]
      | some x => simpa [Spec.Err.step, step, h1, h2] using free_rel hR h2 h3 h4

theorem run_rel {L : Libc Arg} (cs : List (Call Arg)) : ∀ {s : St} {a : Shown}, Rel s a → (∀ c ∈ cs, Spec.Err.Known a.vars.length c) →
    (Spec.Err.run L a cs = none → run true L s cs = none) ∧
    (∀ a', Spec.Err.run L a cs = some a' → a'.vars.length = a.vars.length ∧ ∃ s', run true L s cs = some s' ∧ Rel s' a') := by
  induction cs with
  | nil => intro s a h _; simp [Spec.Err.run, run, h]
  | cons c cs ih =>
    intro s a h hk
    have h1 := step_rel (L := L) h c (hk c (by simp))
    cases hs : Spec.Err.step L a c with
    | none => simp [Spec.Err.run, run, hs, h1.1 hs]
    | some a1 =>
      obtain ⟨s1, hs1, hr1⟩ := h1.2 a1 hs
      have := ih hr1 (fun c' hc' => by rw [spec_len hs]; exact hk c' (by simp [hc']))
      rw [spec_len hs] at this
      simpa [Spec.Err.run, run, hs, hs1] using this

theorem init_rel (n : Nat) : Rel (init n) (Spec.Err.init n) :=
  ⟨[], by simp [Spec.Err.init], by simp [init, Spec.Err.init], by simp [Spec.Err.init], by simp, by simp, by simp [init], by simp [init],
    by simp [St.blocks, init, Spec.Err.init]⟩

end Axl.Err
