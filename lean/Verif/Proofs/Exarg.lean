/-
Proofs about the options of a command line.
-/
import Verif.Model.Exarg
import Verif.Spec.Exarg

namespace Axl
namespace Exarg
open Str Spec.Exarg

/-! ## The form of the words -/

theorem dashed_iff (w : List Char) : dashed w = true ↔ Dashed w := by
  unfold dashed Dashed
  match w with
  | [] => simp
  | [a] => simp
  | [a, b] =>
    simp only [List.take_succ_cons, List.take_zero, List.length_cons, List.length_nil, List.head?_cons, Bool.or_eq_true,
      decide_eq_true_eq, Bool.and_eq_true, List.cons.injEq, Option.some.injEq]
    constructor
    · rintro (⟨rfl, rfl, -⟩ | ⟨-, rfl⟩)
      · exact .inl ⟨[], by simp⟩
      · exact .inr ⟨b, by simp⟩
    · rintro (⟨r, rfl, rfl, -⟩ | ⟨c, rfl, -⟩)
      · exact .inl ⟨rfl, rfl, trivial⟩
      · exact .inr ⟨trivial, rfl⟩
  | a :: b :: c :: r =>
    simp

theorem slashed_iff (w : List Char) : slashed w = true ↔ Slashed w := by
  unfold slashed Slashed
  match w with
  | [] => simp
  | a :: r =>
    simp only [List.length_cons, List.head?_cons, List.drop_succ_cons, List.drop_zero, Bool.and_eq_true, decide_eq_true_eq,
      Bool.not_eq_true', List.cons.injEq, Option.some.injEq]
    constructor
    · rintro ⟨⟨h1, rfl⟩, h2⟩
      exact ⟨r, ⟨rfl, rfl⟩, by omega, by simpa using h2⟩
    · rintro ⟨r', ⟨rfl, rfl⟩, h1, h2⟩
      exact ⟨⟨by omega, rfl⟩, by simpa using h2⟩

theorem not_both {w : List Char} (h : dashed w = true) : slashed w = false := by
  cases hs : slashed w with
  | false => rfl
  | true =>
    obtain ⟨r, rfl, -⟩ := (slashed_iff w).1 hs
    rcases (dashed_iff _).1 h with ⟨r', h⟩ | ⟨c, h⟩ <;> cases h

/-- What is an option, for the mode at some place and the words from it. -/
def pred : Option Mode → List (List Char) → List Char → Bool
  | some .unix, _ => dashed
  | some .windows, _ => slashed
  | none, [] => fun _ => false
  | none, w :: ws => if dashed w then dashed else if slashed w then slashed else pred none ws

theorem pred_neither {x : List Char} (h1 : dashed x = false) (h2 : slashed x = false) (m : Option Mode) :
    ∀ ws, pred m ws x = false := by
  intro ws
  match m with
  | some .unix => simpa [pred] using h1
  | some .windows => simpa [pred] using h2
  | none =>
    induction ws with
    | nil => rfl
    | cons w ws ih =>
      simp only [pred]
      split
      · exact h1
      · split
        · exact h2
        · exact ih

theorem isArgument_fst (s : State) (w : List Char) (ws : List (List Char)) : (isArgument s w).1 = pred s.mode (w :: ws) w := by
  unfold isArgument
  cases hm : s.mode with
  | none =>
    cases hd : dashed w
    · cases hs : slashed w
      · simp only [pred, hd, hs]
        have := pred_neither hd hs none ws
        simp [this]
      · simp [pred, hd, hs]
    · simp [pred, hd]
  | some m =>
    cases m
    · cases hd : dashed w <;> simp [pred, hd]
    · cases hs : slashed w <;> simp [pred, hs]

theorem isArgument_mode (s : State) (w : List Char) (ws : List (List Char)) :
    pred (isArgument s w).2.mode ws = pred s.mode (w :: ws) := by
  unfold isArgument
  cases hm : s.mode with
  | none =>
    cases hd : dashed w
    · cases hs : slashed w
      · simp [pred, hd, hs, hm]
      · simp [pred, hd, hs]
    · simp [pred, hd]
  | some m =>
    cases m
    · cases hd : dashed w <;> simp [pred, hm]
    · cases hs : slashed w <;> simp [pred, hm]

theorem isArgument_rest (s : State) (w : List Char) :
    (isArgument s w).2.opts = s.opts ∧ (isArgument s w).2.params = s.params ∧ (isArgument s w).2.noFree = s.noFree := by
  unfold isArgument
  split
  · exact ⟨rfl, rfl, rfl⟩
  · split <;> exact ⟨rfl, rfl, rfl⟩

theorem pred_none_iff : ∀ (words : List (List Char)) (w : List Char), pred none words w = true ↔ IsOption words w := by
  intro words
  induction words with
  | nil =>
    intro w
    simp only [pred]
    refine ⟨(nomatch ·), ?_⟩
    rintro (⟨⟨a, x, b, h, -⟩, -⟩ | ⟨⟨a, x, b, h, -⟩, -⟩) <;> simp at h
  | cons x xs ih =>
    intro w
    simp only [pred]
    by_cases hd : dashed x = true
    · rw [if_pos hd, dashed_iff]
      have hx := (dashed_iff x).1 hd
      constructor
      · intro h
        exact .inl ⟨⟨[], x, xs, rfl, hx, by simp⟩, h⟩
      · rintro (⟨-, h⟩ | ⟨⟨a, y, b, h, hy, hn⟩, -⟩)
        · exact h
        · exfalso
          cases a with
          | nil =>
            cases h
            have := not_both hd
            rw [(slashed_iff x).2 hy] at this
            cases this
          | cons c a =>
            cases h
            exact (hn x (List.mem_cons_self ..)).1 hx
    · rw [if_neg hd]
      have hxd : ¬ Dashed x := fun h => hd ((dashed_iff x).2 h)
      by_cases hs : slashed x = true
      · rw [if_pos hs, slashed_iff]
        have hx := (slashed_iff x).1 hs
        constructor
        · intro h
          exact .inr ⟨⟨[], x, xs, rfl, hx, by simp⟩, h⟩
        · rintro (⟨⟨a, y, b, h, hy, hn⟩, -⟩ | ⟨-, h⟩)
          · exfalso
            cases a with
            | nil => cases h; exact hxd hy
            | cons c a => cases h; exact (hn x (List.mem_cons_self ..)).2 hx
          · exact h
      · rw [if_neg hs, ih]
        have hxs : ¬ Slashed x := fun h => hs ((slashed_iff x).2 h)
        have key : ∀ form : List Char → Prop, ¬ form x → (Style form xs ↔ Style form (x :: xs)) := by
          intro form hf
          constructor
          · rintro ⟨a, y, b, rfl, hy, hn⟩
            refine ⟨x :: a, y, b, rfl, hy, ?_⟩
            intro z hz
            rcases List.mem_cons.1 hz with rfl | hz
            · exact ⟨hxd, hxs⟩
            · exact hn z hz
          · rintro ⟨a, y, b, h, hy, hn⟩
            cases a with
            | nil => cases h; exact absurd hy hf
            | cons c a =>
              cases h
              exact ⟨a, y, b, rfl, hy, fun z hz => hn z (List.mem_cons_of_mem _ hz)⟩
        unfold IsOption
        rw [key _ hxd, key _ hxs]

theorem getArgument_eq {w : List Char} (h : dashed w = true ∨ slashed w = true) : getArgument w = some (bare w) := by
  rcases h with h | h
  · rcases (dashed_iff w).1 h with ⟨r, rfl⟩ | ⟨c, rfl⟩
    · rfl
    · by_cases hc : c = '-'
      · subst hc; rfl
      · have : bare ['-', c] = [c] := by
          rw [bare]
          intro r _ h
          cases h
          exact hc rfl
        rw [this]
        simp [getArgument, hc]
  · obtain ⟨r, rfl, h1, -⟩ := (slashed_iff w).1 h
    have : bare ('/' :: r) = r := by
      rw [bare]
      intro r' h
      cases h
    rw [this]
    match r, h1 with
    | a :: b :: r, _ => simp [getArgument]

theorem pred_form {m : Option Mode} {ws : List (List Char)} {w : List Char} (h : pred m ws w = true) :
    dashed w = true ∨ slashed w = true := by
  cases hd : dashed w
  · cases hs : slashed w
    · rw [pred_neither hd hs m ws] at h
      cases h
    · exact .inr rfl
  · exact .inl rfl

/-! ## Names -/

theorem reserved_iff (a : List Char) : (isHelp a = true ∨ isUsage a = true) ↔ Reserved a := by
  have key : ∀ (p a : List Char), a.take p.length = p ↔ ∃ r, a = p ++ r := by
    intro p a
    constructor
    · intro h
      refine ⟨a.drop p.length, ?_⟩
      conv => lhs; rw [← List.take_append_drop p.length a, h]
    · rintro ⟨r, rfl⟩
      exact List.take_left
  have h1 := key c!"help" a
  have h2 := key c!"?" a
  have h3 := key c!"usage" a
  simp only [List.length_cons, List.length_nil, Nat.zero_add, Nat.reduceAdd] at h1 h2 h3
  unfold isHelp isUsage Reserved
  simp only [Bool.or_eq_true, decide_eq_true_eq, h1, h2, h3]
  constructor
  · rintro ((⟨r, h⟩ | ⟨r, h⟩) | ⟨r, h⟩)
    · exact ⟨r, .inl h⟩
    · exact ⟨r, .inr (.inl h)⟩
    · exact ⟨r, .inr (.inr h)⟩
  · rintro ⟨r, h | h | h⟩
    · exact .inl (.inl ⟨r, h⟩)
    · exact .inl (.inr ⟨r, h⟩)
    · exact .inr ⟨r, h⟩

theorem named_iff (a : List Char) (o : Opt) : named a o = true ↔ Called o a := by
  simp [named, Called]

theorem lookup_iff (opts : List Opt) (a : List Char) (i : Nat) : lookup opts a = some i ↔ Names opts a i := by
  unfold lookup Names
  rw [List.findIdx?_eq_some_iff_getElem]
  constructor
  · rintro ⟨h, h1, h2⟩
    refine ⟨opts[i], List.getElem?_eq_getElem h, (named_iff _ _).1 h1, ?_⟩
    intro j hj p hp hc
    obtain ⟨hlt, rfl⟩ := List.getElem?_eq_some_iff.1 hp
    exact h2 j hj ((named_iff _ _).2 hc)
  · rintro ⟨o, h, h1, h2⟩
    obtain ⟨hlt, rfl⟩ := List.getElem?_eq_some_iff.1 h
    refine ⟨hlt, (named_iff _ _).2 h1, ?_⟩
    intro j hj hc
    exact h2 j hj _ (List.getElem?_eq_getElem (by omega)) ((named_iff _ _).1 hc)

/-- A change that keeps the name and the kind. -/
structure Keeps (f : Opt → Opt) : Prop where
  name     : ∀ o, (f o).name = o.name
  short    : ∀ o, (f o).short = o.short
  kind     : ∀ o, (f o).kind = o.kind
  optional : ∀ o, (f o).optional = o.optional
  depends  : ∀ o, (f o).depends = o.depends
  excludes : ∀ o, (f o).excludes = o.excludes

theorem keeps_define : Keeps (fun o => { o with defined := true }) := ⟨fun _ => rfl, fun _ => rfl, fun _ => rfl, fun _ => rfl, fun _ => rfl, fun _ => rfl⟩

theorem keeps_setValue (atoi : List Char → Int) (v : List Char) : Keeps (setValue atoi v) := by
  constructor <;> (intro o; unfold setValue; split <;> rfl)

theorem setValue_defined (atoi : List Char → Int) (v : List Char) (o : Opt) : (setValue atoi v o).defined = o.defined := by
  unfold setValue; split <;> rfl

/-- Two lists of options that differ in what is given only. -/
def Alike (a b : List Opt) : Prop :=
  a.map (fun o => (o.name, o.short, o.kind, o.optional, o.depends, o.excludes)) =
    b.map (fun o => (o.name, o.short, o.kind, o.optional, o.depends, o.excludes))

theorem alike_modify {f : Opt → Opt} (hf : Keeps f) (opts : List Opt) (i : Nat) : Alike (opts.modify i f) opts := by
  unfold Alike
  apply List.ext_getElem?
  intro j
  simp only [List.getElem?_map, List.getElem?_modify]
  cases opts[j]? with
  | none => rfl
  | some o =>
    simp only [Option.map_some]
    split <;> simp [hf.name, hf.short, hf.kind, hf.optional, hf.depends, hf.excludes]

theorem alike_get {a b : List Opt} (h : Alike a b) {i : Nat} {o : Opt} (ho : a[i]? = some o) :
    ∃ p, b[i]? = some p ∧ p.name = o.name ∧ p.short = o.short ∧ p.kind = o.kind ∧ p.optional = o.optional ∧
      p.depends = o.depends ∧ p.excludes = o.excludes := by
  have := congrArg (·[i]?) h
  simp only [List.getElem?_map, ho, Option.map_some] at this
  cases hp : b[i]? with
  | none => rw [hp] at this; cases this
  | some p =>
    rw [hp] at this
    simp only [Option.map_some, Option.some.injEq, Prod.mk.injEq] at this
    obtain ⟨h1, h2, h3, h4, h5, h6⟩ := this
    exact ⟨p, rfl, h1.symm, h2.symm, h3.symm, h4.symm, h5.symm, h6.symm⟩

theorem alike_names {a b : List Opt} (h : Alike a b) {n : List Char} {i : Nat} (hn : Names a n i) : Names b n i := by
  obtain ⟨o, ho, hc, hlt⟩ := hn
  obtain ⟨p, hp, h1, h2, -⟩ := alike_get h ho
  refine ⟨p, hp, ?_, ?_⟩
  · unfold Called at hc ⊢
    rw [h1, h2]; exact hc
  · intro j hj q hq hcq
    obtain ⟨r, hr, h3, h4, -⟩ := alike_get h.symm hq
    refine hlt j hj r hr ?_
    unfold Called at hcq ⊢
    rw [h3, h4]; exact hcq

/-! ## The loop -/

/-- What an item does to the options. -/
def apply1 (atoi : List Char → Int) (opts : List Opt) : Item → List Opt
  | .free _ => opts
  | .flag _ i => opts.modify i fun o => { o with defined := true }
  | .valued _ i v => (opts.modify i fun o => { o with defined := true }).modify i (setValue atoi v)

/-- What items do to the options. -/
def applyAll (atoi : List Char → Int) (opts : List Opt) (items : List Item) : List Opt := items.foldl (apply1 atoi) opts

theorem alike_apply1 (atoi : List Char → Int) (opts : List Opt) (it : Item) : Alike (apply1 atoi opts it) opts := by
  cases it with
  | free w => rfl
  | flag w i => exact alike_modify keeps_define _ _
  | valued w i v => exact Eq.trans (alike_modify (keeps_setValue atoi v) _ _) (alike_modify keeps_define _ _)

theorem alike_applyAll (atoi : List Char → Int) : ∀ (items : List Item) (opts : List Opt), Alike (applyAll atoi opts items) opts
  | [], _ => rfl
  | it :: items, opts => Eq.trans (alike_applyAll atoi items _) (alike_apply1 atoi opts it)

/-- As `Good`, for a given meaning of option. -/
def Fits (opts : List Opt) (P : List Char → Bool) : Item → Prop
  | .free w => P w = false
  | .flag w i => P w = true ∧ ¬ Reserved (bare w) ∧ Names opts (bare w) i ∧ ∃ o, opts[i]? = some o ∧ o.kind = .none
  | .valued w i v => P w = true ∧ ¬ Reserved (bare w) ∧ Names opts (bare w) i ∧ P v = false ∧
      ∃ o, opts[i]? = some o ∧ o.kind ≠ .none

theorem fits_alike {a b : List Opt} (h : Alike a b) {P : List Char → Bool} {it : Item} (hf : Fits a P it) : Fits b P it := by
  cases it with
  | free w => exact hf
  | flag w i =>
    obtain ⟨h1, h2, h3, o, ho, hk⟩ := hf
    obtain ⟨p, hp, -, -, hkp, -⟩ := alike_get h ho
    exact ⟨h1, h2, alike_names h h3, p, hp, by rw [hkp]; exact hk⟩
  | valued w i v =>
    obtain ⟨h1, h2, h3, h4, o, ho, hk⟩ := hf
    obtain ⟨p, hp, -, -, hkp, -⟩ := alike_get h ho
    exact ⟨h1, h2, alike_names h h3, h4, p, hp, by rw [hkp]; exact hk⟩

theorem good_iff (opts : List Opt) (words : List (List Char)) (it : Item) : Good opts words it ↔ Fits opts (pred none words) it := by
  have h := pred_none_iff words
  have h' : ∀ w, pred none words w = false ↔ ¬ IsOption words w := by
    intro w
    rw [← h w]
    simp
  cases it <;> simp only [Good, Fits, h, h']

/-- The option is not defined. -/
def Undef (opts : List Opt) (i : Nat) : Prop := ∀ o, opts[i]? = some o → o.defined = false

theorem undef_apply1 (atoi : List Char → Int) {opts : List Opt} {it : Item} {i : Nat} (h : it.opt ≠ some i) :
    (apply1 atoi opts it)[i]? = opts[i]? := by
  cases it with
  | free w => rfl
  | flag w j =>
    have : j ≠ i := fun e => h (by rw [e]; rfl)
    simp [apply1, List.getElem?_modify, this]
  | valued w j v =>
    have : j ≠ i := fun e => h (by rw [e]; rfl)
    simp [apply1, List.getElem?_modify, this]

/-- The loop on an option: what is left to do. -/
theorem loop_option (atoi : List Char → Int) (s : State) (w : List Char) (ws : List (List Char)) {i : Nat} {o : Opt}
    (hP : pred s.mode (w :: ws) w = true) (hr : ¬ Reserved (bare w)) (hn : Names s.opts (bare w) i) (ho : s.opts[i]? = some o)
    (hd : o.defined = false) :
    loop atoi s (w :: ws) =
      (match o.kind, ws with
      | .none, ws => loop atoi (update (isArgument s w).2 i fun o => { o with defined := true }) ws
      | _, [] => .exit .noValue
      | _, v :: ws =>
        if (isArgument (update (isArgument s w).2 i fun o => { o with defined := true }) v).1 then .exit .noValue
        else loop atoi (update (isArgument (update (isArgument s w).2 i fun o => { o with defined := true }) v).2 i (setValue atoi v)) ws) := by
  have h1 : (isArgument s w).1 = true := by rw [isArgument_fst s w ws, hP]
  have h2 := getArgument_eq (pred_form hP)
  have h3 : isHelp (bare w) = false := by
    cases h : isHelp (bare w) with
    | false => rfl
    | true => exact absurd ((reserved_iff _).1 (.inl h)) hr
  have h4 : isUsage (bare w) = false := by
    cases h : isUsage (bare w) with
    | false => rfl
    | true => exact absurd ((reserved_iff _).1 (.inr h)) hr
  have h5 := (lookup_iff _ _ _).2 hn
  conv => lhs; unfold loop
  simp only [h1, h2, h3, h4, h5, ho, hd, Bool.not_true, Bool.false_eq_true, if_false]
  cases o.kind <;> cases ws <;> rfl

/-- The state after an option and its value are looked at. -/
theorem two_steps (s : State) (w v : List Char) (i : Nat) (ws : List (List Char)) :
    (isArgument (update (isArgument s w).2 i fun o => { o with defined := true }) v).2.opts =
      s.opts.modify i (fun o => { o with defined := true }) ∧
    (isArgument (update (isArgument s w).2 i fun o => { o with defined := true }) v).2.params = s.params ∧
    (isArgument (update (isArgument s w).2 i fun o => { o with defined := true }) v).2.noFree = s.noFree ∧
    pred (isArgument (update (isArgument s w).2 i fun o => { o with defined := true }) v).2.mode ws = pred s.mode (w :: v :: ws) ∧
    (isArgument (update (isArgument s w).2 i fun o => { o with defined := true }) v).1 = pred s.mode (w :: v :: ws) v := by
  obtain ⟨h1, h2, h3⟩ := isArgument_rest s w
  obtain ⟨g1, g2, g3⟩ := isArgument_rest (update (isArgument s w).2 i fun o => { o with defined := true }) v
  have hm := isArgument_mode s w (v :: ws)
  refine ⟨by rw [g1, update, h1], by rw [g2, update, h2], by rw [g3, update, h3], ?_, ?_⟩
  · rw [isArgument_mode]; exact hm
  · rw [isArgument_fst _ v ws]; exact congrFun hm v

/-- A loop that ends has read its words as items. -/
theorem loop_items (atoi : List Char → Int) : ∀ (n : Nat) (ws : List (List Char)) (s s' : State), ws.length ≤ n →
    loop atoi s ws = .ok s' →
    ∃ items : List Item, ws = items.flatMap Item.words ∧ (∀ it ∈ items, Fits s.opts (pred s.mode ws) it) ∧
      (items.filterMap Item.opt).Nodup ∧ (∀ it ∈ items, ∀ i, it.opt = some i → Undef s.opts i) ∧
      (s.noFree = true → frees items = []) ∧ s'.params = s.params ++ frees items ∧ s'.opts = applyAll atoi s.opts items := by
  intro n
  induction n with
  | zero =>
    intro ws s s' hl h
    cases ws with
    | nil =>
      simp only [loop, Out.ok.injEq] at h
      subst h
      exact ⟨[], rfl, by simp, by simp, by simp, by simp [frees], by simp [frees], rfl⟩
    | cons w ws => simp at hl
  | succ n ih =>
    intro ws s s' hl h
    cases ws with
    | nil =>
      simp only [loop, Out.ok.injEq] at h
      subst h
      exact ⟨[], rfl, by simp, by simp, by simp, by simp [frees], by simp [frees], rfl⟩
    | cons w ws =>
      simp only [List.length_cons] at hl
      have hl' : ws.length ≤ n := by omega
      obtain ⟨hr1, hr2, hr3⟩ := isArgument_rest s w
      have hm := isArgument_mode s w ws
      cases hP : pred s.mode (w :: ws) w with
      | false =>
        have h1 : (isArgument s w).1 = false := by rw [isArgument_fst s w ws, hP]
        unfold loop at h
        simp only [h1, Bool.not_false, if_true] at h
        split at h
        · cases h
        · next hnf =>
          obtain ⟨items, e, a1, a2, a3, a4, a5, a6⟩ := ih ws _ _ hl' h
          simp only [hr1, hm] at a1 a3 a6
          refine ⟨.free w :: items, by simp [e, Item.words], ?_, a2, ?_, fun hc => absurd hc hnf, ?_, a6⟩
          · intro it hit
            rcases List.mem_cons.1 hit with rfl | hit
            · exact hP
            · exact a1 it hit
          · intro it hit i hi
            rcases List.mem_cons.1 hit with rfl | hit
            · cases hi
            · exact a3 it hit i hi
          · rw [a5]
            simp [frees, Item.freeWord]
      | true =>
        have h1 : (isArgument s w).1 = true := by rw [isArgument_fst s w ws, hP]
        have h2 := getArgument_eq (pred_form hP)
        have hres : ¬ Reserved (bare w) ∧ ∃ i o, Names s.opts (bare w) i ∧ s.opts[i]? = some o ∧ o.defined = false := by
          unfold loop at h
          simp only [h1, Bool.not_true, Bool.false_eq_true, if_false, h2] at h
          split at h
          · cases h
          · next a1 =>
            split at h
            · cases h
            · next a2 =>
              refine ⟨fun hc => ?_, ?_⟩
              · rcases (reserved_iff _).2 hc with hc | hc
                · exact a1 hc
                · exact a2 hc
              · split at h
                · cases h
                · next i hi =>
                  split at h
                  · cases h
                  · next o ho =>
                    split at h
                    · cases h
                    · next hd => exact ⟨i, o, (lookup_iff _ _ _).1 hi, ho, by simpa using hd⟩
        obtain ⟨hr, i, o, hn, ho, hd⟩ := hres
        rw [loop_option atoi s w ws hP hr hn ho hd] at h
        have hund : Undef s.opts i := fun p hp => by
          rw [ho] at hp; cases hp; exact hd
        have hun : ∀ {items : List Item} (it0 : Item), it0.opt = some i →
            (∀ it ∈ items, ∀ j, it.opt = some j → Undef (apply1 atoi s.opts it0) j) →
            (∀ it ∈ items, ∀ j, it.opt = some j → j ≠ i ∧ Undef s.opts j) := by
          intro items it0 h0 hall it hit j hj
          have hu := hall it hit j hj
          by_cases e : j = i
          · exfalso
            subst e
            have hx : ∃ q, (apply1 atoi s.opts it0)[j]? = some q ∧ q.defined = true := by
              cases it0 with
              | free w => cases h0
              | flag w k =>
                cases h0
                refine ⟨{ o with defined := true }, ?_, rfl⟩
                simp [apply1, List.getElem?_modify, ho]
              | valued w k v =>
                cases h0
                refine ⟨setValue atoi v { o with defined := true }, ?_, by rw [setValue_defined]⟩
                simp [apply1, List.getElem?_modify, ho]
            obtain ⟨q, hq, hqd⟩ := hx
            rw [hu q hq] at hqd
            cases hqd
          · refine ⟨e, fun p hp => hu p ?_⟩
            rw [undef_apply1 atoi (by rw [h0]; simpa using Ne.symm e)]
            exact hp
        have fin : ∀ (it0 : Item) (rest : List (List Char)) (items : List Item), it0.opt = some i → it0.freeWord = none →
            w :: ws = it0.words ++ rest → rest = items.flatMap Item.words → Fits s.opts (pred s.mode (w :: ws)) it0 →
            (∀ it ∈ items, Fits (apply1 atoi s.opts it0) (pred s.mode (w :: ws)) it) → (items.filterMap Item.opt).Nodup →
            (∀ it ∈ items, ∀ j, it.opt = some j → Undef (apply1 atoi s.opts it0) j) →
            (s.noFree = true → frees items = []) → s'.params = s.params ++ frees items →
            s'.opts = applyAll atoi (apply1 atoi s.opts it0) items →
            ∃ items : List Item, w :: ws = items.flatMap Item.words ∧ (∀ it ∈ items, Fits s.opts (pred s.mode (w :: ws)) it) ∧
              (items.filterMap Item.opt).Nodup ∧ (∀ it ∈ items, ∀ i, it.opt = some i → Undef s.opts i) ∧
              (s.noFree = true → frees items = []) ∧ s'.params = s.params ++ frees items ∧
              s'.opts = applyAll atoi s.opts items := by
          intro it0 rest items h0 hf0 e1 e2 g0 a1 a2 a3 a4 a5 a6
          have hu := hun it0 h0 a3
          refine ⟨it0 :: items, by rw [e1, e2, List.flatMap_cons], ?_, ?_, ?_, ?_, ?_, a6⟩
          · intro it hit
            rcases List.mem_cons.1 hit with rfl | hit
            · exact g0
            · exact fits_alike (alike_apply1 atoi s.opts it0) (a1 it hit)
          · rw [List.filterMap_cons, h0]
            refine List.nodup_cons.2 ⟨fun hc => ?_, a2⟩
            obtain ⟨it, hit, hj⟩ := List.mem_filterMap.1 hc
            exact (hu it hit i hj).1 rfl
          · intro it hit j hj
            rcases List.mem_cons.1 hit with rfl | hit
            · rw [h0] at hj; cases hj; exact hund
            · exact (hu it hit j hj).2
          · intro hc
            simp only [frees, List.filterMap_cons, hf0]
            exact a4 hc
          · simp only [frees, List.filterMap_cons, hf0]
            exact a5
        cases hk : o.kind with
        | none =>
          simp only [hk] at h
          obtain ⟨items, e, a1, a2, a3, a4, a5, a6⟩ := ih ws _ _ hl' h
          simp only [update, hr1, hr2, hr3, hm] at a1 a3 a4 a5 a6
          exact fin (.flag w i) ws items rfl rfl rfl e ⟨hP, hr, hn, o, ho, hk⟩ a1 a2 a3 a4 a5 a6
        | int =>
          cases ws with
          | nil => simp only [hk] at h; cases h
          | cons v ws =>
            simp only [hk] at h
            split at h
            · cases h
            · next hv =>
              simp only [List.length_cons] at hl'
              obtain ⟨items, e, a1, a2, a3, a4, a5, a6⟩ := ih ws _ _ (by omega) h
              obtain ⟨b1, b2, b3, b4, b5⟩ := two_steps s w v i ws
              rw [b5] at hv
              generalize (isArgument (update (isArgument s w).2 i fun o => { o with defined := true }) v).2 = s2 at b1 b2 b3 b4 a1 a3 a4 a5 a6
              simp only [update, b1, b2, b3, b4] at a1 a3 a4 a5 a6
              exact fin (.valued w i v) ws items rfl rfl rfl e ⟨hP, hr, hn, by simpa using hv, o, ho, by rw [hk]; decide⟩
                a1 a2 a3 a4 a5 a6
        | string =>
          cases ws with
          | nil => simp only [hk] at h; cases h
          | cons v ws =>
            simp only [hk] at h
            split at h
            · cases h
            · next hv =>
              simp only [List.length_cons] at hl'
              obtain ⟨items, e, a1, a2, a3, a4, a5, a6⟩ := ih ws _ _ (by omega) h
              obtain ⟨b1, b2, b3, b4, b5⟩ := two_steps s w v i ws
              rw [b5] at hv
              generalize (isArgument (update (isArgument s w).2 i fun o => { o with defined := true }) v).2 = s2 at b1 b2 b3 b4 a1 a3 a4 a5 a6
              simp only [update, b1, b2, b3, b4] at a1 a3 a4 a5 a6
              exact fin (.valued w i v) ws items rfl rfl rfl e ⟨hP, hr, hn, by simpa using hv, o, ho, by rw [hk]; decide⟩
                a1 a2 a3 a4 a5 a6

/-- Words that are items are read. -/
theorem loop_reads (atoi : List Char → Int) : ∀ (items : List Item) (s : State),
    (∀ it ∈ items, Fits s.opts (pred s.mode (items.flatMap Item.words)) it) → (items.filterMap Item.opt).Nodup →
    (∀ it ∈ items, ∀ i, it.opt = some i → Undef s.opts i) → (s.noFree = true → frees items = []) →
    ∃ s', loop atoi s (items.flatMap Item.words) = .ok s'
  | [], s, _, _, _, _ => ⟨s, rfl⟩
  | it0 :: items, s, hf, hn, hu, hfree => by
    have hf0 := hf it0 (List.mem_cons_self ..)
    have hfs := fun it hit => hf it (List.mem_cons_of_mem _ hit)
    have hus := fun it hit => hu it (List.mem_cons_of_mem _ hit)
    have hnext : ∀ i, it0.opt = some i → ∀ it ∈ items, ∀ j, it.opt = some j → Undef (apply1 atoi s.opts it0) j := by
      intro i hi it hit j hj p hp
      rw [List.filterMap_cons, hi] at hn
      have hne : j ≠ i := fun e => (List.nodup_cons.1 hn).1 (List.mem_filterMap.2 ⟨it, hit, e ▸ hj⟩)
      rw [undef_apply1 atoi (by rw [hi]; simpa using Ne.symm hne)] at hp
      exact hus it hit j hj p hp
    cases it0 with
    | free w =>
      simp only [List.flatMap_cons, Item.words, List.singleton_append] at hf0 hfs ⊢
      have h1 : (isArgument s w).1 = false := by rw [isArgument_fst s w (items.flatMap Item.words)]; exact hf0
      obtain ⟨hr1, hr2, hr3⟩ := isArgument_rest s w
      have hm := isArgument_mode s w (items.flatMap Item.words)
      have hnf : s.noFree = false := by
        cases h : s.noFree with
        | false => rfl
        | true => have := hfree h; simp [frees, Item.freeWord] at this
      unfold loop
      simp only [h1, Bool.not_false, if_true, hnf, Bool.false_eq_true, if_false]
      refine loop_reads atoi items _ ?_ hn ?_ ?_
      · simpa only [hr1, hm] using hfs
      · simpa only [hr1] using hus
      · intro hc
        simp only [hr3, hnf] at hc
        cases hc
    | flag w i =>
      simp only [List.flatMap_cons, Item.words, List.singleton_append] at hf0 hfs ⊢
      obtain ⟨hP, hr, hnm, o, ho, hk⟩ := hf0
      rw [loop_option atoi s w _ hP hr hnm ho (hu _ (List.mem_cons_self ..) i rfl o ho)]
      simp only [hk]
      obtain ⟨hr1, hr2, hr3⟩ := isArgument_rest s w
      have hm := isArgument_mode s w (items.flatMap Item.words)
      refine loop_reads atoi items _ ?_ ?_ ?_ ?_
      · intro it hit
        have h := fits_alike (alike_apply1 atoi s.opts (.flag w i)).symm (hfs it hit)
        simp only [update, hr1, hm]
        exact h
      · simp only [List.filterMap_cons, Item.opt] at hn
        exact (List.nodup_cons.1 hn).2
      · simp only [update, hr1]
        exact hnext i rfl
      · simp only [update, hr3]
        intro hc
        exact hfree hc
    | valued w i v =>
      simp only [List.flatMap_cons, Item.words, List.cons_append, List.nil_append] at hf0 hfs ⊢
      obtain ⟨hP, hr, hnm, hv, o, ho, hk⟩ := hf0
      rw [loop_option atoi s w _ hP hr hnm ho (hu _ (List.mem_cons_self ..) i rfl o ho)]
      obtain ⟨b1, b2, b3, b4, b5⟩ := two_steps s w v i (items.flatMap Item.words)
      rw [hv] at b5
      have hgo : ∃ s', loop atoi (update (isArgument (update (isArgument s w).2 i fun o => { o with defined := true }) v).2 i
          (setValue atoi v)) (items.flatMap Item.words) = .ok s' := by
        refine loop_reads atoi items _ ?_ ?_ ?_ ?_
        · intro it hit
          have h := fits_alike (alike_apply1 atoi s.opts (.valued w i v)).symm (hfs it hit)
          simp only [update]
          rw [← b4] at h
          simp only [update] at b1 h
          rw [b1]
          exact h
        · simp only [List.filterMap_cons, Item.opt] at hn
          exact (List.nodup_cons.1 hn).2
        · have h := hnext i rfl
          simp only [update] at b1 ⊢
          rw [b1]
          exact h
        · intro hc
          simp only [update] at b3 hc
          rw [b3] at hc
          exact hfree hc
      cases hk' : o.kind with
      | none => exact absurd hk' hk
      | int => simp only [b5, Bool.false_eq_true, if_false]; exact hgo
      | string => simp only [b5, Bool.false_eq_true, if_false]; exact hgo

/-- A loop has no undefined behaviour. -/
theorem loop_safe (atoi : List Char → Int) : ∀ (n : Nat) (ws : List (List Char)) (s : State), ws.length ≤ n →
    loop atoi s ws ≠ .ub := by
  intro n
  induction n with
  | zero =>
    intro ws s hl h
    cases ws with
    | nil => simp [loop] at h
    | cons w ws => simp at hl
  | succ n ih =>
    intro ws s hl h
    cases ws with
    | nil => simp [loop] at h
    | cons w ws =>
      simp only [List.length_cons] at hl
      have hl' : ws.length ≤ n := by omega
      unfold loop at h
      split at h
      · split at h
        · cases h
        · exact ih _ _ hl' h
      · next h1 =>
        rw [isArgument_fst s w ws] at h1
        rw [getArgument_eq (pred_form (m := s.mode) (ws := w :: ws) (by simpa using h1))] at h
        simp only at h
        split at h
        · cases h
        · split at h
          · cases h
          · split at h
            · cases h
            · next i hi =>
              obtain ⟨o, ho, -⟩ := (lookup_iff _ _ _).1 hi
              simp only [ho] at h
              split at h
              · cases h
              · split at h
                · exact ih _ _ hl' h
                · cases h
                · split at h
                  · cases h
                  · exact ih _ _ (by simp only [List.length_cons] at hl'; omega) h

/-- The words are read in one way only. -/
theorem fits_unique {opts : List Opt} {P : List Char → Bool} : ∀ {xs ys : List Item},
    xs.flatMap Item.words = ys.flatMap Item.words → (∀ it ∈ xs, Fits opts P it) → (∀ it ∈ ys, Fits opts P it) → xs = ys := by
  have names : ∀ {a i j}, Names opts a i → Names opts a j → i = j := by
    intro a i j h1 h2
    have e1 := (lookup_iff _ _ _).2 h1
    have e2 := (lookup_iff _ _ _).2 h2
    rw [e1] at e2
    exact Option.some.inj e2
  intro xs
  induction xs with
  | nil =>
    intro ys h _ _
    cases ys with
    | nil => rfl
    | cons y ys => cases y <;> simp [Item.words] at h
  | cons x xs ih =>
    intro ys h hx hy
    cases ys with
    | nil => cases x <;> simp [Item.words] at h
    | cons y ys =>
      have hx0 := hx x (List.mem_cons_self ..)
      have hy0 := hy y (List.mem_cons_self ..)
      have hxs := fun it hit => hx it (List.mem_cons_of_mem _ hit)
      have hys := fun it hit => hy it (List.mem_cons_of_mem _ hit)
      have kinds : ∀ {i : Nat}, (∃ o, opts[i]? = some o ∧ o.kind = .none) → (∃ o, opts[i]? = some o ∧ o.kind ≠ .none) → False := by
        rintro i ⟨o, ho, hk⟩ ⟨p, hp, hk'⟩
        rw [ho] at hp
        cases hp
        exact hk' hk
      cases x with
      | free w =>
        cases y with
        | free w' =>
          simp only [List.flatMap_cons, Item.words, List.singleton_append, List.cons.injEq] at h
          rw [h.1, ih h.2 hxs hys]
        | flag w' i =>
          simp only [List.flatMap_cons, Item.words, List.singleton_append, List.cons.injEq] at h
          obtain ⟨rfl, -⟩ := h
          exact absurd (hx0.symm.trans hy0.1) (by decide)
        | valued w' i v =>
          simp only [List.flatMap_cons, Item.words, List.cons_append, List.nil_append, List.cons.injEq] at h
          obtain ⟨rfl, -⟩ := h
          exact absurd (hx0.symm.trans hy0.1) (by decide)
      | flag w i =>
        cases y with
        | free w' =>
          simp only [List.flatMap_cons, Item.words, List.singleton_append, List.cons.injEq] at h
          obtain ⟨rfl, -⟩ := h
          exact absurd (hy0.symm.trans hx0.1) (by decide)
        | flag w' j =>
          simp only [List.flatMap_cons, Item.words, List.singleton_append, List.cons.injEq] at h
          obtain ⟨rfl, h⟩ := h
          rw [names hx0.2.2.1 hy0.2.2.1, ih h hxs hys]
        | valued w' j v =>
          simp only [List.flatMap_cons, Item.words, List.cons_append, List.nil_append, List.cons.injEq] at h
          obtain ⟨rfl, -⟩ := h
          have e := names hx0.2.2.1 hy0.2.2.1
          subst e
          exact (kinds hx0.2.2.2 hy0.2.2.2.2).elim
      | valued w i v =>
        cases y with
        | free w' =>
          simp only [List.flatMap_cons, Item.words, List.cons_append, List.nil_append, List.cons.injEq] at h
          obtain ⟨rfl, -⟩ := h
          exact absurd (hy0.symm.trans hx0.1) (by decide)
        | flag w' j =>
          simp only [List.flatMap_cons, Item.words, List.cons_append, List.nil_append, List.cons.injEq] at h
          obtain ⟨rfl, -⟩ := h
          have e := names hx0.2.2.1 hy0.2.2.1
          subst e
          exact (kinds hy0.2.2.2 hx0.2.2.2.2).elim
        | valued w' j v' =>
          simp only [List.flatMap_cons, Item.words, List.cons_append, List.nil_append, List.cons.injEq] at h
          obtain ⟨rfl, rfl, h⟩ := h
          rw [names hx0.2.2.1 hy0.2.2.1, ih h hxs hys]

/-! ## What the items leave -/

theorem applyAll_not (atoi : List Char → Int) {i : Nat} : ∀ (items : List Item) (opts : List Opt),
    ¬ Given items i → (applyAll atoi opts items)[i]? = opts[i]?
  | [], _, _ => rfl
  | it :: items, opts, h => by
    have h1 : it.opt ≠ some i := fun e => h ⟨it, List.mem_cons_self .., e⟩
    have h2 : ¬ Given items i := fun ⟨x, hx, e⟩ => h ⟨x, List.mem_cons_of_mem _ hx, e⟩
    have := applyAll_not atoi items (apply1 atoi opts it) h2
    rw [undef_apply1 atoi h1] at this
    exact this

/-- What an item does to its option. -/
def effect (atoi : List Char → Int) (o : Opt) : Item → Opt
  | .free _ => o
  | .flag _ _ => { o with defined := true }
  | .valued _ _ v => setValue atoi v { o with defined := true }

theorem applyAll_given (atoi : List Char → Int) {i : Nat} {it : Item} (hi : it.opt = some i) : ∀ (items : List Item)
    (opts : List Opt), (items.filterMap Item.opt).Nodup → it ∈ items →
    (applyAll atoi opts items)[i]? = (opts[i]?).map (effect atoi · it)
  | [], _, _, h => by cases h
  | x :: items, opts, hn, h => by
    show (applyAll atoi (apply1 atoi opts x) items)[i]? = _
    rcases List.mem_cons.1 h with rfl | h
    · rw [List.filterMap_cons, hi] at hn
      rw [applyAll_not atoi items _ (fun ⟨y, hy, e⟩ => (List.nodup_cons.1 hn).1 (List.mem_filterMap.2 ⟨y, hy, e⟩))]
      cases it with
      | free w => cases hi
      | flag w j =>
        cases hi
        simp [apply1, List.getElem?_modify, effect]
      | valued w j v =>
        cases hi
        simp [apply1, List.getElem?_modify, effect]
        cases opts[i]? <;> rfl
    · have hne : x.opt ≠ some i := by
        intro e
        rw [List.filterMap_cons, e] at hn
        exact (List.nodup_cons.1 hn).1 (List.mem_filterMap.2 ⟨it, h, hi⟩)
      have hn' : (items.filterMap Item.opt).Nodup := by
        rw [List.filterMap_cons] at hn
        cases hx : x.opt with
        | none => rwa [hx] at hn
        | some j => rw [hx] at hn; exact (List.nodup_cons.1 hn).2
      rw [applyAll_given atoi hi items _ hn' h, undef_apply1 atoi hne]

/-! ## The checks -/

theorem required_ok (s : State) : checkRequired s = .ok () ↔ ∀ o ∈ s.opts, o.optional = false → o.defined = true := by
  unfold checkRequired
  split
  · next h =>
    obtain ⟨o, ho, h⟩ := List.any_eq_true.1 h
    simp only [Bool.and_eq_true, Bool.not_eq_true'] at h
    refine ⟨(nomatch ·), fun hall => ?_⟩
    rw [hall o ho h.1] at h
    cases h.2
  · next h =>
    refine ⟨fun _ o ho h1 => ?_, fun _ => rfl⟩
    cases hd : o.defined with
    | true => rfl
    | false => exact absurd (List.any_eq_true.2 ⟨o, ho, by simp [h1, hd]⟩) h

theorem required_safe (s : State) : checkRequired s = .ok () ∨ checkRequired s = .exit .required := by
  unfold checkRequired
  split
  · exact .inr rfl
  · exact .inl rfl

/-- The option at a place is defined. -/
def On (opts : List Opt) (i : Nat) : Prop := ∃ o, opts[i]? = some o ∧ o.defined = true

theorem definedAt_eq {opts : List Opt} {i : Nat} (h : i < opts.length) : ∃ b, definedAt opts i = .ok b ∧ (b = true ↔ On opts i) := by
  refine ⟨opts[i].defined, ?_, ?_⟩
  · simp [definedAt, List.getElem?_eq_getElem h]
  · simp [On, List.getElem?_eq_getElem h]

theorem depsOk_spec {opts : List Opt} : ∀ {is : List Nat}, (∀ i ∈ is, i < opts.length) →
    (depsOk opts is = .ok () ∧ ∀ i ∈ is, On opts i) ∨ (depsOk opts is = .exit .dependency ∧ ∃ i ∈ is, ¬ On opts i)
  | [], _ => .inl ⟨rfl, by simp⟩
  | i :: is, h => by
    obtain ⟨b, hb, hon⟩ := definedAt_eq (h i (List.mem_cons_self ..))
    have e : depsOk opts (i :: is) = if b then depsOk opts is else .exit .dependency := by
      show Out.bind (definedAt opts i) _ = _
      rw [hb]; rfl
    rw [e]
    cases b with
    | false => exact .inr ⟨rfl, i, List.mem_cons_self .., fun hc => by simpa using hon.2 hc⟩
    | true =>
      rw [if_pos rfl]
      rcases depsOk_spec (is := is) (fun j hj => h j (List.mem_cons_of_mem _ hj)) with ⟨h1, h2⟩ | ⟨h1, j, hj, h2⟩
      · refine .inl ⟨h1, fun j hj => ?_⟩
        rcases List.mem_cons.1 hj with rfl | hj
        · exact hon.1 rfl
        · exact h2 j hj
      · exact .inr ⟨h1, j, List.mem_cons_of_mem _ hj, h2⟩

theorem excluded_spec {opts : List Opt} : ∀ {is : List Nat}, (∀ i ∈ is, i < opts.length) →
    (excluded opts is = .ok false ∧ ∀ i ∈ is, ¬ On opts i) ∨ (excluded opts is = .ok true ∧ ∃ i ∈ is, On opts i)
  | [], _ => .inl ⟨rfl, by simp⟩
  | i :: is, h => by
    obtain ⟨b, hb, hon⟩ := definedAt_eq (h i (List.mem_cons_self ..))
    have e : excluded opts (i :: is) = if b then .ok true else excluded opts is := by
      show Out.bind (definedAt opts i) _ = _
      rw [hb]; rfl
    rw [e]
    cases b with
    | true => exact .inr ⟨rfl, i, List.mem_cons_self .., hon.1 rfl⟩
    | false =>
      rcases excluded_spec (is := is) (fun j hj => h j (List.mem_cons_of_mem _ hj)) with ⟨h1, h2⟩ | ⟨h1, j, hj, h2⟩
      · refine .inl ⟨h1, fun j hj => ?_⟩
        rcases List.mem_cons.1 hj with rfl | hj
        · intro hc; simpa using hon.2 hc
        · exact h2 j hj
      · exact .inr ⟨h1, j, List.mem_cons_of_mem _ hj, h2⟩

/-- The three ways of the last check. -/
theorem checkDepends_spec {opts : List Opt} : ∀ {os : List Opt},
    (∀ o ∈ os, (∀ i ∈ o.depends, i < opts.length) ∧ ∀ i ∈ o.excludes, i < opts.length) →
    (checkDepends opts os = .ok false ∧ ∀ o ∈ os, o.defined = true → (∀ i ∈ o.depends, On opts i) ∧ ∀ i ∈ o.excludes, ¬ On opts i) ∨
    (checkDepends opts os = .ok true ∧ ∃ o ∈ os, o.defined = true ∧ ∃ i ∈ o.excludes, On opts i) ∨
    (checkDepends opts os = .exit .dependency ∧ ∃ o ∈ os, o.defined = true ∧ ∃ i ∈ o.depends, ¬ On opts i)
  | [], _ => .inl ⟨rfl, by simp⟩
  | o :: os, h => by
    have hs : ∀ p ∈ os, _ := fun p hp => h p (List.mem_cons_of_mem _ hp)
    obtain ⟨hd1, hd2⟩ := h o (List.mem_cons_self ..)
    have ih := checkDepends_spec (os := os) hs
    unfold checkDepends
    cases hdef : o.defined with
    | false =>
      simp only [Bool.not_false, if_true]
      rcases ih with ⟨h1, h2⟩ | ⟨h1, p, hp, h2⟩ | ⟨h1, p, hp, h2⟩
      · refine .inl ⟨h1, fun p hp hpd => ?_⟩
        rcases List.mem_cons.1 hp with rfl | hp
        · rw [hdef] at hpd; cases hpd
        · exact h2 p hp hpd
      · exact .inr (.inl ⟨h1, p, List.mem_cons_of_mem _ hp, h2⟩)
      · exact .inr (.inr ⟨h1, p, List.mem_cons_of_mem _ hp, h2⟩)
    | true =>
      simp only [Bool.not_true, Bool.false_eq_true, if_false]
      rcases depsOk_spec hd1 with ⟨e1, h1⟩ | ⟨e1, i, hi, h1⟩
      · rcases excluded_spec hd2 with ⟨e2, h2⟩ | ⟨e2, i, hi, h2⟩
        · have e : (do depsOk opts o.depends; let e ← excluded opts o.excludes; if e then Out.ok true else checkDepends opts os) =
              checkDepends opts os := by
            show Out.bind (depsOk opts o.depends) _ = _
            rw [e1]
            show Out.bind (excluded opts o.excludes) _ = _
            rw [e2]; rfl
          rw [e]
          rcases ih with ⟨g1, g2⟩ | ⟨g1, p, hp, g2⟩ | ⟨g1, p, hp, g2⟩
          · refine .inl ⟨g1, fun p hp hpd => ?_⟩
            rcases List.mem_cons.1 hp with rfl | hp
            · exact ⟨h1, h2⟩
            · exact g2 p hp hpd
          · exact .inr (.inl ⟨g1, p, List.mem_cons_of_mem _ hp, g2⟩)
          · exact .inr (.inr ⟨g1, p, List.mem_cons_of_mem _ hp, g2⟩)
        · refine .inr (.inl ⟨?_, o, List.mem_cons_self .., hdef, i, hi, h2⟩)
          show Out.bind (depsOk opts o.depends) _ = _
          rw [e1]
          show Out.bind (excluded opts o.excludes) _ = _
          rw [e2]; rfl
      · refine .inr (.inr ⟨?_, o, List.mem_cons_self .., hdef, i, hi, h1⟩)
        show Out.bind (depsOk opts o.depends) _ = _
        rw [e1]; rfl

/-- When the message of an exclusion is printed, the options up to the one that has it have what they need. -/
theorem checkDepends_true {opts : List Opt} : ∀ {os : List Opt},
    (∀ o ∈ os, (∀ i ∈ o.depends, i < opts.length) ∧ ∀ i ∈ o.excludes, i < opts.length) → checkDepends opts os = .ok true →
    ∃ (k : Nat) (o : Opt), os[k]? = some o ∧ o.defined = true ∧ (∃ i ∈ o.excludes, On opts i) ∧
      ∀ j, j ≤ k → ∀ p : Opt, os[j]? = some p → p.defined = true → ∀ i ∈ p.depends, On opts i
  | [], _, h => by cases h
  | o :: os, hb, h => by
    have hs : ∀ p ∈ os, _ := fun p hp => hb p (List.mem_cons_of_mem _ hp)
    obtain ⟨hd1, hd2⟩ := hb o (List.mem_cons_self ..)
    have next : checkDepends opts os = .ok true → (o.defined = true → ∀ i ∈ o.depends, On opts i) →
        ∃ (k : Nat) (p : Opt), (o :: os)[k]? = some p ∧ p.defined = true ∧ (∃ i ∈ p.excludes, On opts i) ∧
          ∀ j, j ≤ k → ∀ p : Opt, (o :: os)[j]? = some p → p.defined = true → ∀ i ∈ p.depends, On opts i := by
      intro h1 h2
      obtain ⟨k, p, g1, g2, g3, g4⟩ := checkDepends_true hs h1
      refine ⟨k + 1, p, g1, g2, g3, fun j hj q hq hqd => ?_⟩
      cases j with
      | zero => cases hq; exact h2 hqd
      | succ j => exact g4 j (by omega) q hq hqd
    unfold checkDepends at h
    cases hdef : o.defined with
    | false =>
      simp only [hdef, Bool.not_false, if_true] at h
      exact next h (fun hc => by rw [hdef] at hc; cases hc)
    | true =>
      simp only [hdef, Bool.not_true, Bool.false_eq_true, if_false] at h
      have h : Out.bind (depsOk opts o.depends) (fun _ => Out.bind (excluded opts o.excludes) fun e =>
        if e then .ok true else checkDepends opts os) = .ok true := h
      rcases depsOk_spec hd1 with ⟨e1, h1⟩ | ⟨e1, i, hi, h1⟩
      · rw [e1] at h
        have h : Out.bind (excluded opts o.excludes) (fun e => if e then .ok true else checkDepends opts os) = .ok true := h
        rcases excluded_spec hd2 with ⟨e2, h2⟩ | ⟨e2, h2⟩
        · rw [e2] at h
          exact next h (fun _ => h1)
        · refine ⟨0, o, rfl, hdef, h2, fun j hj p hp hpd => ?_⟩
          have : j = 0 := by omega
          subst this
          cases hp
          exact h1
      · rw [e1] at h; cases h

/-! ## The calls before -/

/-- A state before a command line is read. -/
structure Fresh (s : State) : Prop where
  mode   : s.mode = none
  params : s.params = []
  undef  : ∀ o ∈ s.opts, o.defined = false ∧ o.str = none ∧ o.int = 0
  places : ∀ o ∈ s.opts, (∀ i ∈ o.depends, i < s.opts.length) ∧ ∀ i ∈ o.excludes, i < s.opts.length
  longs  : ∀ i o, s.opts[i]? = some o → Names s.opts o.name i

theorem fresh_start : Fresh start := ⟨rfl, rfl, by simp [start], by simp [start], by simp [start]⟩

theorem mem_modify {f : Opt → Opt} {opts : List Opt} {i : Nat} {o : Opt} (h : o ∈ opts.modify i f) :
    ∃ p ∈ opts, o = p ∨ o = f p := by
  obtain ⟨j, hj⟩ := List.mem_iff_getElem?.1 h
  rw [List.getElem?_modify] at hj
  cases hp : opts[j]? with
  | none => rw [hp] at hj; cases hj
  | some p =>
    rw [hp] at hj
    refine ⟨p, List.mem_of_getElem? hp, ?_⟩
    have hj := Option.some.inj hj
    split at hj
    · exact .inr hj.symm
    · exact .inl hj.symm

/-- The names are the same. -/
theorem names_map {a b : List Opt} (h : a.map (fun o => (o.name, o.short)) = b.map (fun o => (o.name, o.short))) {n : List Char}
    {i : Nat} (hn : Names a n i) : Names b n i := by
  have get : ∀ {x y : List Opt}, x.map (fun o => (o.name, o.short)) = y.map (fun o => (o.name, o.short)) → ∀ {j : Nat} {o : Opt}, x[j]? = some o →
      ∃ p : Opt, y[j]? = some p ∧ p.name = o.name ∧ p.short = o.short := by
    intro x y hxy j o ho
    have := congrArg (·[j]?) hxy
    simp only [List.getElem?_map, ho, Option.map_some] at this
    cases hp : y[j]? with
    | none => rw [hp] at this; cases this
    | some p =>
      rw [hp] at this
      simp only [Option.map_some, Option.some.injEq, Prod.mk.injEq] at this
      exact ⟨p, rfl, this.1.symm, this.2.symm⟩
  obtain ⟨o, ho, hc, hlt⟩ := hn
  obtain ⟨p, hp, h1, h2⟩ := get h ho
  refine ⟨p, hp, ?_, ?_⟩
  · unfold Called at hc ⊢
    rw [h1, h2]; exact hc
  · intro j hj q hq hcq
    obtain ⟨r, hr, h3, h4⟩ := get h.symm hq
    refine hlt j hj r hr ?_
    unfold Called at hcq ⊢
    rw [h3, h4]; exact hcq

theorem fresh_update {s : State} (h : Fresh s) {i : Nat} {f : Opt → Opt}
    (hk : ∀ o, (f o).name = o.name ∧ (f o).short = o.short ∧ (f o).defined = o.defined ∧ (f o).str = o.str ∧ (f o).int = o.int)
    (hp : ∀ o, (∀ d ∈ (f o).depends, d ∈ o.depends ∨ d < s.opts.length) ∧ ∀ d ∈ (f o).excludes, d ∈ o.excludes ∨ d < s.opts.length) :
    Fresh (update s i f) := by
  have hmap : (s.opts.modify i f).map (fun o => (o.name, o.short)) = s.opts.map (fun o => (o.name, o.short)) := by
    apply List.ext_getElem?
    intro j
    simp only [List.getElem?_map, List.getElem?_modify]
    cases s.opts[j]? with
    | none => rfl
    | some o =>
      simp only [Option.map_some]
      split <;> simp [hk]
  refine ⟨h.mode, h.params, ?_, ?_, ?_⟩
  · intro o ho
    obtain ⟨p, hp', rfl | rfl⟩ := mem_modify ho
    · exact h.undef _ hp'
    · obtain ⟨-, -, h3, h4, h5⟩ := hk p
      rw [h3, h4, h5]; exact h.undef _ hp'
  · intro o ho
    simp only [update, List.length_modify]
    obtain ⟨p, hp', rfl | rfl⟩ := mem_modify ho
    · exact h.places _ hp'
    · refine ⟨fun d hd => ?_, fun d hd => ?_⟩
      · rcases (hp p).1 d hd with h1 | h1
        · exact (h.places p hp').1 d h1
        · exact h1
      · rcases (hp p).2 d hd with h1 | h1
        · exact (h.places p hp').2 d h1
        · exact h1
  · intro j o ho
    have hm := congrArg (·[j]?) hmap
    simp only [update] at ho
    simp only [List.getElem?_map, ho, Option.map_some] at hm
    cases hq : s.opts[j]? with
    | none => rw [hq] at hm; cases hm
    | some q =>
      rw [hq] at hm
      simp only [Option.map_some, Option.some.injEq, Prod.mk.injEq] at hm
      rw [hm.1]
      exact names_map hmap.symm (h.longs j q hq)

theorem lookup_lt {opts : List Opt} {a : List Char} {i : Nat} (h : lookup opts a = some i) : i < opts.length := by
  obtain ⟨o, ho, -⟩ := (lookup_iff _ _ _).1 h
  exact (List.getElem?_eq_some_iff.1 ho).1

theorem fresh_setup {s s' : State} (h : Fresh s) {c : Setup} (e : setup s c = .ok s') : Fresh s' := by
  cases c with
  | install name short kind =>
    simp only [setup, install] at e
    split at e
    · cases e
    · next hl =>
      split at e
      · cases e
      · cases e
        have hno : ∀ p ∈ s.opts, ¬ Called p name := by
          intro p hp hc
          have : (lookup s.opts name).isSome := by
            unfold lookup
            rw [List.findIdx?_isSome]
            exact List.any_eq_true.2 ⟨p, hp, (named_iff _ _).2 hc⟩
          exact hl this
        refine ⟨h.mode, h.params, ?_, ?_, ?_⟩
        · intro o ho
          rcases List.mem_append.1 ho with ho | ho
          · exact h.undef o ho
          · rw [List.mem_singleton.1 ho]; exact ⟨rfl, rfl, rfl⟩
        · intro o ho
          simp only [List.length_append]
          rcases List.mem_append.1 ho with ho | ho
          · exact ⟨fun i hi => Nat.lt_of_lt_of_le ((h.places o ho).1 i hi) (Nat.le_add_right ..),
              fun i hi => Nat.lt_of_lt_of_le ((h.places o ho).2 i hi) (Nat.le_add_right ..)⟩
          · rw [List.mem_singleton.1 ho]; exact ⟨by simp [newOpt], by simp [newOpt]⟩
        · intro i o ho
          simp only at ho ⊢
          by_cases hi : i < s.opts.length
          · rw [List.getElem?_append_left hi] at ho
            obtain ⟨p, hp, hc, hlt⟩ := h.longs i o ho
            refine ⟨p, by rw [List.getElem?_append_left hi]; exact hp, hc, fun j hj q hq => ?_⟩
            rw [List.getElem?_append_left (by omega)] at hq
            exact hlt j hj q hq
          · rw [List.getElem?_append_right (by omega)] at ho
            have hz : i - s.opts.length = 0 := by
              cases hx : i - s.opts.length with
              | zero => rfl
              | succ k => rw [hx] at ho; simp at ho
            have hi' : i = s.opts.length := by omega
            rw [hz] at ho
            simp only [List.getElem?_cons_zero, Option.some.injEq] at ho
            subst ho
            subst hi'
            refine ⟨newOpt name short kind, by simp, .inl rfl, fun j hj q hq => ?_⟩
            rw [List.getElem?_append_left hj] at hq
            exact hno q (List.mem_of_getElem? hq)
  | dependency a b =>
    simp only [setup, addDependency] at e
    split at e
    · cases e
    · split at e
      · next i j hi hj =>
        cases e
        refine fresh_update h (fun o => ⟨rfl, rfl, rfl, rfl, rfl⟩) (fun o => ⟨fun d hd => ?_, fun d hd => .inl hd⟩)
        rcases List.mem_cons.1 hd with rfl | hd
        · exact .inr (lookup_lt hj)
        · exact .inl hd
      · cases e
  | exclusion a b =>
    simp only [setup, addExclusion] at e
    split at e
    · cases e
    · split at e
      · next i j hi hj =>
        cases e
        refine fresh_update h (fun o => ⟨rfl, rfl, rfl, rfl, rfl⟩) (fun o => ⟨fun d hd => .inl hd, fun d hd => ?_⟩)
        rcases List.mem_cons.1 hd with rfl | hd
        · exact .inr (lookup_lt hj)
        · exact .inl hd
      · cases e
  | obligatory a =>
    simp only [setup, setObligatory, Out.ok.injEq] at e
    split at e
    · subst e; exact h
    · subst e
      exact fresh_update h (fun o => ⟨rfl, rfl, rfl, rfl, rfl⟩) (fun o => ⟨fun d hd => .inl hd, fun d hd => .inl hd⟩)
  | free accept =>
    simp only [setup, acceptFree, Out.ok.injEq] at e
    subst e
    exact ⟨h.mode, h.params, h.undef, h.places, h.longs⟩

theorem fresh_setups : ∀ (cs : List Setup) {s s' : State}, Fresh s → setups s cs = .ok s' → Fresh s'
  | [], s, s', h, e => by cases e; exact h
  | c :: cs, s, s', h, e => by
    have e' : Out.bind (setup s c) (fun s => setups s cs) = .ok s' := e
    cases hc : setup s c with
    | ok s1 => rw [hc] at e'; exact fresh_setups cs (fresh_setup h hc) e'
    | exit w => rw [hc] at e'; cases e'
    | ub => rw [hc] at e'; cases e'

end Exarg
end Axl
