/-
C67: the options of a command line.
-/
import Verif.Proofs.Exarg
import Verif.Model.Knife

namespace Axl
open Exarg Spec.Exarg

/-- The value that the items give to an option. -/
def valueOf (items : List Item) (i : Nat) (v : List Char) : Prop := ∃ w, Item.valued w i v ∈ items

theorem on_iff {atoi : List Char → Int} {s : State} (h : Fresh s) {items : List Item} (hn : (items.filterMap Item.opt).Nodup)
    {i : Nat} (hi : i < s.opts.length) : On (applyAll atoi s.opts items) i ↔ Given items i := by
  have ho := List.getElem?_eq_getElem hi
  constructor
  · rintro ⟨o, h1, h2⟩
    refine Classical.byContradiction fun hg => ?_
    rw [applyAll_not atoi items s.opts hg, ho] at h1
    cases h1
    rw [(h.undef _ (List.getElem_mem hi)).1] at h2
    cases h2
  · rintro ⟨it, hit, e⟩
    refine ⟨effect atoi s.opts[i] it, ?_, ?_⟩
    · rw [applyAll_given atoi e items s.opts hn hit, ho]; rfl
    · cases it with
      | free w => cases e
      | flag w j => rfl
      | valued w j v => show (setValue atoi v _).defined = true; rw [setValue_defined]

theorem names_lt {opts : List Opt} {a : List Char} {i : Nat} (h : Names opts a i) : i < opts.length :=
  lookup_lt ((lookup_iff _ _ _).2 h)

/-- **C67**: what a program that goes on after `exarg_parse` has read.  For all calls that set the options and all command
lines: the words are options, values and free arguments in one way, free arguments come only if they are accepted, and what
is required is there; the free arguments are kept in order; `exarg_is_defined` says which options are given, by any of their
names; `exarg_get_string` and `exarg_get_int` give the value; and if no message was printed, the options that an option needs
are given and those that it excludes are not; if it was, two options that exclude one another are given, and the options up
to the one that excludes have what they need.  Missing: that the program does not go on then (`C67_not_exclusion`), and what
the options after it need (`C67_not_dependency`). -/
theorem C67_reading_partial (atoi : List Char → Int) {cs : List Setup} {s0 : State} (h0 : setups start cs = .ok s0)
    {words : List (List Char)} {s : State} {said : Bool} (h : parse atoi s0 words = .ok (s, said)) :
    ∃ items, Reading s0.opts words items ∧ Complete s0.opts s0.noFree items ∧ s.params = frees items ∧
      (∀ a i, Names s0.opts a i → (isDefined s a = true ↔ Given items i)) ∧
      (∀ a i o, Names s0.opts a i → s0.opts[i]? = some o → o.kind = .string → ∃ r, getString s a = .ok r ∧
        ∀ v, r = some v ↔ valueOf items i v) ∧
      (∀ a i o, Names s0.opts a i → s0.opts[i]? = some o → o.kind = .int → ∃ r, getInt s a = .ok r ∧
        (∀ v, valueOf items i v → r = atoi v) ∧ (¬ Given items i → r = 0)) ∧
      (said = false → Together s0.opts items ∧ Apart s0.opts items) ∧
      (said = true → ∃ k o, s0.opts[k]? = some o ∧ Given items k ∧ (∃ e ∈ o.excludes, Given items e) ∧
        ∀ j, j ≤ k → ∀ p, s0.opts[j]? = some p → Given items j → ∀ d ∈ p.depends, Given items d) := by
  have hf := fresh_setups cs fresh_start h0
  -- what the loop leaves
  obtain ⟨items, hr, hfree, hpar, hopts, hreq, hsaid⟩ : ∃ items, Reading s0.opts words items ∧
      (s0.noFree = true → frees items = []) ∧ s.params = frees items ∧ s.opts = applyAll atoi s0.opts items ∧
      checkRequired s = .ok () ∧ (checkDepends s.opts s.opts = .ok said ∨ (items = [] ∧ said = false)) := by
    unfold parse at h
    split at h
    · next hw =>
      subst hw
      rcases required_safe s0 with e | e
      · have : Out.bind (checkRequired s0) (fun _ => .ok (s0, false)) = Out.ok (s, said) := h
        rw [e] at this
        cases this
        refine ⟨[], ⟨rfl, by simp, by simp⟩, by simp [frees], by rw [hf.params]; rfl, rfl, e, .inr ⟨rfl, rfl⟩⟩
      · have : Out.bind (checkRequired s0) (fun _ => .ok (s0, false)) = Out.ok (s, said) := h
        rw [e] at this
        cases this
    · cases hl : loop atoi s0 words with
      | exit w => rw [hl] at h; cases h
      | ub => rw [hl] at h; cases h
      | ok s1 =>
        rw [hl] at h
        have h : Out.bind (checkRequired s1) (fun _ => Out.bind (checkDepends s1.opts s1.opts) fun said => .ok (s1, said)) =
          Out.ok (s, said) := h
        rcases required_safe s1 with e | e
        · rw [e] at h
          have h : Out.bind (checkDepends s1.opts s1.opts) (fun said => .ok (s1, said)) = Out.ok (s, said) := h
          cases hd : checkDepends s1.opts s1.opts with
          | exit w => rw [hd] at h; cases h
          | ub => rw [hd] at h; cases h
          | ok b =>
            rw [hd] at h
            cases h
            obtain ⟨items, a0, a1, a2, a3, a4, a5, a6⟩ := loop_items atoi words.length words s0 _ (Nat.le_refl _) hl
            rw [hf.mode] at a1
            rw [hf.params, List.nil_append] at a5
            refine ⟨items, ⟨a0, fun it hit => (good_iff _ _ _).2 (a1 it hit), a2⟩, a4, a5, a6, e, .inl hd⟩
        · rw [e] at h; cases h
  have hn := hr.once
  have hal := alike_applyAll atoi items s0.opts
  have hlen : s.opts.length = s0.opts.length := by
    have := congrArg List.length hal
    simpa [hopts] using this
  have hnm : ∀ {a i}, Names s0.opts a i → Names s.opts a i := fun h => by
    rw [hopts]; exact alike_names hal.symm h
  have hpl : ∀ o ∈ s.opts, (∀ i ∈ o.depends, i < s.opts.length) ∧ ∀ i ∈ o.excludes, i < s.opts.length := by
    intro o ho
    obtain ⟨j, hj⟩ := List.mem_iff_getElem?.1 ho
    rw [hopts] at hj
    obtain ⟨p, hp, -, -, -, -, h5, h6⟩ := alike_get hal hj
    rw [hlen, ← h5, ← h6]
    exact hf.places p (List.mem_of_getElem? hp)
  have on : ∀ i, i < s0.opts.length → (On s.opts i ↔ Given items i) := fun i hi => by
    rw [hopts]; exact on_iff (atoi := atoi) hf hn hi
  have there : ∀ i o, s0.opts[i]? = some o → Given items i →
      ∃ p, s.opts[i]? = some p ∧ p.defined = true ∧ p.depends = o.depends ∧ p.excludes = o.excludes := by
    intro i o ho hg
    obtain ⟨p, hp, -, -, -, -, h5, h6⟩ := alike_get hal.symm ho
    rw [← hopts] at hp
    obtain ⟨q, hq, hqd⟩ := (on i (List.getElem?_eq_some_iff.1 ho).1).2 hg
    rw [hp] at hq
    cases hq
    exact ⟨p, hp, hqd, h5, h6⟩
  refine ⟨items, hr, ⟨hfree, ?_⟩, hpar, ?_, ?_, ?_, ?_, ?_⟩
  · intro i o ho hopt
    obtain ⟨p, hp, -, -, -, h4, -⟩ := alike_get hal.symm ho
    rw [← hopts] at hp
    have := (required_ok s).1 hreq p (List.mem_of_getElem? hp) (by rw [h4]; exact hopt)
    refine (on_iff (atoi := atoi) hf hn (List.getElem?_eq_some_iff.1 ho).1).1 ⟨p, ?_, this⟩
    rw [← hopts]; exact hp
  · intro a i ha
    have hlk := (lookup_iff _ _ _).2 (hnm ha)
    rw [← on_iff (atoi := atoi) hf hn (names_lt ha), ← hopts]
    unfold isDefined On
    rw [hlk]
    simp only
    cases s.opts[i]? <;> simp
  · intro a i o ha ho hk
    have hlk := (lookup_iff _ _ _).2 (hnm ha)
    obtain ⟨p, hp, -, -, h3, -⟩ := alike_get hal.symm ho
    have hne : s.opts ≠ [] := by
      intro e
      rw [← hopts, e] at hp
      cases hp
    rw [← hopts] at hp
    refine ⟨p.str, ?_, ?_⟩
    · unfold getString
      rw [if_neg hne, hlk]
      simp [hp, h3, hk]
    · intro v
      constructor
      · intro hv
        have hg : Given items i := Classical.byContradiction fun hg => by
          have := applyAll_not atoi items s0.opts hg
          rw [← hopts, hp, ho] at this
          cases this
          rw [(hf.undef _ (List.mem_of_getElem? ho)).2.1] at hv
          cases hv
        obtain ⟨it, hit, e⟩ := hg
        have hx := applyAll_given atoi e items s0.opts hn hit
        rw [← hopts, hp, ho] at hx
        cases it with
        | free w => cases e
        | flag w j =>
          cases e
          obtain ⟨-, -, -, q, hq, hkq⟩ := hr.good _ hit
          rw [ho] at hq
          cases hq
          rw [hk] at hkq
          cases hkq
        | valued w j v' =>
          cases e
          have hx := Option.some.inj hx
          rw [hx] at hv
          simp only [effect, setValue, hk, Option.some.injEq] at hv
          subst hv
          exact ⟨w, hit⟩
      · rintro ⟨w, hit⟩
        have hx := applyAll_given atoi (it := .valued w i v) rfl items s0.opts hn hit
        rw [← hopts, hp, ho] at hx
        have hx := Option.some.inj hx
        rw [hx]
        simp [effect, setValue, hk]
  · intro a i o ha ho hk
    have hlk := (lookup_iff _ _ _).2 (hnm ha)
    obtain ⟨p, hp, -, -, h3, -⟩ := alike_get hal.symm ho
    have hne : s.opts ≠ [] := by
      intro e
      rw [← hopts, e] at hp
      cases hp
    rw [← hopts] at hp
    refine ⟨p.int, ?_, ?_, ?_⟩
    · unfold getInt
      rw [if_neg hne, hlk]
      simp [hp, h3, hk]
    · rintro v ⟨w, hit⟩
      have hx := applyAll_given atoi (it := .valued w i v) rfl items s0.opts hn hit
      rw [← hopts, hp, ho] at hx
      have hx := Option.some.inj hx
      rw [hx]
      simp [effect, setValue, hk]
    · intro hg
      have := applyAll_not atoi items s0.opts hg
      rw [← hopts, hp, ho] at this
      cases this
      exact (hf.undef _ (List.mem_of_getElem? ho)).2.2
  · intro hs
    subst hs
    rcases hsaid with hd | ⟨rfl, -⟩
    · have hall : ∀ o ∈ s.opts, o.defined = true → (∀ i ∈ o.depends, On s.opts i) ∧ ∀ i ∈ o.excludes, ¬ On s.opts i := by
        rcases checkDepends_spec hpl with ⟨-, h2⟩ | ⟨h1, -⟩ | ⟨h1, -⟩
        · exact h2
        · rw [hd] at h1; cases h1
        · rw [hd] at h1; cases h1
      have key : ∀ i o, s0.opts[i]? = some o → Given items i →
          (∀ d ∈ o.depends, Given items d) ∧ ∀ d ∈ o.excludes, ¬ Given items d := by
        intro i o ho hg
        have hpl0 := hf.places o (List.mem_of_getElem? ho)
        obtain ⟨p, hp, hpd, h5, h6⟩ := there i o ho hg
        obtain ⟨g1, g2⟩ := hall p (List.mem_of_getElem? hp) hpd
        rw [h5] at g1
        rw [h6] at g2
        exact ⟨fun d hd => (on d (hpl0.1 d hd)).1 (g1 d hd), fun d hd hgd => g2 d hd ((on d (hpl0.2 d hd)).2 hgd)⟩
      exact ⟨fun i o ho hg => (key i o ho hg).1, fun i o ho hg => (key i o ho hg).2⟩
    · exact ⟨fun i o ho hg => by obtain ⟨it, hit, -⟩ := hg; exact (nomatch hit),
        fun i o ho hg => by obtain ⟨it, hit, -⟩ := hg; exact (nomatch hit)⟩
  · intro hs
    subst hs
    rcases hsaid with hd | ⟨-, hc⟩
    · obtain ⟨k, o, g1, g2, ⟨e, he, g3⟩, g4⟩ := checkDepends_true hpl hd
      have g1' := g1
      rw [hopts] at g1'
      obtain ⟨p, hp, -, -, -, -, h5, h6⟩ := alike_get hal g1'
      have hpl0 := hf.places p (List.mem_of_getElem? hp)
      rw [← h6] at he
      refine ⟨k, p, hp, (on k (List.getElem?_eq_some_iff.1 hp).1).1 ⟨o, g1, g2⟩, ⟨e, he, (on e (hpl0.2 e he)).1 g3⟩, ?_⟩
      intro j hj q hq hg d hd
      obtain ⟨r, hr', hrd, h5', -⟩ := there j q hq hg
      exact (on d ((hf.places q (List.mem_of_getElem? hq)).1 d hd)).1 (g4 j hj r hr' hrd d (by rw [h5']; exact hd))
    · cases hc

/-- **C67**: a command line that can be read, with what is required and what the given options need, is accepted. -/
theorem C67_accepts (atoi : List Char → Int) {cs : List Setup} {s0 : State} (h0 : setups start cs = .ok s0)
    {words : List (List Char)} {items : List Item} (hr : Reading s0.opts words items)
    (hc : Complete s0.opts s0.noFree items) (ht : Together s0.opts items) :
    ∃ s said, parse atoi s0 words = .ok (s, said) := by
  have hf := fresh_setups cs fresh_start h0
  obtain ⟨rfl, hg, hn⟩ := hr
  have hund : ∀ it ∈ items, ∀ i, it.opt = some i → Undef s0.opts i := fun it _ i _ o ho => (hf.undef o (List.mem_of_getElem? ho)).1
  obtain ⟨s', hl⟩ := loop_reads atoi items s0 (fun it hit => by rw [hf.mode]; exact (good_iff _ _ _).1 (hg it hit)) hn hund hc.1
  obtain ⟨items', a0, a1, a2, a3, a4, a5, a6⟩ := loop_items atoi _ _ s0 _ (Nat.le_refl _) hl
  have he : items' = items := by
    refine (fits_unique a0 (fun it hit => ?_) a1).symm
    rw [hf.mode]
    exact (good_iff _ _ _).1 (hg it hit)
  subst he
  have hal := alike_applyAll atoi items' s0.opts
  have hreq : checkRequired s' = .ok () := by
    rw [required_ok]
    intro o ho hopt
    obtain ⟨j, hj⟩ := List.mem_iff_getElem?.1 ho
    rw [a6] at hj
    obtain ⟨p, hp, -, -, -, h4, -⟩ := alike_get hal hj
    obtain ⟨q, hq, hqd⟩ := (on_iff (atoi := atoi) hf hn (List.getElem?_eq_some_iff.1 hp).1).2 (hc.2 j p hp (by rw [h4]; exact hopt))
    rw [hj] at hq
    cases hq
    exact hqd
  have hlen : s'.opts.length = s0.opts.length := by
    have := congrArg List.length hal
    simpa [a6] using this
  have hpl : ∀ o ∈ s'.opts, (∀ i ∈ o.depends, i < s'.opts.length) ∧ ∀ i ∈ o.excludes, i < s'.opts.length := by
    intro o ho
    obtain ⟨j, hj⟩ := List.mem_iff_getElem?.1 ho
    rw [a6] at hj
    obtain ⟨p, hp, -, -, -, -, h5, h6⟩ := alike_get hal hj
    rw [hlen, ← h5, ← h6]
    exact hf.places p (List.mem_of_getElem? hp)
  have hdep : ∃ b, checkDepends s'.opts s'.opts = .ok b := by
    rcases checkDepends_spec hpl with ⟨h1, -⟩ | ⟨h1, -⟩ | ⟨-, o, ho, hod, i, hi, hno⟩
    · exact ⟨_, h1⟩
    · exact ⟨_, h1⟩
    · exfalso
      obtain ⟨j, hj⟩ := List.mem_iff_getElem?.1 ho
      rw [a6] at hj
      obtain ⟨p, hp, -, -, -, -, h5, -⟩ := alike_get hal hj
      rw [← h5] at hi
      have hgj := (on_iff (atoi := atoi) hf hn (List.getElem?_eq_some_iff.1 hp).1).1 ⟨o, hj, hod⟩
      have hgi := ht j p hp hgj i hi
      rw [a6] at hno
      exact hno ((on_iff (atoi := atoi) hf hn ((hf.places p (List.mem_of_getElem? hp)).1 i hi)).2 hgi)
  obtain ⟨b, hb⟩ := hdep
  unfold parse
  split
  · next hw =>
    rw [hw] at hl
    simp only [loop, Out.ok.injEq] at hl
    subst hl
    refine ⟨s0, false, ?_⟩
    show Out.bind (checkRequired s0) _ = _
    rw [hreq]; rfl
  · refine ⟨s', b, ?_⟩
    show Out.bind (loop atoi s0 _) _ = _
    rw [hl]
    show Out.bind (checkRequired s') _ = _
    rw [hreq]
    show Out.bind (checkDepends s'.opts s'.opts) _ = _
    rw [hb]; rfl

/-- **C67**: there is only one way to read a command line. -/
theorem C67_one_reading {opts : List Opt} {words : List (List Char)} {a b : List Item} (ha : Reading opts words a)
    (hb : Reading opts words b) : a = b :=
  fits_unique (ha.all.symm.trans hb.all) (fun it hit => (good_iff _ _ _).1 (ha.good it hit))
    (fun it hit => (good_iff _ _ _).1 (hb.good it hit))

/-- **C67**: no command line has undefined behaviour, whatever the calls before. -/
theorem C67_safe (atoi : List Char → Int) {cs : List Setup} {s0 : State} (h0 : setups start cs = .ok s0)
    (words : List (List Char)) : parse atoi s0 words ≠ .ub := by
  have hf := fresh_setups cs fresh_start h0
  unfold parse
  split
  · intro h
    have h : Out.bind (checkRequired s0) (fun _ => Out.ok (s0, false)) = .ub := h
    rcases required_safe s0 with e | e <;> rw [e] at h <;> cases h
  · intro h
    have h : Out.bind (loop atoi s0 words) (fun s => Out.bind (checkRequired s) fun _ =>
      Out.bind (checkDepends s.opts s.opts) fun said => .ok (s, said)) = .ub := h
    cases hl : loop atoi s0 words with
    | exit w => rw [hl] at h; cases h
    | ub => exact loop_safe atoi _ _ s0 (Nat.le_refl _) hl
    | ok s' =>
      rw [hl] at h
      have h : Out.bind (checkRequired s') (fun _ => Out.bind (checkDepends s'.opts s'.opts) fun said => .ok (s', said)) = .ub := h
      rcases required_safe s' with e | e
      · rw [e] at h
        have h : Out.bind (checkDepends s'.opts s'.opts) (fun said => .ok (s', said)) = .ub := h
        obtain ⟨items, a0, a1, a2, a3, a4, a5, a6⟩ := loop_items atoi _ _ s0 _ (Nat.le_refl _) hl
        have hal := alike_applyAll atoi items s0.opts
        have hlen : s'.opts.length = s0.opts.length := by
          have := congrArg List.length hal
          simpa [a6] using this
        have hpl : ∀ o ∈ s'.opts, (∀ i ∈ o.depends, i < s'.opts.length) ∧ ∀ i ∈ o.excludes, i < s'.opts.length := by
          intro o ho
          obtain ⟨j, hj⟩ := List.mem_iff_getElem?.1 ho
          rw [a6] at hj
          obtain ⟨p, hp, -, -, -, -, h5, h6⟩ := alike_get hal hj
          rw [hlen, ← h5, ← h6]
          exact hf.places p (List.mem_of_getElem? hp)
        rcases checkDepends_spec hpl with ⟨h1, -⟩ | ⟨h1, -⟩ | ⟨h1, -⟩ <;> rw [h1] at h <;> cases h
      · rw [e] at h; cases h

/-- **C67**: a long name is the name of the option it was installed with. -/
theorem C67_long_names {cs : List Setup} {s0 : State} (h0 : setups start cs = .ok s0) {i : Nat} {o : Opt}
    (ho : s0.opts[i]? = some o) : Names s0.opts o.name i :=
  (fresh_setups cs fresh_start h0).longs i o ho

/-- The state of `axl-knife` before its command line is read. -/
def knifeState : State := match setups start Knife.options with | .ok s => s | _ => start

theorem knife_ok : setups start Knife.options = .ok knifeState := by decide +kernel

/-- What can be seen after the command line. -/
def seen (r : Out (State × Bool)) (a b : List Char) : Option (Bool × Bool × List (List Char) × Bool) :=
  match r with
  | .ok (s, said) => some (isDefined s a, isDefined s b, s.params, said)
  | _ => none

/-- A case: a command line of `axl-knife` that is accepted, with an option by its short name, a value that begins with a
bar, and a free argument. -/
theorem case67 : ∃ s, parse (fun _ => 0) knifeState [c!"-e", c!"--input", c!"/doc.xml", c!"more"] = .ok (s, false) := by
  refine ⟨match parse (fun _ => 0) knifeState [c!"-e", c!"--input", c!"/doc.xml", c!"more"] with | .ok (s, _) => s | _ => start, ?_⟩
  decide +kernel

example : seen (parse (fun _ => 0) knifeState [c!"-e", c!"--input", c!"/doc.xml", c!"more"]) c!"htmlize" c!"i" =
    some (true, true, [c!"more"], false) := by decide +kernel

example : ∃ s items, parse (fun _ => 0) knifeState [c!"-e", c!"--input", c!"/doc.xml", c!"more"] = .ok (s, false) ∧
    Reading knifeState.opts [c!"-e", c!"--input", c!"/doc.xml", c!"more"] items ∧ Together knifeState.opts items := by
  obtain ⟨s, h⟩ := case67
  obtain ⟨items, h1, -, -, -, -, -, h2, -⟩ := C67_reading_partial _ knife_ok h
  exact ⟨s, items, h, h1, (h2 rfl).1⟩

/-- **C67**: not of the code for options that exclude one another.  A message is printed and the program goes on, with both. -/
theorem C67_not_exclusion :
    seen (parse (fun _ => 0) knifeState [c!"--htmlize", c!"--dtd-to-c", c!"-i", c!"a.dtd"]) c!"htmlize" c!"dtd-to-c" =
      some (true, true, [], true) := by decide +kernel

/-- **C67**: nor then for dependencies: after the message of an exclusion, the options that follow are not looked at.
`--b`
is given without `--c`. -/
theorem C67_not_dependency :
    let cs : List Setup := [.install c!"a" none .none, .install c!"b" none .none, .install c!"c" none .none,
      .exclusion c!"a" c!"b", .dependency c!"b" c!"c"]
    (∃ s0, setups start cs = .ok s0 ∧ seen (parse (fun _ => 0) s0 [c!"--a", c!"--b"]) c!"b" c!"c" = some (true, false, [], true)) := by
  refine ⟨match setups start [.install c!"a" none .none, .install c!"b" none .none, .install c!"c" none .none,
      .exclusion c!"a" c!"b", .dependency c!"b" c!"c"] with | .ok s => s | _ => start, ?_, ?_⟩ <;> decide +kernel

/-- The options for numbers. -/
def number67 : State := ⟨[newOpt c!"level" (some c!"l") .int], [], none, false⟩

/-- **C67**: a number of one digit and a sign cannot be given, as it has the form of an option; one of two digits can. -/
theorem C67_not_negative : setups start [.install c!"level" (some c!"l") .int] = .ok number67 ∧
    parse (fun _ => 0) number67 [c!"--level", c!"-1"] = .exit .noValue ∧
    (seen (parse (fun _ => 0) number67 [c!"--level", c!"-12"]) c!"level" c!"l" = some (true, true, [], false)) := by decide +kernel

/-- **C67**: an option whose name begins with `help`, `usage` or `?` can be installed and never given: it shows the help. -/
theorem C67_not_help : ∃ s0, setups start [.install c!"helper" none .string] = .ok s0 ∧
    parse (fun _ => 0) s0 [c!"--helper", c!"x"] = .exit .help := by
  exact ⟨⟨[newOpt c!"helper" none .string], [], none, false⟩, by decide +kernel, by decide +kernel⟩

/-- **C67**: a short name can be that of another option, that was installed before with it as long name: then it is not a
name of the option. -/
theorem C67_not_short : ∃ s0, setups start [.install c!"i" none .none, .install c!"input" (some c!"i") .none] = .ok s0 ∧
    seen (parse (fun _ => 0) s0 [c!"-i"]) c!"i" c!"input" = some (true, false, [], false) := by
  exact ⟨⟨[newOpt c!"i" none .none, newOpt c!"input" (some c!"i") .none], [], none, false⟩, by decide +kernel, by decide +kernel⟩

/-- **C67**: a path with one bar, before any option with dashes, is taken for an option. -/
theorem C67_not_path : parse (fun _ => 0) knifeState [c!"/doc.xml", c!"--check-xml", c!"-i", c!"a"] = .exit .unknown := by
  decide +kernel

end Axl
