/-
C82: errors are reported, asked for and freed.
-/
import Verif.Proofs.Error
import Verif.Props.Printf

namespace Axl.Err
open Str Printf
open Spec.Err (Var Shown)

theorem rel_answers {s : St} {a : Shown} (h : Rel s a) {v : Nat} (hv : v < a.vars.length) :
    wasOk s v = (a.var v).ok ∧ getCode s v = (a.var v).code ∧ get s v = (a.var v).text.map (Option.map (· ++ [NUL])) := by
  obtain ⟨loc, hR⟩ := h
  rcases var_of hR hv with ⟨h1, hr⟩ | ⟨e, p, x, h1, h2, h3, hr, hat⟩
  · have : a.var v = .null := by simp [Shown.var, h1]
    simp [wasOk, getCode, get, hr, this, Var.ok, Var.code, Var.text]
  · cases x with
    | none =>
      have : a.var v = .freed := by simp [Shown.var, h1, h2]
      simp only [At] at hat
      simp [wasOk, getCode, get, hr, this, Var.ok, Var.code, Var.text, loadErr, load, hat]
    | some x =>
      obtain ⟨c, t⟩ := x
      have : a.var v = .holds c t := by simp [Shown.var, h1, h2]
      obtain ⟨q, hp, ht⟩ := hat
      cases q with
      | none =>
        cases t with
        | some t => simp [Txt] at ht
        | none => simp [wasOk, getCode, get, hr, this, Var.ok, Var.code, Var.text, loadErr_of hp]
      | some q =>
        cases t with
        | none => simp [Txt] at ht
        | some t =>
          simp only [Txt] at ht
          simp [wasOk, getCode, get, hr, this, Var.ok, Var.code, Var.text, loadErr_of hp, load, ht]

/-- **C82**.  In every history of reports, frees and assignments, on any number of variables: undefined behaviour is
exactly a second free of the same error, or `axl_error_new` without memory for the copy of the text; each variable answers with the error that was reported in it, or in the variable
it was copied from; and the blocks in use are those of the errors that were reported and not freed.
Missing: a report with a stream (`C82_report_at_partial`), a library built without `vasprintf`. -/
theorem C82_errors_partial (L : Libc Arg) (n : Nat) (cs : List (Call Arg)) (hk : ∀ c ∈ cs, Spec.Err.Known n c) :
    (run true L (init n) cs = none ↔ Spec.Err.run L (Spec.Err.init n) cs = none) ∧
    ∀ a, Spec.Err.run L (Spec.Err.init n) cs = some a → ∃ s, run true L (init n) cs = some s ∧
      (∀ v, v < n →
        wasOk s v = (a.var v).ok ∧ getCode s v = (a.var v).code ∧ get s v = (a.var v).text.map (Option.map (· ++ [NUL]))) ∧
      s.blocks = (a.errors.map Spec.Err.blocks).sum := by
  have h := run_rel (L := L) cs (init_rel n) (by simpa [Spec.Err.init] using hk)
  refine ⟨⟨fun hn => ?_, h.1⟩, fun a ha => ?_⟩
  · cases hs : Spec.Err.run L (Spec.Err.init n) cs with
    | none => rfl
    | some a => obtain ⟨_, s, h1, _⟩ := h.2 a hs; rw [hn] at h1; simp at h1
  · obtain ⟨h0, s, h1, hr⟩ := h.2 a ha
    refine ⟨s, h1, fun v hv => rel_answers hr (by rw [h0]; simpa [Spec.Err.init] using hv), ?_⟩
    obtain ⟨_, hR⟩ := hr
    exact hR.count

/-- **C82**.  A program that has freed every error that was reported leaves no memory in use, and one that has not does. -/
theorem C82_no_leak (L : Libc Arg) (n : Nat) (cs : List (Call Arg)) (hk : ∀ c ∈ cs, Spec.Err.Known n c)
    (a : Shown) (ha : Spec.Err.run L (Spec.Err.init n) cs = some a) :
    ∃ s, run true L (init n) cs = some s ∧ (s.blocks = 0 ↔ ∀ e ∈ a.errors, e = none) := by
  obtain ⟨s, h1, _, h3⟩ := (C82_errors_partial L n cs hk).2 a ha
  refine ⟨s, h1, ?_⟩
  rw [h3, List.sum_eq_zero_iff_forall_eq_nat]
  simp only [List.mem_map, forall_exists_index, and_imp, forall_apply_eq_imp_iff₂]
  refine forall_congr' fun e => forall_congr' fun _ => ?_
  rcases e with _ | ⟨c, _ | t⟩ <;> simp [Spec.Err.blocks]

/-- **C82**: not of the code.  The same variable given to two functions that fail, one after the other: the first error is
not freed and cannot be freed any more. -/
theorem C82_second_report_leaks (L : Libc Arg) (c c' : Int) (t t' : List Char) :
    (run true L (init 1) [.new true true c (some t) (some 0), .new true true c' (some t') (some 0), .free 0]).map St.blocks = some 2 := by
  simp [run, step, new, strdup, init, alloc, store, free, loadErr, load, freeBlock, St.blocks]

/-- **C82**: not of the code.  An error that was reported and has no text, because the C library failed with the format or
the text was NULL: `axl_error_was_ok` says that there was no error, and `axl_error_get` gives NULL, not "no string error
defined".  The code of the error is there. -/
theorem C82_report_without_text (L : Libc Arg) (c : Int) (f : List Char) (args : List Arg) (part : List Char)
    (hf : L.render f args = .fail part) :
    ∃ s, run true L (init 1) [.report true true (some 0) c (some f) args] = some s ∧
      wasOk s 0 = some true ∧ get s 0 = some none ∧ getCode s 0 = some c := by
  have h := (C82_errors_partial L 1 [.report true true (some 0) c (some f) args] (by simp [Spec.Err.Known])).2
    ⟨[some (c, none)], [some 0]⟩ (by simp [Spec.Err.run, Spec.Err.step, Spec.Err.init, Spec.Err.textOf, hf, Shown.report])
  obtain ⟨s, h1, h2, _⟩ := h
  obtain ⟨e1, e2, e3⟩ := h2 0 (by omega)
  exact ⟨s, h1, e1, e3, e2⟩

/-- **C82**: not of the code.  When there is memory for the error and none for the copy of its text, `axl_error_new` writes the
copy through NULL, in every state. -/
theorem C82_not_new_without_memory (s : St) (c : Int) (t : List Char) (v : Nat) : new s true false c (some t) (some v) = none := rfl

/-- **C82**: not of the code.  When there is memory for the error and none for its text, `axl_error_report` leaves an error in
the variable with its code, after any history, and `axl_error_was_ok` says that there was no error.  Without memory for the
error itself the variable becomes NULL, and an error that was in it and is in no other variable cannot be freed any more;
`axl_error_new` leaves the variable as it was. -/
theorem C82_report_without_memory (L : Libc Arg) (n : Nat) (cs : List (Call Arg)) (hk : ∀ c ∈ cs, Spec.Err.Known n c)
    (s : St) (hs : run true L (init n) cs = some s) (v : Nat) (hv : v < n) (c : Int) (f t : Option (List Char)) (args : List Arg) :
    (∃ s', report true L s true false (some v) c f args = some s' ∧
      wasOk s' v = some true ∧ get s' v = some none ∧ getCode s' v = some c ∧ s'.blocks = s.blocks + 1) ∧
    (∀ str, ∃ s', report true L s false str (some v) c f args = some s' ∧ wasOk s' v = some true ∧ getCode s' v = some (-1) ∧
      s'.blocks = s.blocks) ∧
    (∀ str, new s false str c t (some v) = some s) := by
  have h := run_rel (L := L) cs (init_rel n) (by simpa [Spec.Err.init] using hk)
  cases ha : Spec.Err.run L (Spec.Err.init n) cs with
  | none => rw [h.1 ha] at hs; cases hs
  | some a =>
    obtain ⟨h0, s1, h1, hr⟩ := h.2 a ha
    rw [h1] at hs
    cases hs
    have hl : v < a.vars.length := by rw [h0]; simpa [Spec.Err.init] using hv
    have hc : s.blocks = (a.errors.map Spec.Err.blocks).sum := by obtain ⟨_, hR⟩ := hr; exact hR.count
    refine ⟨?_, fun str => ?_, fun _ => rfl⟩
    · obtain ⟨s', e1, e2⟩ := report_rel L hr true false c f args v
      simp only [if_true, Bool.false_eq_true, if_false] at e2
      have e3 := rel_answers e2 (v := v) (by simpa [Shown.report] using hl)
      have e4 : (a.report v (c, none)).var v = .holds c none := by simp [Shown.report, Shown.var, hl]
      rw [e4] at e3
      have e5 : s'.blocks = ((a.report v (c, none)).errors.map Spec.Err.blocks).sum := by obtain ⟨_, hR⟩ := e2; exact hR.count
      refine ⟨s', e1, e3.1, e3.2.2, e3.2.1, ?_⟩
      rw [e5, hc]
      simp [Shown.report, Spec.Err.blocks]
    · obtain ⟨s', e1, e2⟩ := report_rel L hr false str c f args v
      simp only [Bool.false_eq_true, if_false] at e2
      have e3 := rel_answers e2 (v := v) (by simpa using hl)
      have e4 : Shown.var ⟨a.errors, a.vars.set v none⟩ v = .null := by simp [Shown.var, hl]
      rw [e4] at e3
      have e5 : s'.blocks = (a.errors.map Spec.Err.blocks).sum := by obtain ⟨_, hR⟩ := e2; exact hR.count
      exact ⟨s', e1, e3.1, e3.2.1, by rw [e5, hc]⟩

/-- **C82**: not of the code.  Built without `vasprintf`, a report whose format reads an argument is undefined behaviour, in
every state. -/
theorem C82_report_without_vasprintf (L : Libc Arg) (s : St) (mem str : Bool) (v : Nat) (c : Int) (f : List Char) (args : List Arg)
    (t : List Char) (ht : L.render f args = .text t) (hr : 0 < L.reads f) : report false L s mem str (some v) c (some f) args = none := by
  simp [report, (C58_printfv_twice L f args t ht).1 hr]

/-- **C82**.  A variable that is not given, NULL, is left alone by both ways to report. -/
theorem C82_report_nowhere (has : Bool) (L : Libc Arg) (s : St) (mem str : Bool) (c : Int) (t f : Option (List Char)) (args : List Arg) :
    new s mem str c t none = some s ∧ report has L s mem str none c f args = some s := ⟨rfl, rfl⟩

/-- A C library for the examples: `%` reads the next argument, `!` fails. -/
def exampleLib : Libc (List Char) where
  render f args :=
    if f.contains '!' then .fail [] else .text (f.flatMap fun ch => if ch = '%' then args.headD [] else [ch])
  reads f := f.count '%'

/-- Two variables: an error is reported with each of the two functions, asked for and freed, and the second error of the first one is copied. -/
def exampleCalls : List (Call (List Char)) :=
  [.new true true (-2) (some "no root".toList) (some 0), .report true true (some 1) (-7) (some "near %.".toList) ["<a>".toList],
   .free 0, .new true true (-3) (some "again".toList) (some 0), .report false true none 5 none [], .free 1, .clear 1, .copy 1 0]

example : (∀ c ∈ exampleCalls, Spec.Err.Known 2 c) ∧
    Spec.Err.run exampleLib (Spec.Err.init 2) exampleCalls = some ⟨[none, none, some (-3, some "again".toList)], [some 2, some 2]⟩ ∧
    (run true exampleLib (init 2) exampleCalls).bind (get · 1) = some (some ("again".toList ++ [NUL])) := by
  refine ⟨by simp [exampleCalls, Spec.Err.Known], by decide +kernel, by decide +kernel⟩

example : (run true exampleLib (init 2) (exampleCalls.take 2)).bind (get · 1) = some (some ("near <a>.".toList ++ [NUL])) ∧
    run true exampleLib (init 2) (exampleCalls.take 3 ++ [.free 0]) = none ∧
    run true exampleLib (init 2) (exampleCalls ++ [.free 0, .free 1]) = none := by
  refine ⟨?_, ?_, ?_⟩ <;> decide +kernel

example : (Spec.Err.run exampleLib (Spec.Err.init 2) (exampleCalls ++ [.free 0])).map (·.errors) = some [none, none, none] ∧
    (run true exampleLib (init 2) (exampleCalls ++ [.free 0])).map St.blocks = some 0 := by
  constructor <;> decide +kernel

example : (run true exampleLib (init 2) (exampleCalls.take 2 ++ [.report true false (some 0) 9 (some "near".toList) []])).bind (getCode · 0) = some 9 ∧
    run true exampleLib (init 2) (exampleCalls.take 2 ++ [.new true false 9 (some "near".toList) (some 0)]) = none := by
  constructor <;> decide +kernel

example : exampleLib.render "a!".toList [] = .fail [] ∧ exampleLib.render "%".toList ["x".toList] = .text "x".toList ∧
    0 < exampleLib.reads "%".toList := by decide +kernel

end Axl.Err
