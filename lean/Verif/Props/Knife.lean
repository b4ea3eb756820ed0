/-
C68: what `axl-knife` does for a command line.
-/
import Verif.Proofs.Knife

namespace Axl
open Exarg Spec.Exarg Spec.Knife
open Knife (Files Did run opts)

/-- **C68**: what is done when the program ends.  For all command lines and files: the page is of the input file, and is
written exactly when it is asked for and the file is a document; so is the header, of a file that is a DTD; the file is said
to be good exactly when it was asked for, alone, and it is a document; a file is said to be wrong exactly when it was needed
and is not what was needed; and none of this is done with `--version`, or with `--ifnewer` when the output is not older than
the input.  Missing: `--htmlize` and `--dtd-to-c` together (`C68_not_both`), and the status (`C68_not_status`). -/
theorem C68_actions_partial (atoi : List Char → Int) (f : Files) (n : Nat) {words : List (List Char)} {did : List Did}
    {status : Int} (h : run atoi f n words = .ok (did, status)) :
    (∀ p, .page p ∈ did ↔ Active opts f.time words ∧ Asks opts words c!"htmlize" ∧ Gives opts words c!"input" p ∧ f.doc p = true) ∧
    (∀ p, .header p ∈ did ↔ Active opts f.time words ∧ Asks opts words c!"dtd-to-c" ∧ Gives opts words c!"input" p ∧ f.dtd p = true) ∧
    (.good ∈ did ↔ Active opts f.time words ∧ Asks opts words c!"check-xml" ∧ ¬ Asks opts words c!"htmlize" ∧
      ¬ Asks opts words c!"dtd-to-c" ∧ ∃ p, Gives opts words c!"input" p ∧ f.doc p = true) ∧
    (∀ p, .failed p ∈ did ↔ Active opts f.time words ∧ Gives opts words c!"input" p ∧
      ((Asks opts words c!"dtd-to-c" ∧ f.dtd p = false) ∨
       (¬ Asks opts words c!"dtd-to-c" ∧ (Asks opts words c!"htmlize" ∨ Asks opts words c!"check-xml") ∧ f.doc p = false))) ∧
    (.version ∈ did ↔ Asks opts words c!"version") ∧
    (.nothing ∈ did ↔ Active opts f.time words ∧ ¬ Asks opts words c!"htmlize" ∧ ¬ Asks opts words c!"check-xml" ∧
      ¬ Asks opts words c!"dtd-to-c") := by
  rw [Knife.run_parse] at h
  cases hp : parse atoi knifeState words with
  | exit w => rw [hp] at h; cases h
  | ub => rw [hp] at h; cases h
  | ok r =>
    obtain ⟨s, said⟩ := r
    rw [hp] at h
    have h : Out.bind (Knife.after f n s) (fun q => .ok ((if said then [.excludes] else []) ++ q.1, q.2)) = .ok (did, status) := h
    have hpre : ∀ d : Did, d ≠ .excludes → d ∉ (if said then [Did.excludes] else []) := by
      intro d hd; cases said <;> simp [hd]
    have mem : ∀ {d : Did} {l : List Did}, d ≠ .excludes → (d ∈ (if said then [Did.excludes] else []) ++ l ↔ d ∈ l) := by
      intro d l hd
      simp [List.mem_append, hpre d hd]
    rcases Knife.after_eq (Knife.line_of_parse atoi hp) f n with ⟨h1, e⟩ | ⟨h1, h2, e⟩ | ⟨h1, h2, h3, h4, e⟩ |
      ⟨h1, p, hg, ⟨h2, h3, e⟩ | ⟨h2, h3, e⟩ | ⟨h2, h3, h4, e⟩ | ⟨h2, h3, h4, e⟩ | ⟨h2, h3, h4, h5, e⟩⟩ <;> rw [e] at h <;>
      simp only [Out.bind, Out.ok.injEq, Prod.mk.injEq, reduceCtorEq] at h
    · obtain ⟨rfl, -⟩ := h
      have hna : ¬ Active opts f.time words := fun hc => hc.1 h1
      simp [mem, hna, h1]
    · obtain ⟨rfl, -⟩ := h
      have hna : ¬ Active opts f.time words := fun hc => hc.2 h2
      simp [mem, hna, h1]
    · obtain ⟨rfl, -⟩ := h
      simp [mem, h1, h1.1, h2, h3, h4]
    · obtain ⟨rfl, -⟩ := h
      simp only [mem, ne_eq, reduceCtorEq, not_false_eq_true, List.mem_singleton]
      cases hd : f.dtd p <;> simp [h1, h1.1, h2, h3, hg] <;> grind
    · obtain ⟨rfl, -⟩ := h
      simp only [mem, ne_eq, reduceCtorEq, not_false_eq_true, List.mem_singleton]
      simp [h1, h1.1, h2, h3, hg, h4] <;> grind
    · obtain ⟨rfl, -⟩ := h
      simp only [mem, ne_eq, reduceCtorEq, not_false_eq_true, List.mem_singleton]
      simp [h1, h1.1, h2, h3, hg, h4] <;> grind
    · obtain ⟨rfl, -⟩ := h
      simp only [mem, ne_eq, reduceCtorEq, not_false_eq_true, List.mem_singleton]
      simp [h1, h1.1, h2, h3, hg, h4, h5] <;> grind

/-- **C68**: whatever is asked for has its input.  If the program ends and is not stopped by the command line, there is one
input file for the page, the header and the check. -/
theorem C68_input (atoi : List Char → Int) (f : Files) (n : Nat) {words : List (List Char)} {did : List Did} {status : Int}
    (h : run atoi f n words = .ok (did, status)) (hv : Active opts f.time words)
    (ha : Asks opts words c!"htmlize" ∨ Asks opts words c!"dtd-to-c" ∨ Asks opts words c!"check-xml") :
    ∃ p, ∀ v, Gives opts words c!"input" v ↔ v = p := by
  rw [Knife.run_parse] at h
  cases hp : parse atoi knifeState words with
  | exit w => rw [hp] at h; cases h
  | ub => rw [hp] at h; cases h
  | ok r =>
    obtain ⟨s, said⟩ := r
    rcases Knife.after_eq (Knife.line_of_parse atoi hp) f n with ⟨h1, -⟩ | ⟨-, h2, -⟩ | ⟨-, h2, h3, h4, -⟩ | ⟨-, p, hg, -⟩
    · exact absurd h1 hv.1
    · exact absurd h2 hv.2
    · rcases ha with ha | ha | ha <;> contradiction
    · exact ⟨p, hg⟩

/-- **C68**: there is no undefined behaviour, unless `--htmlize` and `--dtd-to-c` are given together. -/
theorem C68_safe_partial (atoi : List Char → Int) (f : Files) (n : Nat) {words : List (List Char)}
    (hb : ¬ (Asks opts words c!"htmlize" ∧ Asks opts words c!"dtd-to-c")) : run atoi f n words ≠ .ub := by
  rw [Knife.run_parse]
  cases hp : parse atoi knifeState words with
  | exit w => exact fun h => nomatch h
  | ub => exact absurd hp (C67_safe atoi knife_ok words)
  | ok r =>
    obtain ⟨s, said⟩ := r
    show Out.bind (Knife.after f n s) _ ≠ .ub
    rcases Knife.after_eq (Knife.line_of_parse atoi hp) f n with ⟨h1, e⟩ | ⟨h1, h2, e⟩ | ⟨h1, h2, h3, h4, e⟩ |
      ⟨h1, p, hg, ⟨h2, h3, e⟩ | ⟨h2, h3, e⟩ | ⟨h2, h3, h4, e⟩ | ⟨h2, h3, h4, e⟩ | ⟨h2, h3, h4, h5, e⟩⟩ <;> rw [e]
    all_goals first | (simp [Out.bind]; done) | exact absurd ⟨h3, h2⟩ hb

/-- **C68**: with `--ifnewer` and an output that is not older than the input, no file is read and nothing is written. -/
theorem C68_current (atoi : List Char → Int) (f : Files) (n : Nat) {words : List (List Char)} {did : List Did} {status : Int}
    (h : run atoi f n words = .ok (did, status)) (hv : ¬ Asks opts words c!"version") (hc : Current opts f.time words) :
    status = 0 ∧ ∀ d ∈ did, d = .excludes := by
  rw [Knife.run_parse] at h
  cases hp : parse atoi knifeState words with
  | exit w => rw [hp] at h; cases h
  | ub => rw [hp] at h; cases h
  | ok r =>
    obtain ⟨s, said⟩ := r
    rw [hp] at h
    have h : Out.bind (Knife.after f n s) (fun q => .ok ((if said then [.excludes] else []) ++ q.1, q.2)) = .ok (did, status) := h
    rcases Knife.after_eq (Knife.line_of_parse atoi hp) f n with ⟨h1, -⟩ | ⟨-, -, e⟩ | ⟨h1, -⟩ | ⟨h1, -⟩
    · exact absurd h1 hv
    · rw [e] at h
      simp only [Out.bind, Out.ok.injEq, Prod.mk.injEq] at h
      obtain ⟨rfl, rfl⟩ := h
      refine ⟨rfl, fun d hd => ?_⟩
      cases said <;> simp at hd
      exact hd
    · exact absurd hc h1.2
    · exact absurd hc h1.2

/-- The files of the cases: `a.xml` is a document, `a.dtd` a DTD; `new` is newer than both. -/
def files68 : Files :=
  ⟨fun p => if p = c!"a.xml" then some 5 else if p = c!"a.dtd" then some 6 else if p = c!"new" then some 6 else none,
    fun p => p == c!"a.xml", fun p => p == c!"a.dtd"⟩

/-- A case: the check of a document. -/
example : run (fun _ => 0) files68 12 [c!"--check-xml", c!"-i", c!"a.xml"] = .ok ([.loaded c!"a.xml", .good], 0) := by
  decide +kernel

example : Active opts files68.time [c!"--check-xml", c!"-i", c!"a.xml"] ∧ Asks opts [c!"--check-xml", c!"-i", c!"a.xml"] c!"check-xml" ∧
    ∃ p, Gives opts [c!"--check-xml", c!"-i", c!"a.xml"] c!"input" p ∧ files68.doc p = true := by
  have h : run (fun _ => 0) files68 12 [c!"--check-xml", c!"-i", c!"a.xml"] = .ok ([.loaded c!"a.xml", .good], 0) := by decide +kernel
  have := (C68_actions_partial _ _ _ h).2.2.1.1 (by simp)
  exact ⟨this.1, this.2.1, this.2.2.2.2⟩

/-- A case: the output is not older. -/
example : run (fun _ => 0) files68 12 [c!"-e", c!"-n", c!"--output", c!"new", c!"-i", c!"a.xml"] = .ok ([], 0) ∧
    run (fun _ => 0) files68 12 [c!"-e", c!"-n", c!"--output", c!"old", c!"-i", c!"a.xml"] =
      .ok ([.loaded c!"a.xml", .page c!"a.xml"], 0) ∧
    run (fun _ => 0) files68 12 [c!"--dtd-to-c", c!"-n", c!"--output", c!"a.xml", c!"-i", c!"a.dtd"] = .ok ([.header c!"a.dtd"], 0) := by
  decide +kernel

/-- **C68**: not of the code for `--htmlize` with `--dtd-to-c`: after the message that they exclude one another, the page of no
document is written. -/
theorem C68_not_both : run (fun _ => 0) files68 12 [c!"--htmlize", c!"--dtd-to-c", c!"-i", c!"a.dtd"] = .ub := by decide +kernel

/-- **C68**: nor for the status: it is 0 for a file that is not a document, and not 0 for `--version`. -/
theorem C68_not_status :
    run (fun _ => 0) files68 12 [c!"--check-xml", c!"-i", c!"bad.xml"] = .ok ([.failed c!"bad.xml"], 0) ∧
    run (fun _ => 0) files68 12 [c!"--version"] = .ok ([.version], 13) := by decide +kernel

end Axl
