/-
Proofs for C68: from the options of the command line to what the program does.
-/
import Verif.Props.Exarg
import Verif.Spec.Knife

namespace Axl
open Exarg Spec.Exarg Spec.Knife
namespace Knife

/-- The options. -/
abbrev opts : List Opt := knifeState.opts

/-- The places of the names. -/
theorem name_of {i : Nat} {a : List Char} (h : (opts[i]?.map (·.name)) = some a) : Names opts a i := by
  cases ho : opts[i]? with
  | none => rw [ho] at h; cases h
  | some o =>
    rw [ho] at h
    cases h
    exact C67_long_names knife_ok ho

theorem name_version : Names opts c!"version" 0 := name_of (by decide +kernel)
theorem name_input : Names opts c!"input" 1 := name_of (by decide +kernel)
theorem name_output : Names opts c!"output" 2 := name_of (by decide +kernel)
theorem name_ifnewer : Names opts c!"ifnewer" 3 := name_of (by decide +kernel)
theorem name_htmlize : Names opts c!"htmlize" 4 := name_of (by decide +kernel)
theorem name_dtd : Names opts c!"dtd-to-c" 9 := name_of (by decide +kernel)
theorem name_check : Names opts c!"check-xml" 10 := name_of (by decide +kernel)

theorem names_inj {os : List Opt} {a : List Char} {i j : Nat} (h : Names os a i) (g : Names os a j) : i = j := by
  have h := (lookup_iff _ _ _).2 h
  have g := (lookup_iff _ _ _).2 g
  rw [h] at g
  cases g
  rfl

/-- Only `htmlize` excludes. -/
theorem only_excludes {k : Nat} {o : Opt} (h : opts[k]? = some o) {e : Nat} (he : e ∈ o.excludes) : k = 4 := by
  have hlt := (List.getElem?_eq_some_iff.1 h).1
  have hall : ∀ k < 11, k ≠ 4 → (opts[k]?.map (·.excludes)) = some [] := by decide +kernel
  have hlen : opts.length = 11 := by decide +kernel
  refine Classical.byContradiction fun hk => ?_
  have := hall k (by omega) hk
  rw [h] at this
  simp only [Option.map_some, Option.some.injEq] at this
  rw [this] at he
  cases he

/-- What an accepted command line says. -/
structure Line (words : List (List Char)) (s : State) : Prop where
  version : isDefined s c!"version" = true ↔ Asks opts words c!"version"
  input   : isDefined s c!"input" = true ↔ Asks opts words c!"input"
  ifnewer : isDefined s c!"ifnewer" = true ↔ Asks opts words c!"ifnewer"
  htmlize : isDefined s c!"htmlize" = true ↔ Asks opts words c!"htmlize"
  dtd     : isDefined s c!"dtd-to-c" = true ↔ Asks opts words c!"dtd-to-c"
  check   : isDefined s c!"check-xml" = true ↔ Asks opts words c!"check-xml"
  inputIs  : ∃ r, getString s c!"input" = .ok r ∧ (∀ v, r = some v ↔ Gives opts words c!"input" v) ∧
    (isDefined s c!"input" = true → ∃ v, r = some v)
  outputIs : ∃ r, getString s c!"output" = .ok r ∧ (∀ v, r = some v ↔ Gives opts words c!"output" v) ∧
    (isDefined s c!"ifnewer" = true → ∃ v, r = some v)
  need : isDefined s c!"htmlize" = true ∨ isDefined s c!"dtd-to-c" = true ∨ isDefined s c!"check-xml" = true ∨
    isDefined s c!"ifnewer" = true → isDefined s c!"input" = true

theorem valued_of_given {words : List (List Char)} {items : List Item} (hr : Reading opts words items) {i : Nat} {o : Opt}
    (ho : opts[i]? = some o) (hk : o.kind ≠ .none) (hg : Given items i) : ∃ v, valueOf items i v := by
  obtain ⟨it, hit, e⟩ := hg
  cases it with
  | free w => cases e
  | flag w j =>
    cases e
    obtain ⟨-, -, -, p, hp, hpk⟩ := hr.good _ hit
    rw [ho] at hp
    cases hp
    exact absurd hpk hk
  | valued w j v => cases e; exact ⟨v, w, hit⟩

theorem line_of_parse (atoi : List Char → Int) {words : List (List Char)} {s : State} {said : Bool}
    (h : parse atoi knifeState words = .ok (s, said)) : Line words s := by
  obtain ⟨items, hr, -, -, hdef, hstr, -, hno, hyes⟩ := C67_reading_partial atoi knife_ok h
  have asks : ∀ {a i}, Names opts a i → (isDefined s a = true ↔ Asks opts words a) := by
    intro a i ha
    rw [hdef a i ha]
    constructor
    · intro hg
      exact ⟨items, hr, i, ha, hg⟩
    · rintro ⟨items', hr', j, hj, hg⟩
      cases C67_one_reading hr hr'
      cases names_inj ha hj
      exact hg
  have gives : ∀ {a i}, Names opts a i → ∀ v, (valueOf items i v ↔ Gives opts words a v) := by
    intro a i ha v
    constructor
    · rintro ⟨w, hw⟩
      exact ⟨items, hr, i, w, ha, hw⟩
    · rintro ⟨items', hr', j, w, hj, hw⟩
      cases C67_one_reading hr hr'
      cases names_inj ha hj
      exact ⟨w, hw⟩
  obtain ⟨o1, ho1, hk1, hd1⟩ : ∃ o, opts[1]? = some o ∧ o.kind = .string ∧ o.depends = [] :=
    ⟨opts[1]?.getD (newOpt [] none .none), by decide +kernel⟩
  obtain ⟨o2, ho2, hk2, hd2⟩ : ∃ o, opts[2]? = some o ∧ o.kind = .string ∧ o.depends = [] :=
    ⟨opts[2]?.getD (newOpt [] none .none), by decide +kernel⟩
  obtain ⟨o3, ho3, hd3⟩ : ∃ o, opts[3]? = some o ∧ (1 ∈ o.depends ∧ 2 ∈ o.depends) :=
    ⟨opts[3]?.getD (newOpt [] none .none), by decide +kernel⟩
  obtain ⟨o4, ho4, hd4⟩ : ∃ o, opts[4]? = some o ∧ 1 ∈ o.depends :=
    ⟨opts[4]?.getD (newOpt [] none .none), by decide +kernel⟩
  obtain ⟨o9, ho9, hd9⟩ : ∃ o, opts[9]? = some o ∧ 1 ∈ o.depends :=
    ⟨opts[9]?.getD (newOpt [] none .none), by decide +kernel⟩
  obtain ⟨o10, ho10, hd10⟩ : ∃ o, opts[10]? = some o ∧ 1 ∈ o.depends :=
    ⟨opts[10]?.getD (newOpt [] none .none), by decide +kernel⟩
  have need : (Given items 3 → Given items 1 ∧ Given items 2) ∧ (Given items 4 → Given items 1) ∧
      (Given items 9 → Given items 1) ∧ (Given items 10 → Given items 1) := by
    cases said with
    | false =>
      have ht := (hno rfl).1
      exact ⟨fun g => ⟨ht 3 o3 ho3 g 1 hd3.1, ht 3 o3 ho3 g 2 hd3.2⟩, fun g => ht 4 o4 ho4 g 1 hd4, fun g => ht 9 o9 ho9 g 1 hd9,
        fun g => ht 10 o10 ho10 g 1 hd10⟩
    | true =>
      obtain ⟨k, o, hk, hg, ⟨e, he, -⟩, hall⟩ := hyes rfl
      cases only_excludes hk he
      have h1 : Given items 1 := hall 4 (Nat.le_refl _) o4 ho4 hg 1 hd4
      exact ⟨fun g => ⟨h1, hall 3 (by omega) o3 ho3 g 2 hd3.2⟩, fun _ => h1, fun _ => h1, fun _ => h1⟩
  refine ⟨asks name_version, asks name_input, asks name_ifnewer, asks name_htmlize, asks name_dtd, asks name_check, ?_, ?_, ?_⟩
  · obtain ⟨r, h1, h2⟩ := hstr _ 1 o1 name_input ho1 hk1
    refine ⟨r, h1, fun v => (h2 v).trans (gives name_input v), fun hd => ?_⟩
    obtain ⟨v, hv⟩ := valued_of_given hr ho1 (by rw [hk1]; decide) ((hdef _ _ name_input).1 hd)
    exact ⟨v, (h2 v).2 hv⟩
  · obtain ⟨r, h1, h2⟩ := hstr _ 2 o2 name_output ho2 hk2
    refine ⟨r, h1, fun v => (h2 v).trans (gives name_output v), fun hd => ?_⟩
    obtain ⟨v, hv⟩ := valued_of_given hr ho2 (by rw [hk2]; decide) (need.1 ((hdef _ _ name_ifnewer).1 hd)).2
    exact ⟨v, (h2 v).2 hv⟩
  · rw [hdef _ _ name_htmlize, hdef _ _ name_dtd, hdef _ _ name_check, hdef _ _ name_ifnewer, hdef _ _ name_input]
    rintro (g | g | g | g)
    · exact need.2.1 g
    · exact need.2.2.1 g
    · exact need.2.2.2 g
    · exact (need.1 g).1

/-- What is done, by the options. -/
theorem run_parse (atoi : List Char → Int) (f : Files) (n : Nat) (words : List (List Char)) :
    run atoi f n words = Out.bind (parse atoi knifeState words) fun r => Out.bind (after f n r.1) fun q =>
      .ok ((if r.2 then [.excludes] else []) ++ q.1, q.2) := by
  unfold run
  rw [knife_ok]
  rfl

theorem upToDate_iff {words : List (List Char)} {s : State} (hl : Line words s) (f : Files) {a b : Option (List Char)}
    (ha : getString s c!"input" = .ok a) (hb : getString s c!"output" = .ok b) :
    upToDate f s a b = true ↔ Current opts f.time words := by
  obtain ⟨a', ha', ga, da⟩ := hl.inputIs
  obtain ⟨b', hb', gb, db⟩ := hl.outputIs
  rw [ha] at ha'; cases ha'
  rw [hb] at hb'; cases hb'
  unfold upToDate Current
  rw [Bool.and_eq_true, hl.ifnewer]
  refine and_congr_right fun hn => ?_
  have hd := hl.ifnewer.2 hn
  obtain ⟨v, rfl⟩ := da (hl.need (.inr (.inr (.inr hd))))
  obtain ⟨w, rfl⟩ := db hd
  constructor
  · intro h
    simp only [fileExists, checkIfNewer, Bool.and_eq_true, Option.isSome_iff_exists] at h
    obtain ⟨⟨⟨x, hx⟩, y, hy⟩, h⟩ := h
    rw [hx, hy] at h
    refine ⟨v, w, x, y, (ga v).1 rfl, (gb w).1 rfl, hx, hy, ?_⟩
    simpa using h
  · rintro ⟨v', w', x, y, h1, h2, hx, hy, hxy⟩
    have h1 := (ga v').2 h1
    have h2 := (gb w').2 h2
    cases h1; cases h2
    simp [fileExists, checkIfNewer, hx, hy, hxy]

/-- What the program does, with the options as they are. -/
theorem after_eq {words : List (List Char)} {s : State} (hl : Line words s) (f : Files) (n : Nat) :
    (Asks opts words c!"version" ∧ after f n s = .ok ([.version], (n : Int) + 1)) ∨
    (¬ Asks opts words c!"version" ∧ Current opts f.time words ∧ after f n s = .ok ([], 0)) ∨
    (Active opts f.time words ∧ ¬ Asks opts words c!"htmlize" ∧ ¬ Asks opts words c!"check-xml" ∧ ¬ Asks opts words c!"dtd-to-c" ∧
      after f n s = .ok ([.nothing], 0)) ∨
    (Active opts f.time words ∧ ∃ p, (∀ v, Gives opts words c!"input" v ↔ v = p) ∧
      ((Asks opts words c!"dtd-to-c" ∧ Asks opts words c!"htmlize" ∧ after f n s = .ub) ∨
       (Asks opts words c!"dtd-to-c" ∧ ¬ Asks opts words c!"htmlize" ∧
         after f n s = .ok ([if f.dtd p then .header p else .failed p], 0)) ∨
       (¬ Asks opts words c!"dtd-to-c" ∧ (Asks opts words c!"htmlize" ∨ Asks opts words c!"check-xml") ∧ f.doc p = false ∧
         after f n s = .ok ([.failed p], 0)) ∨
       (¬ Asks opts words c!"dtd-to-c" ∧ Asks opts words c!"htmlize" ∧ f.doc p = true ∧
         after f n s = .ok ([.loaded p, .page p], 0)) ∨
       (¬ Asks opts words c!"dtd-to-c" ∧ ¬ Asks opts words c!"htmlize" ∧ Asks opts words c!"check-xml" ∧ f.doc p = true ∧
         after f n s = .ok ([.loaded p, .good], 0)))) := by
  obtain ⟨a, ha, ga, da⟩ := hl.inputIs
  obtain ⟨b, hb, gb, db⟩ := hl.outputIs
  have hu := upToDate_iff hl f ha hb
  have hneed := hl.need
  unfold Active
  rw [← hl.version, ← hl.htmlize, ← hl.dtd, ← hl.check, ← hu]
  have he : after f n s = if isDefined s c!"version" then .ok ([.version], (n : Int) + 1)
      else if upToDate f s a b then .ok ([], 0)
      else if !isDefined s c!"htmlize" && !isDefined s c!"check-xml" && !isDefined s c!"dtd-to-c" then .ok ([.nothing], 0)
      else Out.bind (work f s a) fun r => .ok (r, 0) := by
    unfold after
    split
    · rfl
    · show Out.bind (getString s c!"input") _ = _
      rw [ha]
      show Out.bind (getString s c!"output") _ = _
      rw [hb]
      rfl
  rw [he]
  cases hv : isDefined s c!"version" with
  | true => exact .inl ⟨rfl, rfl⟩
  | false =>
  cases hc : upToDate f s a b with
  | true => exact .inr (.inl ⟨by simp, rfl, by simp⟩)
  | false =>
  by_cases hx : isDefined s c!"htmlize" = false ∧ isDefined s c!"check-xml" = false ∧ isDefined s c!"dtd-to-c" = false
  · exact .inr (.inr (.inl ⟨by simp, by simp [hx.1], by simp [hx.2.1], by simp [hx.2.2], by simp [hx]⟩))
  · have hi : isDefined s c!"input" = true := by
      apply hneed
      revert hx
      cases isDefined s c!"htmlize" <;> cases isDefined s c!"check-xml" <;> cases isDefined s c!"dtd-to-c" <;> simp
    obtain ⟨p, rfl⟩ := da hi
    refine .inr (.inr (.inr ⟨by simp, p, fun v => ?_, ?_⟩))
    · rw [← ga v, Option.some.injEq]; exact eq_comm
    · have hw : work f s (some p) = if isDefined s c!"dtd-to-c" then
          (if isDefined s c!"htmlize" then .ub else .ok [if f.dtd p then .header p else .failed p])
          else if f.doc p then (if isDefined s c!"htmlize" then .ok [.loaded p, .page p]
            else if isDefined s c!"check-xml" then .ok [.loaded p, .good] else .ok [.loaded p])
          else .ok [.failed p] := by
        unfold work process
        rw [hi]
        cases isDefined s c!"htmlize" <;> cases isDefined s c!"check-xml" <;> cases isDefined s c!"dtd-to-c" <;>
          cases hp : f.doc p <;> simp [hp, bind, Out.bind, pure]
      rw [hw]
      revert hx
      cases isDefined s c!"htmlize" <;> cases isDefined s c!"check-xml" <;> cases isDefined s c!"dtd-to-c" <;>
        cases f.doc p <;> simp [Out.bind]

end Knife
end Axl
