/-
C78: the usage and the help show every option and every word of its description; C67: options defined by the program.
-/
import Verif.Proofs.ExargHelp
import Verif.Props.Exarg

namespace Axl
open Exarg Spec.Exarg

/-- **C78**: a text, of any length and for any width, is printed whole: the lines on the screen, with a space between each
and the next, are the text, a text that fits is one line, and the others are cut at the first space where they are long
enough. -/
theorem C78_wrap (text : List Char) (size : Nat) (fill : List Char) :
    ∃ lines, Wraps size text lines ∧ wrap (some text) size fill = some (screen fill lines) := wrap_spec text size fill

/-- A text that does not fit, with a word longer than a line and two spaces together. -/
example : wrap (some c!"one two  abcdefghijkl end") 8 c!"..." = some (c!"one two\n" ++ c!"... abcdefghijkl\n" ++ c!"...end\n") := by decide +kernel

theorem wraps_head {size : Nat} {l : List Char} {ls : List (List Char)} (hfull : ∀ x ∈ (l :: ls).dropLast, size ≤ x.length + 1) (h : ls ≠ []) :
    size ≤ l.length + 1 := by
  cases ls with
  | nil => exact absurd rfl h
  | cons y ys => exact hfull l (by simp [List.dropLast])

/-- Two ways of cutting a text have the same first line. -/
theorem wraps_same {size : Nat} : ∀ {a b : List (List Char)}, a ≠ [] → b ≠ [] → List.intercalate [' '] a = List.intercalate [' '] b →
    (∀ l ∈ a.dropLast, size ≤ l.length + 1) → (∀ l ∈ b.dropLast, size ≤ l.length + 1) →
    (∀ l ∈ a, ∀ x y, l = x ++ ' ' :: y → x.length + 1 < size) → (∀ l ∈ b, ∀ x y, l = x ++ ' ' :: y → x.length + 1 < size) → a = b := by
  intro a
  induction a with
  | nil => intro b h; exact absurd rfl h
  | cons p ps ih =>
    intro b _ hb e fa fb ea eb
    cases b with
    | nil => exact absurd rfl hb
    | cons q qs =>
      -- a line that is a proper start of the other is followed by a space in it, where it was long enough
      have key : ∀ {u v : List Char} {us vs : List (List Char)}, us ≠ [] → vs = [] ∨ vs ≠ [] →
          List.intercalate [' '] (u :: us) = List.intercalate [' '] (v :: vs) → size ≤ u.length + 1 →
          (∀ x y, v = x ++ ' ' :: y → x.length + 1 < size) → v.length ≤ u.length := by
        intro u v us vs hu hv e hsz hea
        apply Classical.byContradiction
        intro hlt
        have hlt : u.length < v.length := by omega
        rw [cat_ne hu] at e
        have hv' : ∃ t, List.intercalate [' '] (v :: vs) = v ++ t := by
          rcases hv with h | h
          · subst h; exact ⟨[], by rw [cat_one]; simp⟩
          · exact ⟨[' '] ++ List.intercalate [' '] vs, by rw [cat_ne h]; simp⟩
        obtain ⟨t, ht⟩ := hv'
        rw [ht] at e
        have e1 : v = u ++ ' ' :: v.drop (u.length + 1) := by
          have h1 := congrArg (List.take v.length) e
          rw [List.take_left' rfl, List.append_assoc, List.take_append, List.take_of_length_le (by omega)] at h1
          have h2 : List.take (v.length - u.length) ([' '] ++ List.intercalate [' '] us) =
              ' ' :: List.take (v.length - u.length - 1) (List.intercalate [' '] us) := by
            cases hk : v.length - u.length with
            | zero => omega
            | succ k => simp
          rw [h2] at h1
          rw [← h1]
          simp
        have := hea _ _ e1
        omega
      by_cases hp : ps = []
      · by_cases hq : qs = []
        · subst hp; subst hq
          rw [cat_one, cat_one] at e
          rw [e]
        · have h1 := key hq (.inl hp) e.symm (wraps_head fb hq) (ea p (by simp))
          rw [hp, cat_one, cat_ne hq] at e
          have := congrArg List.length e
          simp at this
          omega
      · by_cases hq : qs = []
        · have h1 := key hp (.inl hq) e (wraps_head fa hp) (eb q (by simp))
          rw [hq, cat_one, cat_ne hp] at e
          have := congrArg List.length e
          simp at this
          omega
        · have h1 := key hp (.inr hq) e (wraps_head fa hp) (eb q (by simp))
          have h2 := key hq (.inr hp) e.symm (wraps_head fb hq) (ea p (by simp))
          rw [cat_ne hp, cat_ne hq, List.append_assoc, List.append_assoc] at e
          obtain ⟨e1, e2⟩ := List.append_inj e (by omega)
          have e3 := List.append_cancel_left e2
          subst e1
          rw [ih hp hq e3
            (fun l hl => fa l (by cases ps with | nil => exact absurd rfl hp | cons _ _ => simp [List.dropLast] at hl ⊢; exact .inr hl))
            (fun l hl => fb l (by cases qs with | nil => exact absurd rfl hq | cons _ _ => simp [List.dropLast] at hl ⊢; exact .inr hl))
            (fun l hl => ea l (by simp [hl])) (fun l hl => eb l (by simp [hl]))]

/-- **C78**: there is one way to cut a text so, hence `C78_wrap` says what is printed to the last byte. -/
theorem C78_one_way {size : Nat} {text : List Char} {a b : List (List Char)} (ha : Wraps size text a) (hb : Wraps size text b) : a = b := by
  by_cases h : text.length ≤ size
  · rw [ha.fits h, hb.fits h]
  · have h : size < text.length := by omega
    exact wraps_same ha.some hb.some (ha.whole.trans hb.whole.symm) ha.full hb.full (ha.early h) (hb.early h)

/-- **C78**: `--usage` shows every option, in the order they were installed, with its names and the value it takes. -/
theorem C78_usage (hs : Headers) (exec : List Char) {opts : List Opt} (h : opts ≠ []) (headers : Bool) :
    ∃ lines, Wraps 55 (opts.map usageOf).flatten lines ∧
      showUsage hs exec opts headers = some ((if headers then hs.usage.getD [] else []) ++ c!"Usage: " ++ exec ++ c!" " ++
        screen (List.replicate 15 ' ') lines ++ c!"\n" ++ (if headers then hs.postUsage.getD [] else [])) := by
  obtain ⟨lines, h1, h2⟩ := wrap_spec (opts.map usageOf).flatten 55 (List.replicate 15 ' ')
  refine ⟨lines, h1, ?_⟩
  unfold showUsage
  rw [usage_all h, h2]
  rfl

theorem helpItems_spec {opts : List Opt} : ∀ (rows : List (Opt × List Char)),
    (∀ r ∈ rows, (∀ i ∈ r.1.depends, i < opts.length) ∧ ∀ i ∈ r.1.excludes, i < opts.length) →
    ∃ items, helpItems opts (rows.map fun r => (r.1, some r.2)) = some items.flatten ∧ EachHelp opts rows items
  | [], _ => ⟨[], rfl, .nil⟩
  | r :: rows, h => by
    obtain ⟨h1, h2⟩ := h r (by simp)
    obtain ⟨out, e1, e2⟩ := helpItem_spec (opts := opts) (o := r.1) r.2 h1 h2
    obtain ⟨items, g1, g2⟩ := helpItems_spec rows fun x hx => h x (by simp [hx])
    refine ⟨out :: items, ?_, .cons e2 g2⟩
    simp only [List.map_cons, helpItems, e1, g1, Option.bind_eq_bind, Option.bind_some, List.flatten_cons]

/-- **C78**: `--help` shows the usage and then every option in the order they were installed, with its names, its whole
description in one column, the options it depends on and those it excludes, for all calls that set the options.  Missing:
options without a description (see `C78_no_description`). -/
theorem C78_help_partial (hs : Headers) (exec : List Char) {cs : List Setup} {s0 : State} (h0 : setups start cs = .ok s0) (hne : s0.opts ≠ [])
    {rows : List (Opt × List Char)} (hr : rows.map Prod.fst = s0.opts) :
    ∃ lines items, Wraps 55 (s0.opts.map usageOf).flatten lines ∧ EachHelp s0.opts rows items ∧
      showHelp hs exec (rows.map fun r => (r.1, some r.2)) = some (hs.help.getD [] ++
        (c!"Usage: " ++ exec ++ c!" " ++ screen (List.replicate 15 ' ') lines ++ c!"\n") ++
        c!"\nCommand options:\n" ++ items.flatten ++ c!"\nHelp options:\n" ++
        c!"  -?, --help                    Show this help message.\n" ++
        c!"  --usage                       Display brief usage message.\n" ++ hs.postHelp.getD []) := by
  have hf := fresh_setups cs fresh_start h0
  obtain ⟨lines, h1, h2⟩ := C78_usage hs exec hne false
  obtain ⟨items, g1, g2⟩ := helpItems_spec (opts := s0.opts) rows (by
    intro r hr'
    exact hf.places r.1 (by rw [← hr]; exact List.mem_map_of_mem hr'))
  refine ⟨lines, items, h1, g2, ?_⟩
  have e : (rows.map fun r => (r.1, some r.2)).map Prod.fst = s0.opts := by rw [← hr]; simp [Function.comp_def]
  unfold showHelp
  rw [e, h2, g1]
  simp only [Option.bind_eq_bind, Option.bind_some, header]
  simp

/-- Options for the example. -/
def options78 : List Setup := [.install c!"input" (some c!"i") .string, .install c!"pretty-print" none .none, .dependency c!"pretty-print" c!"input"]

def state78 : State := match setups start options78 with | .ok s => s | _ => start

example : setups start options78 = .ok state78 ∧ state78.opts ≠ [] := by decide +kernel

example : showHelp ⟨none, none, none, none⟩ c!"prog"
    ((state78.opts.zip [c!"Configures the input XML file to process by the tool", c!"Ident"]).map fun r => (r.1, some r.2)) = some (
  c!"Usage: prog  [-i <string>|--input <string>] [--pretty-print]\n" ++
  c!"\n" ++
  c!"\n" ++
  c!"Command options:\n" ++
  c!"  -i, --input                    Configures the input XML file to process\n" ++
  c!"                                 by the tool\n" ++
  c!"  --pretty-print                 Ident\n" ++
  c!"                                   [depends on:  --input]\n" ++
  c!"\n" ++
  c!"Help options:\n" ++
  c!"  -?, --help                    Show this help message.\n" ++
  c!"  --usage                       Display brief usage message.\n") := by decide +kernel

/-- **C78**: not of the code for an option without a description: the line does not end and the next option is on it. -/
theorem C78_no_description : setups start [.install c!"a" none .none, .install c!"b" none .none] = .ok ⟨[newOpt c!"a" none .none, newOpt c!"b" none .none], [], none, false⟩ ∧
    helpItems [newOpt c!"a" none .none, newOpt c!"b" none .none] [(newOpt c!"a" none .none, none), (newOpt c!"b" none .none, some c!"About b")] =
      some (c!"  --a                              --b                            About b\n") := by decide +kernel

/-- **C78**: the program is named in the usage by the last part of its path, after the last bar of any of the two kinds. -/
theorem C78_basename (path : List Char) : ∃ dir, path = dir ++ basename path ∧ (∀ c ∈ basename path, c ≠ '/' ∧ c ≠ '\\') ∧
    (dir = [] ∨ ∃ d, dir = d ++ ['/'] ∨ dir = d ++ ['\\']) := by
  obtain ⟨h1, h2⟩ := basename_spec path path.length (Nat.le_refl _) (by simp)
  exact ⟨path.take (basenameLoop path path.length), (List.take_append_drop _ _).symm, h1, h2⟩

example : basename c!"/usr/bin/axl-knife" = c!"axl-knife" := by decide +kernel

/-- **C78**: `exarg_disable_help`, that is to disable `--help` and `--usage`, does nothing: they are read as before. -/
theorem C78_not_disabled : parse (fun _ => 0) (disableHelp knifeState) [c!"--help"] = .exit .help ∧
    parse (fun _ => 0) (disableHelp knifeState) [c!"--usage"] = .exit .usage := by decide +kernel

/-! ## Options defined by the program -/

theorem lookup_update {s : State} {i : Nat} {f : Opt → Opt} (hf : ∀ o, (f o).name = o.name ∧ (f o).short = o.short) (a : List Char) :
    lookup (update s i f).opts a = lookup s.opts a := by
  have h : ∀ (opts : List Opt) (i : Nat), (opts.modify i f).findIdx? (named a) = opts.findIdx? (named a) := by
    intro opts
    induction opts with
    | nil => intro i; cases i <;> rfl
    | cons o opts ih =>
      intro i
      cases i with
      | zero => simp [List.findIdx?_cons, named, hf o]
      | succ i => simp [List.findIdx?_cons, ih]
  exact h s.opts i

/-- What the program sees of an option. -/
theorem seen_of {s : State} {a : List Char} {i : Nat} {o : Opt} (hn : lookup s.opts a = some i) (ho : s.opts[i]? = some o) :
    isDefined s a = o.defined ∧ (o.kind = .string → getString s a = .ok o.str) ∧ (o.kind = .int → getInt s a = .ok o.int) := by
  have hne : s.opts ≠ [] := by intro h; rw [h] at ho; simp at ho
  refine ⟨by simp [isDefined, hn, ho], ?_, ?_⟩
  · intro hk; simp [getString, hne, hn, ho, hk]
  · intro hk; simp [getInt, hne, hn, ho, hk]

/-- **C67**: an option that the program defines with `exarg_define` is then as one given on the command line, by any of its
names: it is defined, and a value given is its value; the other options stay as they are. -/
theorem C67_define (atoi : List Char → Int) {s : State} {a : List Char} {i : Nat} {o : Opt} (hn : Names s.opts a i) (ho : s.opts[i]? = some o)
    (value : Option (List Char)) :
    (∀ b, Names s.opts b i → isDefined (define atoi s a value) b = true ∧
      (∀ v, value = some v → o.kind = .string → getString (define atoi s a value) b = .ok (some v)) ∧
      (∀ v, value = some v → o.kind = .int → getInt (define atoi s a value) b = .ok (atoi v))) ∧
    ∀ b j, Names s.opts b j → j ≠ i → isDefined (define atoi s a value) b = isDefined s b ∧
      getString (define atoi s a value) b = getString s b ∧ getInt (define atoi s a value) b = getInt s b := by
  have hl := (lookup_iff _ _ _).2 hn
  -- the option after it
  obtain ⟨f, hf, hd⟩ : ∃ f : Opt → Opt, (∀ o, (f o).name = o.name ∧ (f o).short = o.short ∧ (f o).kind = o.kind ∧ (f o).defined = true ∧
        (∀ v, value = some v → o.kind = .string → (f o).str = some v) ∧ (∀ v, value = some v → o.kind = .int → (f o).int = atoi v)) ∧
      define atoi s a value = update s i f := by
    cases value with
    | none => exact ⟨fun o => { o with defined := true }, by simp, by simp [define, hl]⟩
    | some v =>
      refine ⟨fun o => setValue atoi v { o with defined := true }, ?_, ?_⟩
      · intro o
        unfold setValue
        cases hk : o.kind <;> simp [hk]
      · simp only [define, hl, update]
        congr 1
        rw [List.modify_modify_eq]
        rfl
  rw [hd]
  have hname : ∀ o, (f o).name = o.name ∧ (f o).short = o.short := fun o => ⟨(hf o).1, (hf o).2.1⟩
  constructor
  · intro b hb
    have hb' : lookup (update s i f).opts b = some i := by rw [lookup_update hname]; exact (lookup_iff _ _ _).2 hb
    have ho' : (update s i f).opts[i]? = some (f o) := by simp [update, ho]
    obtain ⟨h1, h2, h3⟩ := seen_of hb' ho'
    obtain ⟨-, -, k1, k2, k3, k4⟩ := hf o
    refine ⟨by rw [h1, k2], ?_, ?_⟩
    · intro v hv hk
      rw [h2 (by rw [k1, hk]), k3 v hv hk]
    · intro v hv hk
      rw [h3 (by rw [k1, hk]), k4 v hv hk]
  · intro b j hb hj
    have e1 := lookup_update (s := s) (i := i) hname b
    have e2 : (update s i f).opts[j]? = s.opts[j]? := by
      simp only [update, List.getElem?_modify]
      cases s.opts[j]? <;> simp [Ne.symm hj]
    have e3 : (update s i f).opts = [] ↔ s.opts = [] := by simp [update]
    have hb' := (lookup_iff _ _ _).2 hb
    refine ⟨?_, ?_, ?_⟩
    · simp only [isDefined, e1, hb', e2]
    · simp only [getString, e1, hb', e2, e3]
    · simp only [getInt, e1, hb', e2, e3]

/-- **C67**: an option that the program undefines with `exarg_undef` is then as one that is not given. -/
theorem C67_undef {s : State} {a : List Char} {i : Nat} {o : Opt} (hn : Names s.opts a i) (ho : s.opts[i]? = some o) :
    (∀ b, Names s.opts b i → isDefined (undef s a) b = false ∧ (o.kind = .string → getString (undef s a) b = .ok none) ∧
      (o.kind = .int → getInt (undef s a) b = .ok 0)) ∧
    ∀ b j, Names s.opts b j → j ≠ i → isDefined (undef s a) b = isDefined s b ∧
      getString (undef s a) b = getString s b ∧ getInt (undef s a) b = getInt s b := by
  have hl := (lookup_iff _ _ _).2 hn
  obtain ⟨f, hf, hd⟩ : ∃ f : Opt → Opt, (∀ o, (f o).name = o.name ∧ (f o).short = o.short ∧ (f o).kind = o.kind ∧ (f o).defined = false ∧
        (o.kind = .string → (f o).str = none) ∧ (o.kind = .int → (f o).int = 0)) ∧ undef s a = update s i f := by
    refine ⟨_, ?_, by simp only [undef, hl]; rfl⟩
    intro o
    cases hk : o.kind <;> simp [hk]
  rw [hd]
  have hname : ∀ o, (f o).name = o.name ∧ (f o).short = o.short := fun o => ⟨(hf o).1, (hf o).2.1⟩
  constructor
  · intro b hb
    have hb' : lookup (update s i f).opts b = some i := by rw [lookup_update hname]; exact (lookup_iff _ _ _).2 hb
    have ho' : (update s i f).opts[i]? = some (f o) := by simp [update, ho]
    obtain ⟨h1, h2, h3⟩ := seen_of hb' ho'
    obtain ⟨-, -, k1, k2, k3, k4⟩ := hf o
    exact ⟨by rw [h1, k2], fun hk => by rw [h2 (by rw [k1, hk]), k3 hk], fun hk => by rw [h3 (by rw [k1, hk]), k4 hk]⟩
  · intro b j hb hj
    have e1 := lookup_update (s := s) (i := i) hname b
    have e2 : (update s i f).opts[j]? = s.opts[j]? := by
      simp only [update, List.getElem?_modify]
      cases s.opts[j]? <;> simp [Ne.symm hj]
    have e3 : (update s i f).opts = [] ↔ s.opts = [] := by simp [update]
    have hb' := (lookup_iff _ _ _).2 hb
    refine ⟨?_, ?_, ?_⟩
    · simp only [isDefined, e1, hb', e2]
    · simp only [getString, e1, hb', e2, e3]
    · simp only [getInt, e1, hb', e2, e3]

/-- A case: the option for the input, by its short name. -/
example : Names knifeState.opts c!"i" 0 ∨ ∃ i o, Names knifeState.opts c!"i" i ∧ knifeState.opts[i]? = some o := by
  right
  obtain ⟨i, hi⟩ : ∃ i, lookup knifeState.opts c!"i" = some i := ⟨(lookup knifeState.opts c!"i").getD 0, by decide +kernel⟩
  exact ⟨i, _, (lookup_iff _ _ _).1 hi, List.getElem?_eq_getElem (lookup_lt hi)⟩

example : getString (define (fun _ => 0) knifeState c!"i" (some c!"a.xml")) c!"input" = .ok (some c!"a.xml") ∧
    isDefined (undef (define (fun _ => 0) knifeState c!"i" (some c!"a.xml")) c!"input") c!"i" = false := by decide +kernel

end Axl
