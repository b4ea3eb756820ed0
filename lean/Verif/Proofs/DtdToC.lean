/-
Proofs about `axl-knife --dtd-to-c`.
-/
import Verif.Model.DtdToC
import Verif.Spec.DtdToC
import Verif.Proofs.StreamZero

namespace Axl
namespace DtdToC
open Str hiding split
open FileStream Spec.FileStream Spec.StreamZero Spec.DtdToC StreamZero

/-! ## How the header is read -/

theorem splice_cons {c : Char} (h : c ≠ '\\') (r : List Char) : splice (c :: r) = c :: splice r := by
  rw [splice]
  intros; contradiction

theorem splice_text : ∀ {w : List Char} (r : List Char), '\\' ∉ w → splice (w ++ r) = w ++ splice r
  | [], _, _ => rfl
  | c :: w, r, h => by
    simp only [List.mem_cons, not_or] at h
    rw [List.cons_append, splice_cons (Ne.symm h.1), splice_text r h.2, List.cons_append]

theorem literalRest_cons {c : Char} (h1 : c ≠ '"') (h2 : c ≠ '\\') (h3 : c ≠ '\n') (r : List Char) :
    literalRest (c :: r) = (literalRest r).map (c :: ·) := by
  rw [literalRest] <;> (intros; contradiction)

theorem literalRest_text : ∀ {w : List Char} (r : List Char), '"' ∉ w → '\\' ∉ w → '\n' ∉ w →
    literalRest (w ++ r) = (literalRest r).map (w ++ ·)
  | [], r, _, _, _ => by simp
  | c :: w, r, h1, h2, h3 => by
    simp only [List.mem_cons, not_or] at h1 h2 h3
    rw [List.cons_append, literalRest_cons (Ne.symm h1.1) (Ne.symm h2.1) (Ne.symm h3.1), literalRest_text r h1.2 h2.2 h3.2]
    cases literalRest r <;> rfl

/-! ## Words -/

theorem wordsFrom_append {w : Char} (hw : white w = true) (b : List Char) : ∀ (a acc : List Char),
    wordsFrom acc (a ++ w :: b) = wordsFrom acc a ++ wordsFrom [] b
  | [], acc => by
    simp only [List.nil_append, wordsFrom, hw, if_true]
    split <;> simp
  | c :: a, acc => by
    simp only [List.cons_append, wordsFrom]
    split
    · split
      · exact wordsFrom_append hw b a []
      · rw [wordsFrom_append hw b a []]; rfl
    · exact wordsFrom_append hw b a _

theorem words_append {w : Char} (hw : white w = true) (a b : List Char) : words (a ++ w :: b) = words a ++ words b :=
  wordsFrom_append hw b a []

theorem words_white {w : Char} (hw : white w = true) (b : List Char) : words (w :: b) = words b := by
  have := words_append hw [] b
  simpa [words, wordsFrom] using this

theorem words_blanks : ∀ (n : Nat) (b : List Char), words (List.replicate n ' ' ++ b) = words b
  | 0, b => rfl
  | n + 1, b => by
    rw [List.replicate_succ, List.cons_append, words_white (by decide), words_blanks n b]

theorem words_blanks_end (n : Nat) (a b : List Char) : words (a ++ (List.replicate (n + 1) ' ' ++ b)) = words a ++ words b := by
  rw [List.replicate_succ, List.cons_append, words_append (by decide), words_blanks]

theorem wordsFrom_tab : ∀ (s acc : List Char), wordsFrom acc (s.map fun c => if c = '\t' then ' ' else c) = wordsFrom acc s
  | [], _ => rfl
  | c :: s, acc => by
    rw [List.map_cons, wordsFrom, wordsFrom]
    by_cases h : c = '\t'
    · subst h
      simp only [if_true, show white ' ' = true from rfl, show white '\t' = true from rfl, wordsFrom_tab s]
    · simp only [if_neg h, wordsFrom_tab s]

/-! ## The lines -/

theorem toStr_id {s : List Char} (h : NUL ∉ s) : toStr s = s := by
  unfold toStr
  induction s with
  | nil => rfl
  | cons c s ih =>
    simp only [List.mem_cons, not_or] at h
    rw [List.takeWhile_cons, ih h.2, if_pos (by simpa using Ne.symm h.1)]

theorem change_eq {l : List Char} (h : NUL ∉ l) : change l = (oneQuote l).map fun c => if c = '\t' then ' ' else c := by
  rw [change, toStr_id h, oneQuote, List.map_map]
  apply List.map_congr_left
  intro c _
  simp only [Function.comp]
  by_cases h1 : c = '\t'
  · subst h1; rfl
  · by_cases h2 : c = '"'
    · subst h2; rfl
    · simp [h1, h2]

theorem words_change {l : List Char} (h : NUL ∉ l) : words (change l) = words (oneQuote l) := by
  rw [change_eq h]; exact wordsFrom_tab _ _

theorem change_mem {l : List Char} {x : Char} (h : x ∈ change l) : x ≠ '"' ∧ (x ∈ l ∨ x = ' ' ∨ x = '\'') := by
  simp only [change, List.mem_map] at h
  obtain ⟨c, hc, rfl⟩ := h
  have hc' : c ∈ l := (List.takeWhile_sublist _).subset hc
  split
  · exact ⟨by decide, .inr (.inl rfl)⟩
  · split
    · exact ⟨by decide, .inr (.inr rfl)⟩
    · exact ⟨by assumption, .inl hc'⟩

theorem mem_split {sep x : Char} : ∀ {t l : List Char}, l ∈ split sep t → x ∈ l → x ∈ t ∧ x ≠ sep
  | [], l, hl, hx => by
    simp only [split, List.mem_singleton] at hl
    subst hl
    cases hx
  | c :: t, l, hl, hx => by
    simp only [split] at hl
    split at hl
    · rcases List.mem_cons.1 hl with rfl | hl
      · cases hx
      · have := mem_split hl hx
        exact ⟨List.mem_cons_of_mem _ this.1, this.2⟩
    · next hne =>
      cases hs : split sep t with
      | nil =>
        rw [hs] at hl
        simp only [List.mem_singleton] at hl
        subst hl
        simp only [List.mem_singleton] at hx
        subst hx
        exact ⟨List.mem_cons_self .., hne⟩
      | cons p ps =>
        rw [hs] at hl
        rcases List.mem_cons.1 hl with rfl | hl
        · rcases List.mem_cons.1 hx with rfl | hx
          · exact ⟨List.mem_cons_self .., hne⟩
          · have := mem_split (t := t) (l := p) (by rw [hs]; exact List.mem_cons_self ..) hx
            exact ⟨List.mem_cons_of_mem _ this.1, this.2⟩
        · have := mem_split (t := t) (l := l) (by rw [hs]; exact List.mem_cons_of_mem _ hl) hx
          exact ⟨List.mem_cons_of_mem _ this.1, this.2⟩

theorem words_split : ∀ t : List Char, words (oneQuote t) = (split '\n' t).flatMap fun l => words (oneQuote l) := by
  have key : ∀ (t acc : List Char), wordsFrom acc (oneQuote t) =
      match split '\n' t with
      | [] => []
      | p :: ps => wordsFrom acc (oneQuote p) ++ ps.flatMap fun l => words (oneQuote l) := by
    intro t
    induction t with
    | nil => intro acc; simp [split, oneQuote]
    | cons c t ih =>
      intro acc
      simp only [split]
      by_cases h : c = '\n'
      · subst h
        have e : oneQuote ('\n' :: t) = '\n' :: oneQuote t := rfl
        rw [e, if_pos rfl]
        have := wordsFrom_append (w := '\n') rfl (oneQuote t) [] acc
        rw [List.nil_append] at this
        rw [this, ih []]
        cases hs : split '\n' t with
        | nil => simp [oneQuote, wordsFrom]
        | cons p ps => simp [oneQuote, words]
      · rw [if_neg h]
        have e : ∀ u, oneQuote (c :: u) = (if c = '"' then '\'' else c) :: oneQuote u := fun _ => rfl
        cases hs : split '\n' t with
        | nil =>
          exfalso
          cases t with
          | nil => simp [split] at hs
          | cons d t =>
            simp only [split] at hs
            split at hs
            · cases hs
            · split at hs <;> cases hs
        | cons p ps =>
          simp only [hs] at ih ⊢
          rw [e, e]
          generalize (if c = '"' then '\'' else c) = d
          rw [wordsFrom, wordsFrom]
          by_cases hw : white d = true
          · rw [if_pos hw, if_pos hw, ih []]
            by_cases ha : acc = []
            · rw [if_pos ha, if_pos ha]
            · rw [if_neg ha, if_neg ha, List.cons_append]
          · rw [if_neg hw, if_neg hw, ih]
  intro t
  have := key t []
  cases hs : split '\n' t with
  | nil => rw [hs] at this; simpa [words] using this
  | cons p ps => rw [hs] at this; simpa [words] using this

/-! ## The header -/

/-- A line once joined to the next. -/
def joined (width : Nat) (line : List Char) : List Char :=
  line ++ (List.replicate (width - line.length) ' ' ++ c!"  ")

theorem joined_eq (width : Nat) (line : List Char) :
    joined width line = line ++ List.replicate (width - line.length + 2) ' ' := by
  rw [joined, ← List.replicate_append_replicate]; rfl

theorem splice_lines (width : Nat) (r : List Char) : ∀ ls : List (List Char), (∀ l ∈ ls, '\\' ∉ l) →
    splice (ls.flatMap (printLine width) ++ r) = ls.flatMap (joined width) ++ splice r
  | [], _ => rfl
  | l :: ls, h => by
    have ih := splice_lines width r ls (fun x hx => h x (List.mem_cons_of_mem _ hx))
    have hl := h l (List.mem_cons_self ..)
    have e : (l :: ls).flatMap (printLine width) ++ r =
        joined width l ++ ('\\' :: '\n' :: (ls.flatMap (printLine width) ++ r)) := by
      simp [printLine, joined]
    rw [e, splice_text _ (by simp [joined, hl]), show ∀ u, splice ('\\' :: '\n' :: u) = splice u from fun u => by rw [splice], ih]
    simp

theorem words_lines (width : Nat) : ∀ (ls : List (List Char)) (b : List Char),
    words (ls.flatMap (joined width) ++ b) = (ls.flatMap words) ++ words b
  | [], b => rfl
  | l :: ls, b => by
    rw [List.flatMap_cons, List.append_assoc, joined_eq, List.append_assoc, words_blanks_end, words_lines width ls b,
      List.flatMap_cons, List.append_assoc]

theorem splice_esc (c : Char) (h : c ≠ '\n') (r : List Char) : splice ('\\' :: c :: r) = '\\' :: splice (c :: r) := by
  rw [splice]
  intro r' _ e
  cases e
  exact h rfl

/-- The header for some lines, once the lines are joined. -/
theorem splice_printed {file name : List Char} {path : List Char} (hf : fileName path = file)
    (hn : toUpperStr (cleanName file) = name) (hfb : '\\' ∉ file) (hnb : '\\' ∉ name) (measured lines : List (List Char))
    (hl : ∀ l ∈ lines, '\\' ∉ l) :
    splice (printed path measured lines) =
      c!"/**" ++ '\n' :: ((c!" * C inline representation for DTD " ++ (file ++ c!", created by axl-knife")) ++ '\n' :: (c!" */" ++ '\n' ::
      ((c!"#ifndef __" ++ (name ++ c!"_H__")) ++ '\n' :: ((c!"#define __" ++ (name ++ c!"_H__")) ++ '\n' ::
      ((c!"#define " ++ (name ++ ([' '] ++ (c!"\"\\n" ++ (lines.flatMap (fun l => joined (longest measured + 1) (change l)) ++ c!"\\n\""))))) ++ '\n' ::
      (c!"#endif" ++ '\n' :: [])))))) := by
  have hl' : ∀ l ∈ lines.map change, '\\' ∉ l := by
    intro l h
    obtain ⟨m, hm, rfl⟩ := List.mem_map.1 h
    intro hx
    rcases (change_mem hx).2 with h1 | h1 | h1
    · exact hl m hm h1
    · exact absurd h1 (by decide)
    · exact absurd h1 (by decide)
  have e : printed path measured lines =
      (c!"/**\n" ++ (c!" * C inline representation for DTD " ++ (file ++ (c!", created by axl-knife\n" ++ (c!" */\n" ++
      (c!"#ifndef __" ++ (name ++ (c!"_H__\n" ++ (c!"#define __" ++ (name ++ (c!"_H__\n" ++ (c!"#define " ++ (name ++ c!" \""))))))))))))) ++
      ('\\' :: 'n' :: '\\' :: '\n' :: ((lines.map change).flatMap (printLine (longest measured + 1)) ++ ('\\' :: 'n' :: c!"\"\n#endif\n"))) := by
    rw [List.flatMap_map, printed, hf, hn]
    simp only [List.append_assoc, List.cons_append, List.nil_append]
  rw [e, splice_text _ (by simp [hfb, hnb]), splice_esc 'n' (by decide), splice_cons (by decide),
    show ∀ u, splice ('\\' :: '\n' :: u) = splice u from fun u => by rw [splice],
    splice_lines _ _ _ hl', splice_esc 'n' (by decide), splice_text (w := c!"n\"\n#endif\n") (r := []) (by decide) |> fun h => (by simpa [splice] using h : splice ('n' :: c!"\"\n#endif\n") = 'n' :: c!"\"\n#endif\n")]
  rw [List.flatMap_map]
  simp only [List.append_assoc, List.cons_append, List.nil_append]

/-! ## The name -/

theorem lookup_spec {dir file : List Char} (hd : dir = [] ∨ ∃ d, dir = d ++ ['/']) (hf : '/' ∉ file) :
    ∀ k, k ≤ file.length → lookup (dir ++ file) (dir.length + k) = dir.length
  | 0, _ => by
    rcases hd with rfl | ⟨d, rfl⟩
    · rfl
    · rw [Nat.add_zero, List.length_append]
      simp only [List.length_cons, List.length_nil, Nat.zero_add]
      rw [lookup, if_neg]
      simp
  | k + 1, hk => by
    have h : (dir ++ file)[dir.length + k]? ≠ some '/' := by
      rw [List.getElem?_append_right (by omega)]
      intro h
      exact hf (List.mem_of_getElem? h)
    rw [← Nat.add_assoc, lookup, if_pos h]
    exact lookup_spec hd hf k (by omega)

theorem fileName_spec {dir file : List Char} (hd : dir = [] ∨ ∃ d, dir = d ++ ['/']) (hf : '/' ∉ file) :
    fileName (dir ++ file) = file := by
  have := lookup_spec hd hf file.length (Nat.le_refl _)
  rw [fileName, List.length_append, this, List.drop_left]

/-- The character of the name. -/
def nameChar (c : Char) : Char := toUpper (if c = '.' then '_' else if c = '-' then '_' else c)

theorem small {c : Char} (h : letter c = true ∨ digit c = true ∨ c = '_' ∨ c = '-' ∨ c = '.') : c.toNat < 128 := by
  rcases h with h | h | rfl | rfl | rfl
  · simp only [letter, Bool.or_eq_true, Bool.and_eq_true, decide_eq_true_eq, Char.le_def, UInt32.le_iff_toNat_le] at h
    have a : c.val.toNat ≤ 122 := by
      rcases h with h | h
      · exact h.2
      · exact Nat.le_trans h.2 (by decide)
    exact Nat.lt_of_le_of_lt a (by decide)
  · simp only [digit, Bool.and_eq_true, decide_eq_true_eq, Char.le_def, UInt32.le_iff_toNat_le] at h
    exact Nat.lt_of_le_of_lt h.2 (by decide)
  · decide
  · decide
  · decide

theorem small_cases {P : Char → Prop} (h : ∀ i, i < 128 → P (Char.ofNat i)) {c : Char} (hc : c.toNat < 128) : P c := by
  have := h c.toNat hc
  rwa [Char.ofNat_toNat] at this

theorem nameChar_ok {c : Char} (h : letter c = true ∨ digit c = true ∨ c = '_' ∨ c = '-' ∨ c = '.') :
    letter (nameChar c) = true ∨ digit (nameChar c) = true ∨ nameChar c = '_' := by
  refine small_cases (P := fun c => (letter c = true ∨ digit c = true ∨ c = '_' ∨ c = '-' ∨ c = '.') →
    (letter (nameChar c) = true ∨ digit (nameChar c) = true ∨ nameChar c = '_')) ?_ (small h) h
  decide +kernel

theorem nameChar_first {c : Char} (h : letter c = true ∨ c = '_') : letter (nameChar c) = true ∨ nameChar c = '_' := by
  refine small_cases (P := fun c => (letter c = true ∨ c = '_') → (letter (nameChar c) = true ∨ nameChar c = '_')) ?_
    (small (by rcases h with h | h <;> simp [h])) h
  decide +kernel

theorem plain_char {c : Char} (h : letter c = true ∨ digit c = true ∨ c = '_' ∨ c = '-' ∨ c = '.') :
    c ≠ '\\' ∧ c ≠ '\n' ∧ c ≠ '/' := by
  refine small_cases (P := fun c => (letter c = true ∨ digit c = true ∨ c = '_' ∨ c = '-' ∨ c = '.') →
    c ≠ '\\' ∧ c ≠ '\n' ∧ c ≠ '/') ?_ (small h) h
  decide +kernel

theorem name_eq (file : List Char) : toUpperStr (cleanName file) = file.map nameChar := by
  simp [toUpperStr, cleanName, nameChar]

theorem nameChar_eq {c : Char} (h : letter c = true ∨ digit c = true ∨ c = '_' ∨ c = '-' ∨ c = '.') :
    nameChar c = if c = '.' ∨ c = '-' then '_' else c.toUpper := by
  refine small_cases (P := fun c => nameChar c = if c = '.' ∨ c = '-' then '_' else c.toUpper) ?_ (small h)
  decide +kernel

theorem macroName_eq {file : List Char} (h : ∀ c ∈ file, letter c = true ∨ digit c = true ∨ c = '_' ∨ c = '-' ∨ c = '.') :
    macroName file = file.map nameChar :=
  List.map_congr_left fun c hc => (nameChar_eq (h c hc)).symm

theorem identifier_name {file : List Char} (h : ∀ c ∈ file, letter c = true ∨ digit c = true ∨ c = '_' ∨ c = '-' ∨ c = '.')
    {c : Char} (hc : file.head? = some c) (h1 : letter c = true ∨ c = '_') : Identifier (file.map nameChar) := by
  cases file with
  | nil => cases hc
  | cons d r =>
    cases hc
    refine ⟨nameChar_first h1, fun x hx => ?_⟩
    obtain ⟨y, hy, rfl⟩ := List.mem_map.1 hx
    exact nameChar_ok (h y (List.mem_cons_of_mem _ hy))

theorem identifier_plain {name : List Char} (h : Identifier name) : '\\' ∉ name ∧ '\n' ∉ name := by
  have hall : ∀ x ∈ name, letter x = true ∨ digit x = true ∨ x = '_' := by
    cases name with
    | nil => exact h.elim
    | cons c r =>
      intro x hx
      rcases List.mem_cons.1 hx with rfl | hx
      · rcases h.1 with h | h <;> simp [h]
      · exact h.2 x hx
  have hp : ∀ x ∈ name, x ≠ '\\' ∧ x ≠ '\n' ∧ x ≠ '/' := fun x hx =>
    plain_char (by rcases hall x hx with h | h | h <;> simp [h])
  exact ⟨fun hx => (hp _ hx).1 rfl, fun hx => (hp _ hx).2.1 rfl⟩

theorem identifier_guard {name : List Char} (h : Identifier name) : Identifier (c!"__" ++ (name ++ c!"_H__")) := by
  have hall : ∀ x ∈ name, letter x = true ∨ digit x = true ∨ x = '_' := by
    cases name with
    | nil => exact h.elim
    | cons c r =>
      intro x hx
      rcases List.mem_cons.1 hx with rfl | hx
      · rcases h.1 with h | h <;> simp [h]
      · exact h.2 x hx
  refine ⟨.inr rfl, fun x hx => ?_⟩
  have hx : x = '_' ∨ x ∈ name ∨ x = '_' ∨ x = 'H' ∨ x = '_' ∨ x = '_' := by simpa using hx
  rcases hx with rfl | hx | rfl | rfl | rfl | rfl
  · exact .inr (.inr rfl)
  · exact hall x hx
  · exact .inr (.inr rfl)
  · exact .inl rfl
  · exact .inr (.inr rfl)
  · exact .inr (.inr rfl)

/-! ## All together -/

/-- The header for the lines of a text. -/
theorem printed_spec {path file : List Char} (hp : GoodPath path file) {text : List Char} (hn : NUL ∉ text) (hb : '\\' ∉ text)
    (measured : List (List Char)) :
    ∃ line constant, logicalLines (printed path measured (split '\n' text)) =
        [c!"/**", c!" * C inline representation for DTD " ++ (file ++ c!", created by axl-knife"), c!" */",
          c!"#ifndef " ++ (c!"__" ++ (macroName file ++ c!"_H__")), c!"#define " ++ (c!"__" ++ (macroName file ++ c!"_H__")), line, c!"#endif", []] ∧
      Identifier (c!"__" ++ (macroName file ++ c!"_H__")) ∧ DefinesString line (macroName file) constant ∧
      words constant = words (oneQuote text) := by
  obtain ⟨dir, hd, rfl, hfile, c, hc, hc1⟩ := hp
  have hplain : ∀ x ∈ file, x ≠ '\\' ∧ x ≠ '\n' ∧ x ≠ '/' := fun x hx => plain_char (hfile x hx)
  have hid := identifier_name hfile hc hc1
  have hname := identifier_plain hid
  have hfb : '\\' ∉ file := fun h => (hplain _ h).1 rfl
  have hfn : '\n' ∉ file := fun h => (hplain _ h).2.1 rfl
  have hlb : ∀ l ∈ split '\n' text, '\\' ∉ l := fun l hl hx => hb (mem_split hl hx).1
  have hln : ∀ l ∈ split '\n' text, '\n' ∉ l := fun l hl hx => (mem_split hl hx).2 rfl
  have hl0 : ∀ l ∈ split '\n' text, NUL ∉ l := fun l hl hx => hn (mem_split hl hx).1
  have hs := splice_printed (fileName_spec hd (fun h => (hplain _ h).2.2 rfl)) (name_eq file) hfb hname.1 measured
    (split '\n' text) hlb
  let body := (split '\n' text).flatMap fun l => joined (longest measured + 1) (change l)
  have hbody : ∀ x ∈ body, x ≠ '"' ∧ x ≠ '\\' ∧ x ≠ '\n' := by
    intro x hx
    obtain ⟨l, hl, hx⟩ := List.mem_flatMap.1 hx
    rw [joined_eq] at hx
    rcases List.mem_append.1 hx with hx | hx
    · obtain ⟨h1, h2⟩ := change_mem hx
      refine ⟨h1, ?_⟩
      rcases h2 with h2 | rfl | rfl
      · exact ⟨fun e => hlb l hl (e ▸ h2), fun e => hln l hl (e ▸ h2)⟩
      · exact ⟨by decide, by decide⟩
      · exact ⟨by decide, by decide⟩
    · rw [(List.mem_replicate.1 hx).2]
      exact ⟨by decide, by decide, by decide⟩
  have hb1 : '"' ∉ body := fun h => (hbody _ h).1 rfl
  have hb2 : '\\' ∉ body := fun h => (hbody _ h).2.1 rfl
  have hb3 : '\n' ∉ body := fun h => (hbody _ h).2.2 rfl
  rw [macroName_eq hfile]
  refine ⟨_, '\n' :: (body ++ ['\n']), ?_, identifier_guard hid,
    ⟨hid, c!"\"\\n" ++ (body ++ c!"\\n\""), rfl, ?_⟩, ?_⟩
  · rw [logicalLines, hs]
    have hm : '\n' ∉ c!"#define " ++ (file.map nameChar ++ ([' '] ++ (c!"\"\\n" ++ (body ++ c!"\\n\"")))) := by
      simp [hname.2, hb3]
    rw [split_sep _ (by decide), split_sep _ (by simp [hfn]), split_sep _ (by decide), split_sep _ (by simp [hname.2]),
      split_sep _ (by simp [hname.2]), split_sep _ hm, split_sep _ (by decide)]
    simp only [List.append_assoc, List.cons_append, List.nil_append, split]
  · show literalRest ('\\' :: 'n' :: (body ++ c!"\\n\"")) = _
    rw [literalRest, literalRest_text _ hb1 hb2 hb3]
    rfl
  · rw [words_white (by decide), words_append (by decide)]
    have h1 : words body = (split '\n' text).flatMap fun l => words (oneQuote l) := by
      have := words_lines (longest measured + 1) ((split '\n' text).map change) []
      rw [List.append_nil, List.flatMap_map, List.flatMap_map] at this
      rw [show words body = _ from this, show words [] = [] from rfl, List.append_nil]
      rw [List.flatMap_def, List.flatMap_def, List.map_congr_left fun l hl => words_change (hl0 l hl)]
    rw [h1, words_split, show words [] = [] from rfl, List.append_nil]

end DtdToC
end Axl
