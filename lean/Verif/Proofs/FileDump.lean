/-
The text of a document, read from left to right: where a `>` comes before white space.
-/
import Verif.Spec.FileDump
import Verif.Spec.FileParse
import Verif.Model.FileDump
import Verif.Proofs.RoundTrip
import Verif.Proofs.FileLed

namespace Axl
namespace FileDump
open Str Dump Spec.Dump Spec.RoundTrip Spec.Xml Spec.FileDump

/-- The place in a text: somewhere, behind a `<`, behind a `>`, or behind a `>` and white space. -/
inductive At where
  | any
  | lt
  | gt
  | gap
deriving DecidableEq

/-- One character. -/
def step (misc : Bool) (a : At) (c : Char) : Option At :=
  if isWhite c then some (if a = .gt ∨ a = .gap then .gap else .any)
  else if c = '<' then some .lt
  else if a = .gap then none
  else if c = '>' then some .gt
  else if misc = false ∧ a = .lt ∧ (c = '!' ∨ c = '?') then none
  else some .any

def run (misc : Bool) : At → List Char → Option At
  | a, [] => some a
  | a, c :: t => (step misc a c).bind fun a => run misc a t

theorem run_append (misc : Bool) : ∀ (a : At) (s t : List Char), run misc a (s ++ t) = (run misc a s).bind fun a => run misc a t
  | a, [], t => rfl
  | a, c :: s, t => by
    simp only [List.cons_append, run]
    cases step misc a c with
    | none => rfl
    | some b => exact run_append misc b s t

theorem run_cat {misc : Bool} {a b : At} {s t : List Char} (h : run misc a s = some b) : run misc a (s ++ t) = run misc b t := by
  rw [run_append, h]
  rfl

/-- A run over a whole is a run over the end of it. -/
theorem run_part {misc : Bool} {a b : At} {s t : List Char} (h : run misc a (s ++ t) = some b) : ∃ a', run misc a' t = some b := by
  rw [run_append] at h
  cases h1 : run misc a s with
  | none => rw [h1] at h; cases h
  | some a' => rw [h1] at h; exact ⟨a', h⟩

theorem not_isWhite {c : Char} (h : ¬ White c) : isWhite c = false := by
  cases hx : isWhite c with
  | false => rfl
  | true => exact absurd ((Stream.white_iff c).1 hx) h

theorem run_gap (misc : Bool) {a : At} (ha : a = .gt ∨ a = .gap) : ∀ {w : List Char}, (∀ x ∈ w, White x) → w ≠ [] → run misc a w = some .gap
  | [], _, h => absurd rfl h
  | [x], hw, _ => by simp [run, step, (Stream.white_iff x).2 (hw x (by simp)), ha]
  | x :: y :: w, hw, _ => by
    have := run_gap misc (a := .gap) (.inr rfl) (w := y :: w) (fun z hz => hw z (by simp [hz])) (by simp)
    rw [run]
    simp only [step, (Stream.white_iff x).2 (hw x (by simp)), ha, if_true, Option.bind_some]
    exact this

theorem run_noLead {misc : Bool} {a b : At} {t : List Char} (h : run misc a t = some b) : Spec.File.NoLead t := by
  intro pre w c rest he hw hc hlt
  rw [he] at h
  obtain ⟨a', h⟩ := run_part h
  refine Classical.byContradiction fun hne => ?_
  rw [run] at h
  have h1 : isWhite '>' = false := by decide
  cases hs : step misc a' '>' with
  | none => rw [hs] at h; cases h
  | some a2 =>
    have : a2 = .gt := by
      simp [step, h1] at hs
      exact hs.2.symm
    rw [hs, this, Option.bind_some, run_cat (run_gap misc (.inl rfl) hw hne), run] at h
    simp [step, not_isWhite hc, hlt] at h

theorem step_lt (misc : Bool) (a : At) : step misc a '<' = some .lt := by
  simp [step, show isWhite '<' = false from by decide]

theorem run_simple {a b : At} {t : List Char} (h : run false a t = some b) : Spec.File.Simple t := by
  have key : ∀ (c : Char) (r : List Char), (c = '!' ∨ c = '?') → ¬ '<' :: c :: r <:+: t := by
    rintro c r hc ⟨pre, suf, he⟩
    rw [← he, List.append_assoc] at h
    obtain ⟨a', h⟩ := run_part h
    simp only [List.cons_append, run, step_lt, Option.bind_some] at h
    have hw : isWhite c = false := by rcases hc with rfl | rfl <;> decide
    have h1 : c ≠ '<' := by rcases hc with rfl | rfl <;> decide
    have h2 : c ≠ '>' := by rcases hc with rfl | rfl <;> decide
    simp [step, hw, h1, h2, hc] at h
  exact ⟨key '!' _ (.inl rfl), key '?' _ (.inr rfl), key '!' _ (.inl rfl)⟩

/-- Not behind a tag; behind a `<` only if anything may come there. -/
def Quiet (misc : Bool) (a : At) : Prop := a = .any ∨ (a = .lt ∧ misc = true)

theorem run_quiet {misc : Bool} : ∀ {s : List Char} {a : At}, Quiet misc a → '>' ∉ s → (misc = false → '<' ∉ s) →
    ∃ b, run misc a s = some b ∧ Quiet misc b
  | [], a, ha, _, _ => ⟨a, rfl, ha⟩
  | c :: s, a, ha, h1, h2 => by
    have h3 : c ≠ '>' := fun e => h1 (by simp [e])
    have hstep : ∃ b, step misc a c = some b ∧ Quiet misc b := by
      unfold step
      rcases ha with rfl | ⟨rfl, hm⟩
      · by_cases hw : isWhite c = true
        · exact ⟨.any, by simp [hw], .inl rfl⟩
        · by_cases hlt : c = '<'
          · refine ⟨.lt, by subst hlt; simp [hw], .inr ⟨rfl, ?_⟩⟩
            cases misc with
            | true => rfl
            | false => exact absurd (by simp [hlt]) (h2 rfl)
          · exact ⟨.any, by simp [hw, hlt, h3], .inl rfl⟩
      · by_cases hw : isWhite c = true
        · exact ⟨.any, by simp [hw], .inl rfl⟩
        · by_cases hlt : c = '<'
          · exact ⟨.lt, by subst hlt; simp [hw], .inr ⟨rfl, hm⟩⟩
          · exact ⟨.any, by simp [hw, hlt, h3, hm], .inl rfl⟩
    obtain ⟨b, hb, hq⟩ := hstep
    obtain ⟨b', hb', hq'⟩ := run_quiet hq (s := s) (fun e => h1 (by simp [e])) (fun m e => h2 m (by simp [e]))
    exact ⟨b', by simp [run, hb, hb'], hq'⟩

/-- A character that is not special. -/
theorem step_plain {misc : Bool} {a : At} {c : Char} (hw : ¬ White c) (hl : c ≠ '<') (hg : c ≠ '>') (ha : a ≠ .gap)
    (hm : a ≠ .lt ∨ (c ≠ '!' ∧ c ≠ '?')) : step misc a c = some .any := by
  simp only [step, not_isWhite hw, Bool.false_eq_true, if_false, hl, ha, hg]
  rw [if_neg]
  rintro ⟨-, h1, h2⟩
  rcases hm with h | h
  · exact h h1
  · exact h2.elim h.1 h.2

theorem run_name {misc : Bool} {a : At} {n : List Char} (hn : IsName n) (ha : a ≠ .gap) : run misc a n = some .any := by
  obtain ⟨hne, hc⟩ := hn
  cases n with
  | nil => exact absurd rfl hne
  | cons c n =>
    have h := hc c (by simp)
    have hlt : '<' ∉ n := fun e => (hc '<' (by simp [e])).2 (by simp)
    have hgt : '>' ∉ n := fun e => (hc '>' (by simp [e])).2 (by simp)
    have h2 := h.2
    simp only [List.mem_cons, not_or] at h2
    have hst : step misc a c = some .any := step_plain h.1 h2.2.1 h2.2.2.1 ha (.inr ⟨h2.2.2.2.2.2.2.2.1, h2.2.2.2.2.2.2.2.2.1⟩)
    simp only [run, hst, Option.bind_some]
    have : ∀ s : List Char, '<' ∉ s → '>' ∉ s → run misc .any s = some .any := by
      intro s
      induction s with
      | nil => intros; rfl
      | cons x s ih =>
        intro h1 h2
        have e1 : x ≠ '<' := fun e => h1 (by simp [e])
        have e2 : x ≠ '>' := fun e => h2 (by simp [e])
        have hstep : step misc .any x = some .any := by
          unfold step
          by_cases hw : isWhite x = true <;> simp [hw, e1, e2]
        simp only [run, hstep, Option.bind_some]
        exact ih (fun e => h1 (by simp [e])) (fun e => h2 (by simp [e]))
    exact this n hlt hgt

/-- White space can be anywhere. -/
theorem run_blank (misc : Bool) : ∀ {w : List Char} {a : At}, Blank w → ∃ b, run misc a w = some b ∧ (w = [] → b = a)
  | [], a, _ => ⟨a, rfl, fun _ => rfl⟩
  | x :: w, a, h => by
    have : ∃ b, step misc a x = some b := ⟨if a = .gt ∨ a = .gap then .gap else .any, by simp only [step, (Stream.white_iff x).2 (h x (by simp)), if_true]⟩
    obtain ⟨b, hb⟩ := this
    obtain ⟨b', hb', -⟩ := run_blank misc (w := w) (a := b) (fun z hz => h z (by simp [hz]))
    exact ⟨b', by simp [run, hb, hb'], by simp⟩

theorem blank_pad (y : Layout) (level : Nat) : Blank (y.pad level) := by
  cases y with
  | plain => simp [Layout.pad, Blank]
  | pretty t =>
    intro c hc
    rw [Layout.pad, List.mem_replicate] at hc
    exact .inl hc.2

theorem run_lt (misc : Bool) (a : At) (t : List Char) : run misc a ('<' :: t) = run misc .lt t := by
  simp [run, step_lt]

theorem run_pad_lt (misc : Bool) (a : At) {p : List Char} (hp : Blank p) (t : List Char) : run misc a (p ++ '<' :: t) = run misc .lt t := by
  obtain ⟨b, hb, -⟩ := run_blank misc (a := a) hp
  rw [run_cat hb, run_lt]

/-- Behind a quote. -/
theorem step_quote {misc : Bool} {a : At} (ha : Quiet misc a) {q : Char} (hq : q = '\'' ∨ q = '"') : step misc a q = some .any := by
  have : a ≠ .gap := by rcases ha with rfl | ⟨rfl, -⟩ <;> decide
  rcases hq with rfl | rfl
  · exact step_plain (by simp [White]) (by decide) (by decide) this (.inr (by decide))
  · exact step_plain (by simp [White]) (by decide) (by decide) this (.inr (by decide))

theorem run_attr {misc : Bool} {p : List Char × List Char} (hn : IsName p.1) (hv : '>' ∉ p.2) (hl : misc = false → '<' ∉ p.2) :
    run misc .any (attrText p) = some .any := by
  unfold attrText
  have hq : (if '\'' ∈ p.2 then '"' else '\'') = '\'' ∨ (if '\'' ∈ p.2 then '"' else '\'') = '"' := by
    by_cases h : '\'' ∈ p.2 <;> simp [h]
  generalize (if '\'' ∈ p.2 then '"' else '\'') = q at hq
  have h1 : step misc .any ' ' = some .any := by simp [step, show isWhite ' ' = true from by decide]
  have h2 : step misc .any '=' = some .any := step_plain (by simp [White]) (by decide) (by decide) (by decide) (.inl (by decide))
  obtain ⟨b, hb, hqb⟩ := run_quiet (misc := misc) (a := .any) (.inl rfl) hv hl
  simp only [List.cons_append, List.append_assoc]
  rw [run, h1, Option.bind_some, run_cat (run_name hn (by decide)), run, h2, Option.bind_some, run, step_quote (.inl rfl) hq, Option.bind_some,
    run_cat hb, run, step_quote hqb hq, Option.bind_some, run]

theorem run_attrs {misc : Bool} : ∀ {ps : List (List Char × List Char)}, (∀ p ∈ ps, IsName p.1 ∧ '>' ∉ p.2 ∧ (misc = false → '<' ∉ p.2)) →
    run misc .any (ps.flatMap attrText) = some .any
  | [], _ => rfl
  | p :: ps, h => by
    have h1 := h p (by simp)
    rw [List.flatMap_cons, run_cat (run_attr h1.1 h1.2.1 h1.2.2)]
    exact run_attrs fun q hq => h q (by simp [hq])

/-- What may come behind some place. -/
def Fits (y : Layout) (a : At) (items : Items) : Prop :=
  a ≠ .lt ∧ (NoContent items ∨ (a ≠ .gap ∧ (y = .plain ∨ ¬ hasBlocks items)))

theorem run_line (misc : Bool) (y : Layout) : ∃ b, run misc .gt y.line = some b ∧ b ≠ .lt ∧ (y = .plain → b = .gt) ∧ (y ≠ .plain → b = .gap) := by
  cases y with
  | plain => exact ⟨.gt, rfl, by decide, fun _ => rfl, fun h => absurd rfl h⟩
  | pretty t =>
    refine ⟨.gap, by simp [Layout.line, run, step, show isWhite '\n' = true from by decide], by decide, fun h => (by cases h), fun _ => rfl⟩

theorem run_gt {misc : Bool} {a : At} (ha : a ≠ .gap) (t : List Char) : run misc a ('>' :: t) = run misc .gt t := by
  simp [run, step, show isWhite '>' = false from by decide, ha]

theorem run_close (misc : Bool) (a : At) {p n : List Char} (hp : Blank p) (hn : IsName n) (t : List Char) :
    run misc a (p ++ (c!"</" ++ (n ++ ('>' :: t)))) = run misc .gt t := by
  show run misc a (p ++ ('<' :: ('/' :: (n ++ ('>' :: t))))) = _
  rw [run_pad_lt misc a hp, run, step_plain (by simp [White]) (by decide) (by decide) (by decide) (.inr (by decide)), Option.bind_some,
    run_cat (run_name hn (by decide)), run_gt (by decide)]

theorem noContent_next {l : Leaf} {next : Items} (h : NoContent (.leaf l next)) : NoContent next := by
  cases l <;> simp_all [NoContent]

theorem fits_gt {misc : Bool} {y : Layout} {a b : At} {l : Leaf} {next : Items} (h : Fits y a (.leaf l next)) (hb : b ≠ .lt) (hg : b = .gap → NoContent next) :
    Fits y b next := by
  refine ⟨hb, ?_⟩
  rcases h.2 with h1 | ⟨-, h2⟩
  · exact .inl (noContent_next h1)
  · by_cases hgap : b = .gap
    · exact .inl (hg hgap)
    · refine .inr ⟨hgap, h2.imp id fun h3 h4 => h3 ?_⟩
      exact .inr h4

mutual
theorem run_node (misc : Bool) (y : Layout) : ∀ (n : Node) (level : Nat) (a : At), Fine y n → Calm misc n →
    ∃ b, run misc a (nodeText written y level n) = some b ∧ b ≠ .lt ∧ (y = .plain → b = .gt)
  | .mk name attrs items, level, a, hf, hc => by
    obtain ⟨hname, hmade, hattrs, hlay, hslash, hitems⟩ := hf
    have hl := written_lists hmade
    have hfa : ∀ p ∈ written attrs, IsName p.1 ∧ '>' ∉ p.2 ∧ (misc = false → '<' ∉ p.2) := fun p hp => by
      have := (hl.mem p.1 p.2).1 hp
      exact ⟨(hattrs _ _ this).1, hc.1 _ _ this⟩
    obtain ⟨bl, hbl, hbl1, hbl2, hbl3⟩ := run_line misc y
    refine ⟨bl, ?_, hbl1, hbl2⟩
    rw [nodeText]
    simp only [List.append_assoc]
    rw [List.singleton_append, run_pad_lt misc a (blank_pad y level), run_cat (run_name hname (by decide)), run_cat (run_attrs hfa)]
    by_cases hb : hasBlocks items
    · rw [if_pos hb]
      simp only [List.append_assoc, List.singleton_append, List.cons_append, List.nil_append]
      rw [run_gt (by decide), run_cat hbl]
      have hfit : Fits y bl items := by
        refine ⟨hbl1, ?_⟩
        rcases hlay with h | h
        · exact .inr ⟨by rw [hbl2 h]; decide, .inl h⟩
        · exact .inl (h hb)
      obtain ⟨b, h1, -⟩ := run_items misc y items .other level bl hitems hc.2 hfit
      rw [run_cat h1]
      have := run_close misc b (blank_pad y level) hname y.line
      simp only [List.cons_append, List.nil_append] at this
      rw [this, hbl]
    · rw [if_neg hb]
      by_cases ht : hasTexts items
      · rw [if_pos ht]
        simp only [List.append_assoc, List.singleton_append, List.cons_append, List.nil_append]
        rw [run_gt (by decide)]
        obtain ⟨b, h1, -⟩ := run_items misc y items .other level .gt hitems hc.2 ⟨by decide, .inr ⟨by decide, .inr hb⟩⟩
        rw [run_cat h1]
        have := run_close misc b (p := []) (by simp [Blank]) hname y.line
        simp only [List.cons_append, List.nil_append] at this
        rw [this, hbl]
      · rw [if_neg ht]
        have h1 : run misc .any c!" />" = some .gt := by cases misc <;> decide
        rw [run_cat h1, hbl]
theorem run_items (misc : Bool) (y : Layout) : ∀ (items : Items) (b : Before) (level : Nat) (a : At), FineItems y b items → CalmItems misc items →
    Fits y a items → ∃ b, run misc a (itemsText written y level items) = some b ∧ b ≠ .lt
  | .nil, _, _, a, _, _, hf => ⟨a, rfl, hf.1⟩
  | .node n next, _, level, a, hf, hc, hfit => by
    obtain ⟨b, h1, h2, h3⟩ := run_node misc y n (level + 1) a hf.1 hc.1
    rw [itemsText, run_cat h1]
    refine run_items misc y next _ level b hf.2 hc.2 ⟨h2, ?_⟩
    rcases hfit.2 with h | ⟨-, h | h⟩
    · exact .inl h
    · exact .inr ⟨by rw [h3 h]; decide, .inl h⟩
    · exact absurd trivial h
  | .leaf (.content s) next, _, level, a, hf, hc, hfit => by
    have hng : a ≠ .gap := by
      rcases hfit.2 with h | h
      · exact h.elim
      · exact h.1
    have h1 : ∃ b, run misc a s = some b ∧ b ≠ .lt ∧ b ≠ .gap := by
      cases s with
      | nil => exact ⟨a, rfl, hfit.1, hng⟩
      | cons c s =>
        have e1 : c ≠ '<' := fun e => hf.1.2.1 (by simp [e])
        have e2 : c ≠ '>' := fun e => hc.1.1 (by simp [e])
        have e3 : ¬ White c := hc.1.2 c (by simp)
        obtain ⟨b, hb, hq⟩ := run_quiet (misc := false) (s := s) (a := .any) (.inl rfl) (fun e => hc.1.1 (by simp [e])) (fun _ e => hf.1.2.1 (by simp [e]))
        have hany : run misc .any s = some .any := by
          clear hb hq b
          have g1 : '<' ∉ s := fun e => hf.1.2.1 (by simp [e])
          have g2 : '>' ∉ s := fun e => hc.1.1 (by simp [e])
          clear hf hc hfit
          induction s with
          | nil => rfl
          | cons x s ih =>
            have hstep : step misc .any x = some .any := by
              have k1 : x ≠ '<' := fun e => g1 (by simp [e])
              have k2 : x ≠ '>' := fun e => g2 (by simp [e])
              unfold step
              by_cases hw : isWhite x = true <;> simp [hw, k1, k2]
            simp only [run, hstep, Option.bind_some]
            exact ih (fun e => g1 (by simp [e])) (fun e => g2 (by simp [e]))
        exact ⟨.any, by rw [run, step_plain e3 e1 e2 hng (.inl hfit.1), Option.bind_some, hany], by decide, by decide⟩
    obtain ⟨b, h1, h2, h3⟩ := h1
    rw [itemsText, leafText, run_cat h1]
    exact run_items misc y next _ level b hf.2.2 hc.2 (fits_gt (misc := misc) hfit h2 fun e => absurd e h3)
  | .leaf (.cdata s) next, _, level, a, hf, hc, hfit => by
    obtain ⟨hm, hs⟩ := hc.1
    subst hm
    have h1 : run true a c!"<![CDATA[" = some .any := by rw [run_lt]; decide
    obtain ⟨b, hb, hq⟩ := run_quiet (misc := true) (s := s) (a := .any) (.inl rfl) hs (by simp)
    have h2 : run true b c!"]]>" = some .gt := by rcases hq with rfl | ⟨rfl, -⟩ <;> decide
    rw [itemsText, leafText, List.append_assoc, List.append_assoc, run_cat h1, run_cat hb, run_cat h2]
    exact run_items true y next _ level .gt hf.2.2 hc.2 (fits_gt (misc := true) hfit (by decide) (fun e => by cases e))
  | .leaf (.comment s) next, _, level, a, hf, hc, hfit => by
    obtain ⟨hm, hs⟩ := hc.1
    subst hm
    obtain ⟨bl, hbl, hbl1, hbl2, hbl3⟩ := run_line true y
    have h1 : ∀ t, run true .lt ('!' :: '-' :: '-' :: t) = run true .any t := fun t => rfl
    have hg : '>' ∉ (if s.head? = some ' ' then [] else [' ']) ++ s ++ (if s.getLast? = some ' ' then [] else [' ']) := by
      simp only [List.mem_append, not_or]
      refine ⟨⟨?_, hs⟩, ?_⟩ <;> split <;> simp
    obtain ⟨b, hb, hq⟩ := run_quiet (misc := true) (a := .any) (.inl rfl) hg (by simp)
    have h2 : run true b c!"-->" = some .gt := by rcases hq with rfl | ⟨rfl, -⟩ <;> decide
    rw [itemsText, leafText]
    unfold commentText
    have e : ∀ (x : List Char), y.pad (level + 1) ++ (c!"<!--" ++ (if s.head? = some ' ' then [] else [' ']) ++ s ++
        (if s.getLast? = some ' ' then [] else [' ']) ++ c!"-->") ++ y.line ++ x =
        y.pad (level + 1) ++ ('<' :: '!' :: '-' :: '-' :: (((if s.head? = some ' ' then [] else [' ']) ++ s ++
        (if s.getLast? = some ' ' then [] else [' '])) ++ (c!"-->" ++ (y.line ++ x)))) := by intro x; simp
    rw [e, run_pad_lt true a (blank_pad y _), h1, run_cat hb, run_cat h2, run_cat hbl]
    refine run_items true y next _ level bl hf.2.2 hc.2 (fits_gt (misc := true) hfit hbl1 ?_)
    intro hgap
    rcases hfit.2 with h | ⟨-, h | h⟩
    · exact noContent_next h
    · rw [hbl2 h] at hgap; cases hgap
    · exact absurd (.inl trivial) h
  | .leaf (.pi p) next, _, level, a, hf, hc, hfit => by
    obtain ⟨hm, hs⟩ := hc.1
    subst hm
    have h1 : ∀ t, run true a (c!"<?" ++ t) = run true .any t := fun t => by
      show run true a ('<' :: ('?' :: t)) = _
      rw [run_lt]; rfl
    have hsp : ∀ t, run true .any (' ' :: t) = run true .any t := fun t => rfl
    have hgt : '>' ∉ p.content.getD [] := by
      obtain ⟨-, -, c, hc1, -⟩ := hf.1
      rw [hc1]
      exact hs c (by simp [hc1])
    obtain ⟨b, hb, hq⟩ := run_quiet (misc := true) (a := .any) (.inl rfl) hgt (by simp)
    have h2 : run true b c!"?>" = some .gt := by rcases hq with rfl | ⟨rfl, -⟩ <;> decide
    rw [itemsText, leafText]
    simp only [List.append_assoc]
    rw [h1, run_cat (run_name hf.1.1 (by decide)), List.singleton_append, hsp, run_cat hb, run_cat h2]
    exact run_items true y next _ level .gt hf.2.2 hc.2 (fits_gt (misc := true) hfit (by decide) (fun e => by cases e))
  | .leaf (.ref s) next, _, level, a, hf, hc, hfit => hf.1.elim
end

theorem noLead_behind {p t : List Char} (hp : '>' ∉ p) (ht : Spec.File.NoLead t) : Spec.File.NoLead (p ++ t) := by
  intro pre w c rest he
  rcases List.append_eq_append_iff.1 he with ⟨x, h1, h2⟩ | ⟨x, h1, h2⟩
  · exact ht x w c rest h2
  · cases x with
    | nil => exact ht [] w c rest (by simpa using h2.symm)
    | cons y x =>
      simp only [List.cons_append, List.cons.injEq] at h2
      exact absurd (by rw [h1, ← h2.1]; simp) hp

/-- The text of a document behind the beginning of its declaration. -/
def behind (y : Layout) (d : Doc) : List Char :=
  [' '] ++ encodingText d.encoding ++ (if d.standalone then c!"standalone='yes' " else []) ++ c!"?>" ++ y.line ++ nodeText written y 0 d.root

theorem docText_behind (y : Layout) (d : Doc) : docText written y d = c!"<?xml version='1.0'" ++ behind y d := by
  unfold docText headerText behind
  simp

theorem run_behind {misc : Bool} {y : Layout} {d : Doc} (hf : FineDoc y d) (hc : CalmDoc misc d) : ∃ b, run misc .any (behind y d) = some b := by
  unfold behind
  simp only [List.append_assoc]
  have h0 : run misc .any [' '] = some .any := by cases misc <;> decide
  have h1 : ∃ b, run misc .any (encodingText d.encoding) = some b ∧ b = .any := by
    have hce := hc.1
    cases he : d.encoding with
    | none => exact ⟨.any, rfl, rfl⟩
    | some e =>
      have h2 : run misc .any c!"encoding='" = some .any := by cases misc <;> decide
      have h3 : run misc .any c!"' " = some .any := by cases misc <;> decide
      have h4 := hce e he
      obtain ⟨b, hb, hq⟩ := run_quiet (misc := misc) (s := e) (a := .any) (.inl rfl) h4.2 (fun _ => h4.1)
      have h5 : run misc b c!"' " = some .any := by
        rcases hq with rfl | ⟨rfl, rfl⟩
        · exact h3
        · decide
      exact ⟨.any, by rw [encodingText, List.append_assoc, run_cat h2, run_cat hb, h5], rfl⟩
  obtain ⟨b1, h1, rfl⟩ := h1
  have h2 : run misc .any (if d.standalone then c!"standalone='yes' " else []) = some .any := by
    cases d.standalone <;> cases misc <;> decide
  have h3 : run misc .any c!"?>" = some .gt := by cases misc <;> decide
  obtain ⟨b, h4, -⟩ := run_line misc y
  obtain ⟨b', h5, -⟩ := run_node misc y d.root 0 b hf.root hc.2
  exact ⟨b', by rw [run_cat h0, run_cat h1, run_cat h2, run_cat h3, run_cat h4, h5]⟩

theorem noLead_doc {misc : Bool} {y : Layout} {d : Doc} (hf : FineDoc y d) (hc : CalmDoc misc d) : Spec.File.NoLead (docText written y d) := by
  obtain ⟨b, hb⟩ := run_behind hf hc
  rw [docText_behind]
  exact noLead_behind (by decide) (run_noLead hb)

theorem endsWhite_doc (t : Nat) (d : Doc) : Spec.File.EndsWhite (docText written (.pretty t) d) := by
  obtain ⟨e, s, ⟨n, a, i⟩, p, v⟩ := d
  refine ⟨headerText (.pretty t) e s ++ ((Layout.pretty t).pad 0 ++ ['<'] ++ n ++ (written a).flatMap attrText ++
      (if hasBlocks i then
        ['>'] ++ (Layout.pretty t).line ++ itemsText written (.pretty t) 0 i ++ (Layout.pretty t).pad 0 ++ c!"</" ++ n ++ ['>']
       else if hasTexts i then
        ['>'] ++ itemsText written (.pretty t) 0 i ++ c!"</" ++ n ++ ['>']
       else c!" />")), '\n', by simp [White], ?_⟩
  rw [docText, nodeText]
  exact (List.append_assoc _ _ _).symm

/-- What is written with a layout is read from the file: a file of up to 8192 bytes. -/
theorem back_small {y : Layout} {d : Doc} (hf : FineDoc y d) (hc : CalmDoc true d) (hsize : (docText written y d).length ≤ 8192) :
    ∃ d', FileParse.parseFile (some (docText written y d)) = .ok d' ∧ SameDoc d d' := by
  obtain ⟨d', h1, h2⟩ := Parse.parse_fine y hf
  refine ⟨d', ?_, h2⟩
  rw [← h1]
  exact FileParse.read_small (by decide) hsize (FileParse.farLead_of_noLead (noLead_doc hf hc))

/-- What is written in lines is read from the file. -/
theorem back_big {t : Nat} {d : Doc} (hf : FineDoc (.pretty t) d) (hc : CalmDoc false d) :
    ∃ d', FileParse.parseFile (some (docText written (.pretty t) d)) = .ok d' ∧ SameDoc d d' := by
  obtain ⟨d', h1, h2⟩ := Parse.parse_fine (.pretty t) hf
  refine ⟨d', ?_, h2⟩
  obtain ⟨b, hb⟩ := run_behind hf hc
  have hbegun : Spec.File.Begun (docText written (.pretty t) d) (behind (.pretty t) d) := by
    have := Spec.File.Begun.declared c!" " [] c!"'1.0'" (behind (.pretty t) d) (by simp [White]) (by simp) (.inr rfl)
    rw [docText_behind]
    simpa using this
  have := FileParse.read_big (n := 8192) (by decide) (.inl rfl) hbegun (run_simple hb) (by simpa using noLead_doc hf hc) (endsWhite_doc t d) (d := d') (by simpa using h1)
  exact this

end FileDump
end Axl
