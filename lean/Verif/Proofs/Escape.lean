/-
Proofs about escaping.
-/
import Verif.Model.Escape
import Verif.Spec.Escape
import Verif.Proofs.StrEdit

namespace Axl
namespace Escape
open Str Spec.Escape

/-- The text for one character. -/
def ent (c : Char) : List Char :=
  if c = '\'' then "&apos;".toList else if c = '"' then "&quot;".toList else if c = '&' then "&amp;".toList
  else if c = '>' then "&gt;".toList else if c = '<' then "&lt;".toList else [c]

def esc (s : List Char) : List Char := s.flatMap ent

/-- A character that is escaped. -/
def special (c : Char) : Bool := c == '\'' || c == '"' || c == '&' || c == '>' || c == '<'

theorem ent_of_not_special {c : Char} (h : special c = false) : ent c = [c] := by
  simp [special] at h
  simp [ent, h]

theorem esc_of_none {s : List Char} (h : ∀ c ∈ s, special c = false) : esc s = s := by
  induction s with
  | nil => rfl
  | cons c s ih =>
    have h1 := ent_of_not_special (h c (by simp))
    have h2 := ih (fun d hd => h d (by simp [hd]))
    unfold esc at h2 ⊢
    rw [List.flatMap_cons, h1, h2]; rfl

/-- The size added by one character. -/
def extra (c : Char) : Nat := (ent c).length - 1

theorem ent_pos (c : Char) : 0 < (ent c).length := by
  unfold ent
  repeat' split
  all_goals simp

/-! ### The scan and the copy -/

/-- What the check says about the memory from a position on. -/
theorem cdataEndAt_spec (before x : List Char) (hn : NUL ∈ x) :
    cdataEndAt (before ++ x) before.length = some (decide ("]]>".toList <+: x)) := by
  have e : ∀ k, (before ++ x)[before.length + k]? = x[k]? := by
    intro k; rw [List.getElem?_append_right (by omega)]; congr 1; omega
  have e0 := e 0
  simp only [Nat.add_zero] at e0
  unfold cdataEndAt
  rw [e0, e 1, e 2]
  have nb : NUL ≠ ']' := by decide
  cases x with
  | nil => simp at hn
  | cons a x =>
    by_cases ha : a = ']'
    · subst ha
      cases x with
      | nil => simp at hn; exact absurd hn nb
      | cons b x =>
        by_cases hb : b = ']'
        · subst hb
          cases x with
          | nil => simp at hn; exact absurd hn nb
          | cons c x =>
            by_cases hc : c = '>'
            · subst hc; simp
            · have : '>' ≠ c := fun h => hc h.symm
              simp [hc, this]
        · have : ']' ≠ b := fun h => hb h.symm
          simp [hb, this]
    · have : ']' ≠ a := fun h => ha h.symm
      simp [ha, this]

/-- The text for a content, with the two modes for `]]>`. -/
def escC (cdata : Bool) : List Char → List Char
  | ']' :: ']' :: '>' :: t => (if cdata then "]]>]]&gt;<![CDATA[".toList else "]]&gt;".toList) ++ escC cdata t
  | c :: t => ent c ++ escC cdata t
  | [] => []

theorem escC_end (cdata : Bool) (t : List Char) : escC cdata (']' :: ']' :: '>' :: t) =
    (if cdata then "]]>]]&gt;<![CDATA[".toList else "]]&gt;".toList) ++ escC cdata t := by
  rw [escC]

theorem escC_other (cdata : Bool) (c : Char) (t : List Char) (h : ¬ "]]>".toList <+: c :: t) :
    escC cdata (c :: t) = ent c ++ escC cdata t := by
  rw [escC]
  rintro t' rfl rfl
  exact h ⟨t', rfl⟩

theorem escC_false (s : List Char) : escC false s = esc s := by
  induction h : s.length using Nat.strongRecOn generalizing s with
  | _ n ih =>
    cases s with
    | nil => simp [escC, esc]
    | cons c t =>
      by_cases hp : "]]>".toList <+: c :: t
      · obtain ⟨t', ht⟩ := hp
        rw [← ht] at h ⊢
        show escC false (']' :: ']' :: '>' :: t') = _
        rw [escC_end, ih t'.length (by simp at h; omega) t' rfl]
        simp [esc, ent]
      · rw [escC_other _ _ _ hp, ih t.length (by simp at h; omega) t rfl]
        simp [esc]

theorem escC_noEnd (cdata : Bool) (s : List Char) (hs : NoCdataEnd s) : escC cdata s = esc s := by
  induction s with
  | nil => simp [escC, esc]
  | cons c t ih =>
    have h1 : ¬ "]]>".toList <+: c :: t := fun h => hs h.isInfix
    have h2 : NoCdataEnd t := fun h => hs (h.trans (List.suffix_cons _ _).isInfix)
    rw [escC_other _ _ _ h1, ih h2]
    simp [esc]

/-- No `]]>` crosses the end of the content. -/
def NoStraddle (s after : List Char) : Prop :=
  ∀ r, r ≠ [] → r <:+ s → "]]>".toList <+: r ++ after → 3 ≤ r.length

theorem NoStraddle.suffix {r s after : List Char} (h : NoStraddle s after) (hr : r <:+ s) : NoStraddle r after :=
  fun q hq hqr hp => h q hq (hqr.trans hr) hp

theorem special_of_ent (c : Char) : special c = false ∨ special c = true ∧ ent c ≠ [c] := by
  by_cases h : special c = true
  · right; refine ⟨h, ?_⟩
    simp [special] at h
    rcases h with (((h | h) | h) | h) | h <;> subst h <;> decide
  · left; simpa using h

/-- One step of the scan on a character. -/
theorem scan_step (c : Char) (r : Bool × Nat) :
    scanChar c r = (r.1 || special c, r.2 + ((ent c).length - 1)) := by
  unfold scanChar
  by_cases h1 : c = '\''
  · subst h1; simp [special, ent]
  · by_cases h2 : c = '"'
    · subst h2; simp [special, ent]
    · by_cases h3 : c = '&'
      · subst h3; simp [special, ent]
      · by_cases h4 : c = '>'
        · subst h4; simp [special, ent]
        · by_cases h5 : c = '<'
          · subst h5; simp [special, ent]
          · obtain ⟨a, b⟩ := r
            simp [special, ent, h1, h2, h3, h4, h5]

theorem scanLoop_spec (cdata : Bool) (after : List Char) (hn : NUL ∈ after) :
    ∀ (fuel : Nat) (before s : List Char) (result : Bool) (added : Nat), s.length < fuel → NoStraddle s after →
    scanLoop (before ++ s ++ after) (before.length + s.length) cdata fuel before.length (result, added) =
      some (result || s.any special, added + ((escC cdata s).length - s.length)) ∧ s.length ≤ (escC cdata s).length := by
  intro fuel
  induction fuel with
  | zero => intro _ _ _ _ h; omega
  | succ fuel ih =>
    intro before s result added hf hst
    unfold scanLoop
    cases s with
    | nil => simp [escC]
    | cons c t =>
      have hget : (before ++ (c :: t) ++ after)[before.length]? = some c := by simp
      have hcd := cdataEndAt_spec before (c :: t ++ after) (by simp [hn])
      rw [← List.append_assoc] at hcd
      rw [if_pos (by simp), hget, hcd]
      simp only []
      by_cases hp : "]]>".toList <+: c :: t ++ after
      · have h3 := hst (c :: t) (by simp) (List.suffix_refl _) hp
        obtain ⟨t', ht⟩ : "]]>".toList <+: c :: t :=
          List.prefix_of_prefix_length_le hp (List.prefix_append _ _) h3
        have ht : c :: t = ']' :: ']' :: '>' :: t' := ht.symm
        have hst' : NoStraddle t' after := hst.suffix (by rw [ht]; exact ⟨[']', ']', '>'], rfl⟩)
        rw [decide_eq_true hp]
        simp only []
        have hc : c = ']' := by simp at ht; exact ht.1
        obtain ⟨g1, g2⟩ := ih (before ++ "]]>".toList) t' true (added + (if cdata then 15 else 3)) (by
          have := congrArg List.length ht; simp at this hf; omega) hst'
        have e1 : before ++ (c :: t) ++ after = before ++ "]]>".toList ++ t' ++ after := by
          rw [ht]; simp
        have e2 : before.length + (c :: t).length = (before ++ "]]>".toList).length + t'.length := by
          rw [ht]; simp; omega
        have e3 : before.length + 3 = (before ++ "]]>".toList).length := by simp
        have e4 : (scanChar c (result, added)).2 = added := by
          rw [scan_step, hc]; simp [ent]
        rw [e1, e2, e3, e4, g1, ht, escC_end]
        constructor
        · congr 1
          have : special '>' = true := by decide
          rw [Prod.mk.injEq]
          refine ⟨by simp [this], ?_⟩
          cases cdata <;> simp <;> omega
        · cases cdata <;> simp <;> omega
      · have hp' : ¬ "]]>".toList <+: c :: t := fun h => hp (h.trans (List.prefix_append _ _))
        rw [decide_eq_false hp]
        simp only []
        obtain ⟨g1, g2⟩ := ih (before ++ [c]) t (result || special c) (added + ((ent c).length - 1)) (by
          simp at hf; omega) (hst.suffix (List.suffix_cons _ _))
        have e1 : before ++ (c :: t) ++ after = before ++ [c] ++ t ++ after := by simp
        have e2 : before.length + (c :: t).length = (before ++ [c]).length + t.length := by simp; omega
        have e3 : before.length + 1 = (before ++ [c]).length := by simp
        have hpos := ent_pos c
        rw [e1, e2, e3, escC_other _ _ _ hp', scan_step]
        simp only []
        constructor
        · rw [g1]
          congr 1
          rw [Prod.mk.injEq]
          refine ⟨by simp [Bool.or_assoc], ?_⟩
          simp; omega
        · simp; omega

theorem hasInvalidChars_spec (cdata : Bool) (s after : List Char) (hn : NUL ∈ after) (hst : NoStraddle s after) :
    hasInvalidChars (s ++ after) s.length cdata = some (s.any special, (escC cdata s).length - s.length) ∧
      s.length ≤ (escC cdata s).length := by
  have := scanLoop_spec cdata after hn (s.length + 1) [] s false 0 (by omega) hst
  simpa [hasInvalidChars] using this

theorem copyLoop_spec (cdata : Bool) (after : List Char) (hn : NUL ∈ after) :
    ∀ (fuel : Nat) (before s out : List Char), s.length < fuel → NoStraddle s after →
    copyLoop (before ++ s ++ after) (before.length + s.length) cdata fuel before.length out =
      some (out ++ escC cdata s) := by
  intro fuel
  induction fuel with
  | zero => intro _ _ _ h; omega
  | succ fuel ih =>
    intro before s out hf hst
    unfold copyLoop
    cases s with
    | nil => simp [escC]
    | cons c t =>
      have hget : (before ++ (c :: t) ++ after)[before.length]? = some c := by simp
      have hcd := cdataEndAt_spec before (c :: t ++ after) (by simp [hn])
      rw [← List.append_assoc] at hcd
      rw [if_pos (by simp), hget, hcd]
      simp only []
      by_cases hp : "]]>".toList <+: c :: t ++ after
      · have h3 := hst (c :: t) (by simp) (List.suffix_refl _) hp
        obtain ⟨t', ht⟩ : "]]>".toList <+: c :: t :=
          List.prefix_of_prefix_length_le hp (List.prefix_append _ _) h3
        have ht : c :: t = ']' :: ']' :: '>' :: t' := ht.symm
        have hst' : NoStraddle t' after := hst.suffix (by rw [ht]; exact ⟨[']', ']', '>'], rfl⟩)
        have hc : c = ']' := by simp at ht; exact ht.1
        rw [decide_eq_true hp]
        simp only []
        have e1 : before ++ (c :: t) ++ after = before ++ "]]>".toList ++ t' ++ after := by
          rw [ht]; simp
        have e2 : before.length + (c :: t).length = (before ++ "]]>".toList).length + t'.length := by
          rw [ht]; simp; omega
        have e3 : before.length + 3 = (before ++ "]]>".toList).length := by simp
        have hf' : t'.length < fuel := by
          have := congrArg List.length ht; simp at this hf; omega
        rw [e1, e2, e3, ih _ t' _ hf' hst', ih _ t' _ hf' hst', ht, escC_end, hc]
        cases cdata <;> simp
      · have hp' : ¬ "]]>".toList <+: c :: t := fun h => hp (h.trans (List.prefix_append _ _))
        rw [decide_eq_false hp]
        simp only []
        have e1 : before ++ (c :: t) ++ after = before ++ [c] ++ t ++ after := by simp
        have e2 : before.length + (c :: t).length = (before ++ [c]).length + t.length := by simp; omega
        have e3 : before.length + 1 = (before ++ [c]).length := by simp
        have hf' : t.length < fuel := by simp at hf; omega
        have hst' : NoStraddle t after := hst.suffix (List.suffix_cons _ _)
        rw [e1, e2, e3]
        simp only [ih (before ++ [c]) t _ hf' hst']
        rw [escC_other _ _ _ hp']
        unfold ent
        repeat' split
        all_goals simp

theorem copyAndEscape_spec (cdata : Bool) (s after : List Char) (hn : NUL ∈ after) (hst : NoStraddle s after)
    (n : Nat) (h : n = (escC cdata s).length - s.length) (hle : s.length ≤ (escC cdata s).length) :
    copyAndEscape (s ++ after) s.length n cdata = some (escC cdata s ++ [NUL]) := by
  have := copyLoop_spec cdata after hn (s.length + 1) [] s [] (by omega) hst
  simp at this
  unfold copyAndEscape
  rw [this]
  simp only [Option.bind_eq_bind, Option.bind_some]
  rw [if_pos (by omega), show s.length + n + 1 - (escC cdata s).length = 1 by omega]
  rfl

theorem noStraddle_cstring (s tail : List Char) : NoStraddle s (NUL :: tail) := by
  intro r hr hrs hp
  apply Decidable.byContradiction
  intro hlt
  obtain ⟨t, ht⟩ := hp
  match r, hr, hlt with
  | [a], _, _ =>
    simp at ht
    exact absurd ht.2.1 (by decide)
  | [a, b], _, _ =>
    simp at ht
    exact absurd ht.2.2.1 (by decide)
  | a :: b :: c :: r, _, h => simp at h

/-! ### Translating back -/

theorem streamCmp_prefix (rest e : List Char) (hr : rest ≠ []) (he : e ≠ []) :
    streamCmp rest e e.length = some (decide (e <+: rest)) := by
  obtain ⟨r, h1, h2⟩ := streamCmp_iff rest e e.length (List.length_pos_iff.2 he) hr
  rw [h1]
  congr 1
  have : (e.length ≤ rest.length ∧ e.length ≤ e.length ∧ rest.take e.length = e.take e.length) ↔ e <+: rest := by
    rw [List.take_length]
    constructor
    · rintro ⟨_, _, h⟩; rw [← h]; exact List.take_prefix _ _
    · intro h; exact ⟨h.length_le, Nat.le_refl _, (List.prefix_iff_eq_take.1 h).symm⟩
  rw [this] at h2
  by_cases h : e <+: rest
  · simp [h, h2.2 h]
  · simp only [h, decide_false]
    exact Bool.eq_false_iff.2 (fun h' => h (h2.1 h'))

theorem wr_at (done X Y : List Char) (c : Char) (hX : X ≠ []) :
    wr (done ++ X ++ Y) done.length c = some (done ++ [c] ++ X.drop 1 ++ Y) := by
  cases X with
  | nil => exact absurd rfl hX
  | cons x X =>
    rw [wr_nat _ _ _ (by simp)]
    rw [List.append_assoc, List.set_append_right _ _ (Nat.le_refl _)]
    simp

theorem transLoop_spec (tail : List Char) : ∀ (fuel : Nat) (rest done gap : List Char),
    rest.length < fuel → NUL ∉ rest →
    ∃ out rest', transLoop (done.length + gap.length + rest.length) fuel (done.length + gap.length) done.length
        (done ++ gap ++ (rest ++ NUL :: tail)) = some (done ++ out ++ NUL :: rest', done.length + out.length) ∧
      Decodes rest out ∧
      (done ++ out ++ NUL :: rest').length = (done ++ gap ++ (rest ++ NUL :: tail)).length := by
  intro fuel
  induction fuel with
  | zero => intro _ _ _ h; omega
  | succ fuel ih =>
    intro rest done gap hf hn
    unfold transLoop
    cases hrest : rest with
    | nil =>
      rw [if_neg (by simp)]
      have : wr (done ++ gap ++ ([] ++ NUL :: tail)) done.length NUL =
          some (done ++ NUL :: (gap ++ NUL :: tail).drop 1) := by
        rw [List.append_assoc]
        exact wr_end done _ (by simp) _ rfl
      rw [this]
      refine ⟨[], (gap ++ NUL :: tail).drop 1, by simp, .nil, ?_⟩
      simp; omega
    | cons c t =>
      have hne : rest ≠ [] := by rw [hrest]; simp
      rw [← hrest]
      rw [if_pos (by rw [hrest]; simp)]
      have hdrop : toStr ((done ++ gap ++ (rest ++ NUL :: tail)).drop (done.length + gap.length)) = rest := by
        rw [← List.length_append, List.drop_left, toStr_spec _ _ hn]
      -- the step for an entity
      have step : ∀ (e : List Char) (d : Char), (e, d) ∈ entities → 0 < e.length → e <+: rest →
          ∃ out rest', (wr (done ++ gap ++ (rest ++ NUL :: tail)) done.length d).bind
              (transLoop (done.length + gap.length + rest.length) fuel (done.length + gap.length + e.length) (done.length + 1)) =
              some (done ++ out ++ NUL :: rest', done.length + out.length) ∧
            Decodes rest out ∧
            (done ++ out ++ NUL :: rest').length = (done ++ gap ++ (rest ++ NUL :: tail)).length := by
        intro e d hmem hpos ⟨r2, hr2⟩
        have e1 : done ++ gap ++ (rest ++ NUL :: tail) = done ++ (gap ++ e) ++ (r2 ++ NUL :: tail) := by
          rw [← hr2]; simp
        have hX : gap ++ e ≠ [] := by
          intro h; simp at h; rw [h.2] at hpos; simp at hpos
        rw [e1, wr_at done (gap ++ e) _ d hX, Option.bind_some]
        have hl := congrArg List.length hr2
        simp at hl
        obtain ⟨out, rest', g1, g2, g3⟩ := ih r2 (done ++ [d]) ((gap ++ e).drop 1) (by omega)
          (fun h => hn (by rw [← hr2]; exact List.mem_append_right _ h))
        have k1 : (done ++ [d]).length + ((gap ++ e).drop 1).length = done.length + gap.length + e.length := by
          have : 0 < (gap ++ e).length := List.length_pos_iff.2 hX
          simp at this ⊢; omega
        rw [k1] at g1
        rw [show (done ++ [d]).length = done.length + 1 by simp] at g1
        rw [show done.length + gap.length + e.length + r2.length = done.length + gap.length + rest.length by omega] at g1
        refine ⟨d :: out, rest', ?_, ?_, ?_⟩
        · rw [g1]
          simp; omega
        · rw [← hr2]; exact .entity hmem g2
        · have := g3
          have : 0 < (gap ++ e).length := List.length_pos_iff.2 hX
          simp at this g3 ⊢; omega
      simp only [hdrop]
      rw [streamCmp_prefix rest _ hne (by decide), streamCmp_prefix rest _ hne (by decide),
        streamCmp_prefix rest _ hne (by decide), streamCmp_prefix rest _ hne (by decide),
        streamCmp_prefix rest _ hne (by decide)]
      by_cases h1 : "&apos;".toList <+: rest
      · rw [decide_eq_true h1]
        exact step _ _ (by simp [entities]) (by decide) h1
      · rw [decide_eq_false h1]
        by_cases h2 : "&quot;".toList <+: rest
        · rw [decide_eq_true h2]
          exact step _ _ (by simp [entities]) (by decide) h2
        · rw [decide_eq_false h2]
          by_cases h3 : "&amp;".toList <+: rest
          · rw [decide_eq_true h3]
            exact step _ _ (by simp [entities]) (by decide) h3
          · rw [decide_eq_false h3]
            by_cases h4 : "&gt;".toList <+: rest
            · rw [decide_eq_true h4]
              exact step _ _ (by simp [entities]) (by decide) h4
            · rw [decide_eq_false h4]
              by_cases h5 : "&lt;".toList <+: rest
              · rw [decide_eq_true h5]
                exact step _ _ (by simp [entities]) (by decide) h5
              · rw [decide_eq_false h5]
                simp only []
                have hno : ∀ e ∈ entities, ¬ e.1 <+: c :: t := by
                  rw [← hrest]
                  intro e he
                  simp only [entities, List.mem_cons, List.not_mem_nil, or_false] at he
                  rcases he with rfl | rfl | rfl | rfl | rfl <;> assumption
                have key : ∃ out rest', transLoop (done.length + gap.length + rest.length) fuel (done.length + gap.length + 1) (done.length + 1)
                    (done ++ [c] ++ (gap ++ [c]).drop 1 ++ (t ++ NUL :: tail)) =
                    some (done ++ out ++ NUL :: rest', done.length + out.length) ∧
                    Decodes rest out ∧
                    (done ++ out ++ NUL :: rest').length = (done ++ gap ++ (rest ++ NUL :: tail)).length := by
                  obtain ⟨out, rest', g1, g2, g3⟩ := ih t (done ++ [c]) ((gap ++ [c]).drop 1) (by
                    rw [hrest] at hf; simp at hf; omega) (fun h => hn (by rw [hrest]; exact List.mem_cons_of_mem _ h))
                  have k1 : (done ++ [c]).length + ((gap ++ [c]).drop 1).length = done.length + gap.length + 1 := by
                    simp; omega
                  rw [k1] at g1
                  rw [show (done ++ [c]).length = done.length + 1 by simp] at g1
                  rw [show done.length + gap.length + 1 + t.length = done.length + gap.length + rest.length by rw [hrest]; simp; omega] at g1
                  refine ⟨c :: out, rest', ?_, ?_, ?_⟩
                  · rw [g1]; simp; omega
                  · rw [hrest]; exact .other hno g2
                  · rw [hrest]; simp at g3 ⊢; omega
                by_cases hg : gap = []
                · subst hg
                  rw [if_neg (by simp)]
                  rw [hrest] at key ⊢
                  simpa using key
                · have hgp := List.length_pos_iff.2 hg
                  rw [if_pos (by omega), rd_nat]
                  have e1 : done ++ gap ++ (rest ++ NUL :: tail) = done ++ (gap ++ [c]) ++ (t ++ NUL :: tail) := by
                    rw [hrest]; simp
                  have : (done ++ gap ++ (rest ++ NUL :: tail))[done.length + gap.length]? = some c := by
                    rw [← List.length_append, List.getElem?_append_right (Nat.le_refl _), hrest]; simp
                  rw [this]
                  simp only []
                  rw [e1, wr_at done _ _ c (by simp), Option.bind_some, ← e1]
                  exact key

theorem decodes_unique {s o o' : List Char} (h : Decodes s o) (h' : Decodes s o') : o = o' := by
  have amb : ∀ e ∈ entities, ∀ e' ∈ entities, ∀ t t' : List Char, e.1 ++ t = e'.1 ++ t' → e = e' ∧ t = t' := by
    intro e he e' he' t t' h
    simp only [entities, List.mem_cons, List.not_mem_nil, or_false] at he he'
    rcases he with rfl | rfl | rfl | rfl | rfl <;> rcases he' with rfl | rfl | rfl | rfl | rfl <;> simp_all
  have ne : ∀ e ∈ entities, e.1 ≠ [] := by decide
  induction h generalizing o' with
  | nil =>
    generalize hs : ([] : List Char) = s at h'
    cases h' with
    | nil => rfl
    | entity he _ => simp at hs; exact absurd hs.1 (ne _ he)
    | other _ _ => cases hs
  | @entity e t out he h1 ih =>
    generalize hs : e.1 ++ t = s at h'
    cases h' with
    | nil => simp at hs; exact absurd hs.1 (ne _ he)
    | @entity e' t' out' he' h2 =>
      obtain ⟨h3, h4⟩ := amb e he e' he' _ _ hs
      subst h4; rw [h3, ih h2]
    | @other c t' out' hno h2 => exact absurd ⟨t, hs⟩ (hno e he)
  | @other c t out hno h1 ih =>
    generalize hs : c :: t = s at h'
    cases h' with
    | nil => cases hs
    | @entity e' t' out' he' h2 => exact absurd ⟨t', hs.symm⟩ (hno e' he')
    | other _ h2 => cases hs; rw [ih h2]

theorem decodes_nonempty {s o : List Char} (h : Decodes s o) : s = [] ↔ o = [] := by
  cases h with
  | nil => simp
  | entity he _ =>
    have ne : ∀ e ∈ entities, e.1 ≠ [] := by decide
    simp [ne _ he]
  | other _ _ => simp

theorem decodes_esc (s : List Char) : Decodes (esc s) s := by
  induction s with
  | nil => exact .nil
  | cons c s ih =>
    have e : esc (c :: s) = ent c ++ esc s := by simp [esc]
    rw [e]
    unfold ent
    split
    · rename_i h; subst h; exact Decodes.entity (e := ("&apos;".toList, '\'')) (by simp [entities]) ih
    split
    · rename_i h; subst h; exact Decodes.entity (e := ("&quot;".toList, '"')) (by simp [entities]) ih
    split
    · rename_i h; subst h; exact Decodes.entity (e := ("&amp;".toList, '&')) (by simp [entities]) ih
    split
    · rename_i h; subst h; exact Decodes.entity (e := ("&gt;".toList, '>')) (by simp [entities]) ih
    split
    · rename_i h; subst h; exact Decodes.entity (e := ("&lt;".toList, '<')) (by simp [entities]) ih
    · rename_i h1 h2 h3 h4 h5
      refine .other ?_ ih
      intro e he hp
      simp only [entities, List.mem_cons, List.not_mem_nil, or_false] at he
      obtain ⟨z, hz⟩ := hp
      rcases he with rfl | rfl | rfl | rfl | rfl <;> simp at hz <;> exact h3 hz.1.symm

theorem esc_append (s t : List Char) : esc (s ++ t) = esc s ++ esc t := by simp [esc]

theorem nul_ent {c : Char} (h : c ≠ NUL) : NUL ∉ ent c := by
  unfold ent
  repeat' split
  all_goals first | decide | (simp; exact fun h' => h h'.symm)

theorem nul_esc {s : List Char} (h : NUL ∉ s) : NUL ∉ esc s := by
  intro h'
  obtain ⟨c, hc, h2⟩ := List.mem_flatMap.1 h'
  exact nul_ent (fun e => h (e ▸ hc)) h2

theorem noMarkup_esc (s : List Char) : NoMarkup (esc s) := by
  constructor
  · intro c hc
    obtain ⟨d, hd, h⟩ := List.mem_flatMap.1 hc
    unfold ent at h
    split at h
    · simp at h; rcases h with h | h | h | h | h | h <;> subst h <;> decide
    split at h
    · simp at h; rcases h with h | h | h | h | h | h <;> subst h <;> decide
    split at h
    · simp at h; rcases h with h | h | h | h | h <;> subst h <;> decide
    split at h
    · simp at h; rcases h with h | h | h | h <;> subst h <;> decide
    split at h
    · simp at h; rcases h with h | h | h | h <;> subst h <;> decide
    · simp at h; subst h; rename_i h1 h2 h3 h4 h5; exact ⟨h5, h4, h1, h2⟩
  · induction s with
    | nil => intro a b h; simp [esc] at h
    | cons c s ih =>
      intro a b h
      have e : esc (c :: s) = ent c ++ esc s := by simp [esc]
      rw [e] at h
      by_cases hl : (ent c).length ≤ a.length
      · -- the ampersand is after the first character
        obtain ⟨a', ha⟩ : ent c <+: a :=
          List.prefix_of_prefix_length_le (l₃ := ent c ++ esc s) (List.prefix_append _ _) (by rw [h]; exact List.prefix_append _ _) hl
        rw [← ha, List.append_assoc] at h
        exact ih a' b (List.append_cancel_left h)
      · have key : ∀ e ∈ entities, e.1 = ent c → ∃ e ∈ entities, e.1 <+: '&' :: b := by
          intro e he hec
          have ha : a = [] := by
            have hget : ∀ k < e.1.length, 0 < k → e.1[k]? ≠ some '&' := by
              simp only [entities, List.mem_cons, List.not_mem_nil, or_false] at he
              rcases he with rfl | rfl | rfl | rfl | rfl <;> decide
            apply Decidable.byContradiction
            intro hane
            have hpos := List.length_pos_iff.2 hane
            apply hget a.length (by rw [hec]; omega) hpos
            have h3 := congrArg (fun z => z[a.length]?) h
            rw [List.getElem?_append_left (by omega), List.getElem?_append_right (Nat.le_refl _)] at h3
            rw [hec, h3]; simp
          subst ha
          refine ⟨e, he, ?_⟩
          simp at h
          rw [hec, ← h]; exact List.prefix_append _ _
        unfold ent at key hl h
        split at key
        · exact key ("&apos;".toList, '\'') (by simp [entities]) rfl
        split at key
        · exact key ("&quot;".toList, '"') (by simp [entities]) rfl
        split at key
        · exact key ("&amp;".toList, '&') (by simp [entities]) rfl
        split at key
        · exact key ("&gt;".toList, '>') (by simp [entities]) rfl
        split at key
        · exact key ("&lt;".toList, '<') (by simp [entities]) rfl
        · rename_i h1 h2 h3 h4 h5
          simp only [h1, h2, h3, h4, h5, if_false] at hl h
          have : a = [] := by
            cases a with
            | nil => rfl
            | cons x a => simp at hl
          subst this
          simp at h
          exact absurd h.1 h3

theorem translate_spec (s tail : List Char) (hs : NUL ∉ s) (size : Int) (hz : size = s.length ∨ size = -1) :
    ∃ out rest, translate (s ++ NUL :: tail) size = some (out ++ NUL :: rest, out.length) ∧ Decodes s out ∧
      (out ++ NUL :: rest).length = (s ++ NUL :: tail).length := by
  obtain ⟨out, rest, g1, g2, g3⟩ := transLoop_spec tail (s.length + 1) s [] [] (by omega) hs
  refine ⟨out, rest, ?_, g2, by simpa using g3⟩
  unfold translate
  have : transSize (s ++ NUL :: tail) size = some s.length := by
    unfold transSize
    rw [strlen_spec s tail hs]
    rcases hz with rfl | rfl
    · split <;> simp
    · simp
  rw [this, Option.bind_some]
  simpa using g1

end Escape
end Axl
