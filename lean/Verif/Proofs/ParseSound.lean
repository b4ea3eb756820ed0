/-
What the parser accepts is in the grammar of `Verif.Spec.Xml`; it always ends and never has undefined
behaviour but in the header.
-/
import Verif.Model.Parse
import Verif.Proofs.Stream
import Verif.Props.Attr
import Verif.Proofs.AttrMade

namespace Axl

namespace Res

/-- The result, if there is one, satisfies `P`; otherwise an error is reported. -/
def Sat {α : Type} (P : α → Prop) : Res α → Prop
  | .ok a => P a
  | .error => True
  | .ub => False
  | .loop => False

theorem Sat.bind {α β : Type} {P : α → Prop} {Q : β → Prop} {r : Res α} {f : α → Res β}
    (h : r.Sat P) (hf : ∀ a, P a → (f a).Sat Q) : (r >>= f).Sat Q := by
  cases r with
  | ok a => exact hf a h
  | error => trivial
  | ub => exact h
  | loop => exact h

theorem Sat.imp {α : Type} {P Q : α → Prop} {r : Res α} (h : r.Sat P) (hf : ∀ a, P a → Q a) : r.Sat Q := by
  cases r with
  | ok a => exact hf a h
  | error => trivial
  | ub => exact h
  | loop => exact h

theorem ok_bind {α β : Type} (a : α) (f : α → Res β) : (Res.ok a >>= f) = f a := rfl
theorem error_bind {α β : Type} (f : α → Res β) : ((Res.error : Res α) >>= f) = .error := rfl

end Res

namespace Parse
open Str Stream Spec.Xml

theorem toLower_eq {c : Char} {u l : Char} (hl : l.toNat = u.toNat + 32) (hu : 'A'.toNat ≤ u.toNat ∧ u.toNat ≤ 'Z'.toNat) :
    toLower c = l ↔ c = l ∨ c = u := by
  unfold toLower
  have hA : 'A'.toNat = 65 := rfl
  have hZ : 'Z'.toNat = 90 := rfl
  rw [hA, hZ] at hu ⊢
  have hv : ∀ n : Nat, n < 200 → (Char.ofNat n).toNat = n := by
    intro n hn
    have hval : n.isValidChar := Or.inl (by omega)
    simp [Char.ofNat, hval, Char.toNat, Char.ofNatAux]
  have hinj : ∀ a b : Char, a.toNat = b.toNat → a = b := fun a b h => by
    apply Char.ext; exact UInt32.toNat_inj.1 h
  split
  · rename_i h
    constructor
    · intro hc
      right
      apply hinj
      have := congrArg Char.toNat hc
      rw [hv _ (by omega)] at this
      omega
    · rintro (rfl | rfl)
      · omega
      · apply hinj; rw [hv _ (by omega), hl]
  · rename_i h
    constructor
    · exact Or.inl
    · rintro (rfl | rfl)
      · rfl
      · omega

theorem reserved_iff (n : List Char) : cmp (some (toLowerStr n)) (some c!"xml") = true ↔ Reserved n := by
  rw [Attrs.cmp_beq, beq_iff_eq]
  unfold toLowerStr Reserved
  have hx : ∀ c, toLower c = 'x' ↔ c = 'x' ∨ c = 'X' := fun c => toLower_eq (by decide) (by decide)
  have hm : ∀ c, toLower c = 'm' ↔ c = 'm' ∨ c = 'M' := fun c => toLower_eq (by decide) (by decide)
  have hl : ∀ c, toLower c = 'l' ↔ c = 'l' ∨ c = 'L' := fun c => toLower_eq (by decide) (by decide)
  constructor
  · intro h
    match n, h with
    | [], h | [_], h | [_, _], h | _ :: _ :: _ :: _ :: _, h => simp at h
    | [a, b, c], h =>
      simp only [List.map_cons, List.map_nil, List.cons.injEq, and_true] at h
      exact ⟨a, b, c, rfl, (hx a).1 h.1, (hm b).1 h.2.1, (hl c).1 h.2.2⟩
  · rintro ⟨a, b, c, rfl, h1, h2, h3⟩
    simp only [List.map_cons, List.map_nil, (hx a).2 h1, (hm b).2 h2, (hl c).2 h3]

/-! ### Instructions -/

theorem matchAt_pi (c : Char) (r : List Char) : matchAt [c!" ?>", c!"?>", c!" "] c r =
    if isWhite c then some (2, 1) else if c!"?>" <+: c :: r then some (1, 2) else none := by
  unfold matchAt
  by_cases hw : isWhite c = true
  · simp [hw]; rfl
  · have hc : c ≠ ' ' := by rintro rfl; simp [isWhite] at hw
    simp only [hw, Bool.and_false, Bool.false_eq_true, if_false, firstChunk, List.isPrefixOf_iff_prefix]
    have : ¬ c!" ?>" <+: c :: r := by
      rintro ⟨t, ht⟩
      simp only [List.cons_append, List.cons.injEq] at ht
      exact hc ht.1.symm
    simp [this]

/-- The name of an instruction, up to a white space or the end. -/
theorem getUntil_piName {s : List Char} {f : Found} (h : getUntil [c!" ?>", c!"?>", c!" "] s = some f) :
    (∀ c ∈ f.text, ¬ White c) ∧ UpTo c!"?>" f.text ∧
      (f.chunk = 1 ∧ s = f.text ++ c!"?>" ++ f.after ∨ f.chunk = 2 ∧ ∃ w, White w ∧ s = f.text ++ w :: f.after) := by
  obtain ⟨c, r, n, h1, h2, h3, h4, h5⟩ := getUntil_some h
  have hw : ∀ c ∈ f.text, ¬ White c := by
    intro d hd
    obtain ⟨x, y, hx⟩ := List.append_of_mem hd
    have := h5 x d y hx
    rw [matchAt_pi] at this
    split at this
    · cases this
    · rename_i hh; rw [← white_iff]; exact hh
  refine ⟨hw, ?_, ?_⟩
  · rw [upTo_iff]
    refine ⟨by simp, fun x d y hx hp => ?_⟩
    have := h5 x d y hx
    rw [matchAt_pi] at this
    split at this
    · cases this
    · split at this
      · cases this
      · rename_i hh
        apply hh
        -- a mark in the text and the first byte of the next one
        obtain ⟨z, hz⟩ := hp
        have : c!"?>".dropLast = c!"?" := rfl
        rw [this] at hz
        cases y with
        | nil =>
          simp at hz
        | cons e y =>
          simp only [List.cons_append, List.nil_append, List.cons.injEq] at hz
          obtain ⟨rfl, rfl, hz⟩ := hz
          exact ⟨_, rfl⟩
  · rw [matchAt_pi] at h3
    split at h3
    · rename_i hc
      simp only [Option.some.injEq, Prod.mk.injEq] at h3
      obtain ⟨h3, rfl⟩ := h3
      right
      refine ⟨h3.symm, c, (white_iff c).1 hc, ?_⟩
      rw [h2, h4]; rfl
    · split at h3
      · rename_i hp
        simp only [Option.some.injEq, Prod.mk.injEq] at h3
        obtain ⟨h3, rfl⟩ := h3
        obtain ⟨t, ht⟩ := hp
        left
        refine ⟨h3.symm, ?_⟩
        rw [h2, h4, ← ht]; simp
      · cases h3

theorem matchAt_piEnd (c : Char) (r : List Char) : matchAt [c!" ?>", c!"?>"] c r =
    if c!" ?>" <+: c :: r then some (0, 3) else if c!"?>" <+: c :: r then some (1, 2) else none := by
  unfold matchAt
  have : ([c!" ?>", c!"?>"] : List (List Char)).contains [' '] = false := by decide
  rw [this]
  simp only [Bool.false_and, Bool.false_eq_true, if_false, firstChunk, List.isPrefixOf_iff_prefix]
  simp

/-- The content of an instruction, up to the end, with or without a blank before it. -/
theorem getUntil_piContent {s : List Char} {f : Found} (h : getUntil [c!" ?>", c!"?>"] s = some f) :
    ∃ blank, (blank = [] ∧ f.text.getLast? ≠ some ' ' ∨ blank = [' ']) ∧ UpTo c!"?>" (f.text ++ blank) ∧
      s = f.text ++ blank ++ c!"?>" ++ f.after := by
  obtain ⟨c, r, n, h1, h2, h3, h4, h5⟩ := getUntil_some h
  have hno : ∀ x d y, f.text = x ++ d :: y → ¬ c!"?>" <+: d :: y ++ c :: r ∧ ¬ c!" ?>" <+: d :: y ++ c :: r := by
    intro x d y hx
    have := h5 x d y hx
    rw [matchAt_piEnd] at this
    split at this
    · cases this
    · split at this
      · cases this
      · rename_i a b; exact ⟨b, a⟩
  rw [matchAt_piEnd] at h3
  split at h3
  · rename_i hp
    simp only [Option.some.injEq, Prod.mk.injEq] at h3
    obtain ⟨h3, rfl⟩ := h3
    obtain ⟨t, ht⟩ := hp
    simp only [List.cons_append, List.nil_append, List.cons.injEq] at ht
    obtain ⟨rfl, rfl⟩ := ht
    refine ⟨[' '], Or.inr rfl, ?_, by rw [h2, h4]; simp⟩
    rw [upTo_iff]
    refine ⟨by simp, fun x d y hx hp => ?_⟩
    obtain ⟨z, hz⟩ := hp
    have hd : c!"?>".dropLast = c!"?" := rfl
    rw [hd] at hz
    rcases List.eq_nil_or_concat y with hy | ⟨y', e, hy⟩
    · subst hy
      have := List.append_inj_right' (s₂ := x) (s₁ := f.text) (t₁ := [' ']) (t₂ := [d]) hx rfl
      simp at this
      subst this
      simp at hz
    · subst hy
      have hx' : f.text ++ [' '] = (x ++ d :: y') ++ [e] := by simp [hx]
      have he := List.append_inj' hx' rfl
      have hsp : e = ' ' := by simpa using he.2.symm
      subst hsp
      refine (hno x d y' he.1).1 ?_
      cases y' with
      | nil =>
        simp at hz
      | cons a y' =>
        simp only [List.cons_append, List.nil_append, List.cons.injEq] at hz
        obtain ⟨rfl, rfl, _⟩ := hz
        exact ⟨_, rfl⟩
  · rename_i hnb
    split at h3
    · rename_i hp
      simp only [Option.some.injEq, Prod.mk.injEq] at h3
      obtain ⟨h3, rfl⟩ := h3
      obtain ⟨t, ht⟩ := hp
      simp only [List.cons_append, List.nil_append, List.cons.injEq] at ht
      obtain ⟨rfl, rfl⟩ := ht
      refine ⟨[], Or.inl ⟨rfl, ?_⟩, ?_, by rw [h2, h4]; simp⟩
      · intro hl
        obtain ⟨x, hx⟩ := List.getLast?_eq_some_iff.1 hl
        refine (hno x ' ' [] (by simpa using hx)).2 ?_
        exact ⟨t, rfl⟩
      · rw [List.append_nil, upTo_iff]
        refine ⟨by simp, fun x d y hx hp => (hno x d y hx).1 ?_⟩
        obtain ⟨z, hz⟩ := hp
        have hd : c!"?>".dropLast = c!"?" := rfl
        rw [hd] at hz
        cases y with
        | nil => simp at hz
        | cons a y =>
          simp only [List.cons_append, List.nil_append, List.cons.injEq] at hz
          obtain ⟨rfl, rfl, _⟩ := hz
          exact ⟨_, rfl⟩
    · cases h3

/-- An item at the place where the parser puts it. -/
def _root_.Axl.Parse.St.addItem (st : St) : Leaf → St
  | .pi p => st.addPI p
  | l => st.addLeaf l

theorem consumePi_sat (st : St) (r : List Char) : (consumePi st (c!"<?" ++ r)).Sat fun x =>
    ∃ t p, c!"<?" ++ r = t ++ x.2 ∧ Instruction t p ∧ x.1 = st.addItem (.pi p) := by
  unfold consumePi
  rw [eat_append]
  simp only
  cases hf : getUntil [c!" ?>", c!"?>", c!" "] r with
  | none => trivial
  | some f =>
    simp only
    obtain ⟨h1, h2, h3⟩ := getUntil_piName hf
    split
    · trivial
    · rename_i hx
      have hres : ¬ Reserved (cstr f.text) := by rw [cstr_eq, ← reserved_iff]; exact hx
      split
      · rename_i hc
        rcases h3 with ⟨hc1, hs⟩ | ⟨hc2, _⟩
        · refine ⟨_, _, ?_, .bare h1 h2 hres, rfl⟩
          simp [hs]
        · omega
      · rename_i hc
        rcases h3 with ⟨hc1, hs⟩ | ⟨hc2, w, hw, hs⟩
        · omega
        · cases hg : getUntil [c!" ?>", c!"?>"] f.after with
          | none => trivial
          | some g =>
            simp only
            obtain ⟨b, hb, hu, hs2⟩ := getUntil_piContent hg
            refine ⟨_, _, ?_, .full h1 h2 hres hw hu hb, rfl⟩
            rw [hs, hs2]
            simp

/-! ### Comments -/

theorem getUntilRef_spec {mark s : List Char} (hb : mark ≠ [' ']) (hn : mark ≠ []) :
    (getUntilRef [mark] s).1 = none ∨
    ∃ text rest, getUntilRef [mark] s = (some text, rest) ∧ text ≠ [] ∧ UpTo mark text ∧ s = text ++ mark ++ rest := by
  unfold getUntilRef
  cases h : getUntil [mark] s with
  | none => exact Or.inl rfl
  | some f =>
    simp only
    obtain ⟨h1, h2, _, _⟩ := getUntil_single hb hn h
    split
    · exact Or.inl rfl
    · rename_i ht
      exact Or.inr ⟨_, _, rfl, ht, h2, h1⟩

/-- All these items at the place where the parser puts them. -/
def _root_.Axl.Parse.St.addAll (st : St) (ls : List Leaf) : St := ls.foldl St.addItem st

theorem addAll_append (st : St) (ls ls' : List Leaf) : (st.addAll ls).addAll ls' = st.addAll (ls ++ ls') := by
  unfold St.addAll; rw [List.foldl_append]

theorem comment_sat (st : St) (s : List Char) : (comment st s).Sat fun x =>
    ∃ b t ls, Blank b ∧ s = b ++ t ++ x.2.2 ∧ x.2.1 = st.addAll ls ∧
      (x.1 = true ∧ (∃ c, ls = [.comment c] ∧ Comment t c) ∧ t ≠ [] ∨
       x.1 = false ∧ t = [] ∧ ls = [] ∧ x.2.2 = skip s ∧ ¬ c!"<!--" <+: skip s) := by
  obtain ⟨b, hb, hs, _⟩ := skip_spec s
  unfold comment
  cases he : eat (skip s) c!"<!--" with
  | none =>
    exact ⟨b, [], [], hb, by simpa using hs, rfl, Or.inr ⟨rfl, rfl, rfl, rfl, eat_none.1 he⟩⟩
  | some r =>
    have he := eat_some.1 he
    simp only
    rcases getUntilRef_spec (mark := c!"-->") (s := r) (by decide) (by decide) with h | ⟨text, rest, h1, h2, h3, h4⟩
    · split
      · trivial
      · rename_i heq; rw [heq] at h; cases h
    · rw [h1]
      refine ⟨b, c!"<!--" ++ text ++ c!"-->", [.comment text], hb, ?_, rfl, Or.inl ⟨rfl, ⟨text, rfl, .mk h2 h3⟩, by simp⟩⟩
      rw [hs, he, h4]
      simp

theorem instruction_sat (header : Bool) (st : St) (s : List Char) : (instruction header st s).Sat fun x =>
    ∃ b t ls, Blank b ∧ s = b ++ t ++ x.2.2 ∧ x.2.1 = st.addAll ls ∧
      (x.1 = true ∧ (∃ p, ls = [.pi p] ∧ Instruction t p) ∧ t ≠ [] ∧ header = true ∨
       x.1 = false ∧ t = [] ∧ ls = [] ∧ x.2.2 = skip s ∧ (header = true → ¬ c!"<?" <+: skip s)) := by
  obtain ⟨b, hb, hs, _⟩ := skip_spec s
  unfold instruction
  split
  · rename_i hc
    rw [Bool.and_eq_true] at hc
    obtain ⟨hh, hp⟩ := hc
    obtain ⟨r, hr⟩ := peek_iff.1 hp
    have hsat := consumePi_sat st r
    rw [← hr] at hsat
    refine hsat.bind ?_
    rintro ⟨st', s'⟩ ⟨t, p, h1, h2, h3⟩
    refine ⟨b, t, [.pi p], hb, ?_, h3, Or.inl ⟨rfl, ⟨p, rfl, h2⟩, ?_, hh⟩⟩
    · rw [hs, h1]; simp
    · cases h2 <;> simp
  · rename_i hc
    refine ⟨b, [], [], hb, by simpa using hs, rfl, Or.inr ⟨rfl, rfl, rfl, rfl, ?_⟩⟩
    intro hh
    simp only [hh, Bool.true_and, Bool.not_eq_true] at hc
    exact peek_false.1 hc

theorem comments_sat (header : Bool) : ∀ (fuel : Nat) (st : St) (s : List Char), s.length < fuel →
    (comments header fuel st s).Sat fun x =>
      ∃ t ls, s = t ++ x.2 ∧ Misc t ls ∧ x.1 = st.addAll ls ∧
        (∀ c r, x.2 = c :: r → ¬ White c) ∧ (header = false → ∀ l ∈ ls, ∃ c, l = .comment c) ∧
        (x.2.length < s.length ∨ ¬ c!"<!--" <+: skip s ∧ (header = true → ¬ c!"<?" <+: skip s))
  | 0, _, _, h => by omega
  | fuel + 1, st, s, hf => by
    unfold comments
    refine (comment_sat st s).bind ?_
    rintro ⟨found, st1, s1⟩ ⟨b, t, ls, hb, hs, hst, h⟩
    simp only at hs hst h ⊢
    refine (instruction_sat header st1 s1).bind ?_
    rintro ⟨found2, st2, s2⟩ ⟨b2, t2, ls2, hb2, hs2, hst2, h2⟩
    simp only at hs2 hst2 h2 ⊢
    have hlen : s.length = b.length + t.length + (b2.length + t2.length + s2.length) := by
      rw [hs, hs2]; simp; omega
    have hmisc : ∀ u us, Misc u us → Misc (b ++ t ++ (b2 ++ t2 ++ u)) (ls ++ (ls2 ++ us)) := by
      intro u us hu
      have h2' : Misc (b2 ++ t2 ++ u) (ls2 ++ us) := by
        rw [List.append_assoc]
        refine .blank hb2 ?_
        rcases h2 with ⟨_, ⟨p, rfl, hp⟩, _⟩ | ⟨_, rfl, rfl, _⟩
        · exact .pi hp hu
        · exact hu
      rw [List.append_assoc]
      refine .blank hb ?_
      rcases h with ⟨_, ⟨c, rfl, hp⟩, _⟩ | ⟨_, rfl, rfl, _⟩
      · exact .comment hp h2'
      · exact h2'
    have hcm : header = false → ∀ l ∈ ls ++ ls2, ∃ c, l = .comment c := by
      intro hh l hl
      rcases h2 with ⟨_, _, _, hh2⟩ | ⟨_, _, rfl, _⟩
      · rw [hh] at hh2; cases hh2
      · rcases h with ⟨_, ⟨c, rfl, hp⟩, _⟩ | ⟨_, _, rfl, _⟩
        · simp at hl; exact ⟨c, hl⟩
        · simp at hl
    split
    · rename_i hfound
      have hpos : 0 < t.length + t2.length := by
        rcases h with ⟨_, _, ht⟩ | ⟨h1, _⟩
        · have := List.length_pos_iff.2 ht; omega
        · rcases h2 with ⟨_, _, ht, _⟩ | ⟨h3, _⟩
          · have := List.length_pos_iff.2 ht; omega
          · simp [h1, h3] at hfound
      refine (comments_sat header fuel st2 s2 (by omega)).imp ?_
      rintro ⟨st3, s3⟩ ⟨u, us, h3, h4, h5, h6, h7, _⟩
      refine ⟨b ++ t ++ (b2 ++ t2 ++ u), ls ++ (ls2 ++ us), ?_, hmisc u us h4, ?_, h6, ?_, Or.inl ?_⟩
      · rw [hs, hs2, h3]; simp
      · rw [h5, hst2, hst, addAll_append, addAll_append]
      · intro hh l hl
        rw [← List.append_assoc, List.mem_append] at hl
        rcases hl with hl | hl
        · exact hcm hh l hl
        · exact h7 hh l hl
      · have := congrArg List.length h3
        simp only [List.length_append] at this ⊢
        omega
    · rename_i hfound
      simp only [Bool.not_eq_true, Bool.or_eq_false_iff] at hfound
      obtain ⟨b3, hb3, hs3, hnw⟩ := skip_spec s2
      rcases h with ⟨h1, _⟩ | ⟨_, rfl, rfl, hsk, hn⟩
      · rw [h1] at hfound; cases hfound.1
      rcases h2 with ⟨h1, _⟩ | ⟨_, rfl, rfl, hsk2, hn2⟩
      · rw [h1] at hfound; cases hfound.2
      refine ⟨b ++ [] ++ (b2 ++ [] ++ b3), [] ++ ([] ++ []), ?_, hmisc b3 [] (by simpa using Misc.blank hb3 .nil), ?_, hnw,
        fun _ l hl => by simp at hl, Or.inr ⟨hn, ?_⟩⟩
      · show s = _ ++ skip s2
        rw [hs, hs2]
        conv => lhs; rw [hs3]
        simp
      · rw [hst2, hst]; rfl
      · rw [hsk, skip_skip] at hn2; exact hn2

/-! ### Attributes -/

theorem nul_cstr (t : List Char) : NUL ∉ cstr t := by
  intro h
  unfold cstr at h
  have := List.all_eq_true.1 (List.all_takeWhile (p := (fun c => decide (c ≠ Char.ofNat 0))) (l := t)) NUL h
  simp [NUL] at this

theorem quote_spec {s : List Char} : quote s = none ∨ ∃ q r, quote s = some (q, r) ∧ (q = '"' ∨ q = '\'') ∧ s = q :: r := by
  unfold quote
  cases h : eat s c!"\"" with
  | some r => exact Or.inr ⟨'"', r, rfl, Or.inl rfl, eat_some.1 h⟩
  | none =>
    simp only
    cases h : eat s c!"'" with
    | some r => exact Or.inr ⟨'\'', r, rfl, Or.inr rfl, eat_some.1 h⟩
    | none => exact Or.inl rfl

theorem attrValue_spec {q : Char} (hq : q ≠ ' ') (s : List Char) : attrValue q s = (none, s) ∨
    ∃ v r, attrValue q s = (some (cstr v), r) ∧ q ∉ v ∧ s = v ++ [q] ++ r := by
  unfold attrValue
  cases h : getUntil [[q]] s with
  | none => exact Or.inl rfl
  | some f =>
    obtain ⟨h1, h2, _, _⟩ := getUntil_single (by simpa using hq) (by simp) h
    exact Or.inr ⟨f.text, f.after, rfl, upTo_char.1 h2, h1⟩

/-- The calls that store the attributes of a tag. -/
def calls (as : List (List Char × Option (List Char))) : List Spec.Attr.Op :=
  (withValue as).map fun p => .setRef p.1 p.2 true

/-- The node holds the attributes read. -/
structure OpenOk (o : Open) (as : List (List Char × Option (List Char))) : Prop where
  nodup : (as.map (·.1)).Nodup
  run : Attrs.empty.run (calls as) = some o.attrs
  rep : Attrs.Rep o.attrs (withValue as).reverse
  noValue : o.noValue = (as.filter fun p => p.2.isNone).map (·.1)
  nul : ∀ p ∈ withValue as, NUL ∉ p.1 ∧ NUL ∉ p.2

theorem withValue_append (as bs : List (List Char × Option (List Char))) :
    withValue (as ++ bs) = withValue as ++ withValue bs := by
  unfold withValue; rw [List.filterMap_append]

theorem mem_withValue {as : List (List Char × Option (List Char))} {n v : List Char} :
    (n, v) ∈ withValue as ↔ (n, some v) ∈ as := by
  unfold withValue
  rw [List.mem_filterMap]
  constructor
  · rintro ⟨⟨a, b⟩, h1, h2⟩
    cases b with
    | none => simp at h2
    | some b => simp at h2; obtain ⟨rfl, rfl⟩ := h2; exact h1
  · intro h; exact ⟨_, h, rfl⟩

theorem OpenOk.attrsOf {o : Open} {as : List (List Char × Option (List Char))} (h : OpenOk o as) : AttrsOf o.attrs as := by
  refine ⟨h.nodup, .of ⟨calls as, ?_, h.run⟩, Attrs.rep_lists h.rep (List.reverse_perm _).symm⟩
  intro op hop s hs
  obtain ⟨p, hp, rfl⟩ := List.mem_map.1 hop
  have := h.nul p hp
  simp only [Spec.Attr.Op.texts, List.mem_cons, List.not_mem_nil, or_false] at hs
  rcases hs with rfl | rfl
  · exact this.1
  · exact this.2

theorem openOk_new (name : List Char) : OpenOk ⟨name, Attrs.empty, [], .nil⟩ [] :=
  ⟨List.nodup_nil, rfl, Attrs.rep_empty, rfl, fun _ h => by simp [withValue] at h⟩

theorem run_append (a : Attrs) : ∀ (xs ys : List Spec.Attr.Op), a.run (xs ++ ys) = (a.run xs).bind fun b => b.run ys
  | [], ys => rfl
  | x :: xs, ys => by
    simp only [List.cons_append, Attrs.run]
    cases h : a.exec x with
    | none => rfl
    | some b => exact run_append b xs ys

/-- A name that was not there can be added. -/
theorem setAttr_sat {o : Open} {as : List (List Char × Option (List Char))} (h : OpenOk o as) {name : List Char}
    (hn : name ∉ as.map (·.1)) {v : Option (List Char)} (hnul : NUL ∉ name) (hv : ∀ x ∈ v, NUL ∉ x) :
    ∃ o', setAttr o name v = .ok o' ∧ OpenOk o' (as ++ [(name, v)]) ∧ o'.name = o.name ∧ o'.items = o.items := by
  have hnd : ((as ++ [(name, v)]).map (·.1)).Nodup := by
    rw [List.map_append, List.nodup_append]
    refine ⟨h.nodup, by simp, ?_⟩
    intro a ha b hb
    simp at hb
    subst hb
    rintro rfl
    exact hn ha
  cases v with
  | none =>
    refine ⟨_, rfl, ⟨hnd, ?_, ?_, ?_, ?_⟩, rfl, rfl⟩
    · have : calls (as ++ [(name, none)]) = calls as := by
        unfold calls; rw [withValue_append]; simp [withValue]
      rw [this]; exact h.run
    · rw [withValue_append]; simpa [withValue] using h.rep
    · simp [h.noValue]
    · rw [withValue_append]; simpa [withValue] using h.nul
  | some v =>
    have hany : (withValue as).reverse.any (fun p => p.1 == name) = false := by
      rw [List.any_eq_false]
      rintro ⟨a, b⟩ hab
      rw [List.mem_reverse, mem_withValue] at hab
      simp only [beq_iff_eq]
      rintro rfl
      exact hn (List.mem_map.2 ⟨_, hab, rfl⟩)
    obtain ⟨a', h1, h2⟩ := Attrs.rep_setInternal h.rep name v true
    rw [hany] at h1 h2
    simp only [Bool.not_false, Bool.false_eq_true, if_false] at h1 h2
    have hset : o.attrs.setAttributeFromFactory name v = some a' := by
      unfold Attrs.setAttributeFromFactory
      rw [h1]; rfl
    refine ⟨{ o with attrs := a' }, ?_, ⟨hnd, ?_, ?_, ?_, ?_⟩, rfl, rfl⟩
    · unfold setAttr
      simp only [hset]
      rfl
    · have : calls (as ++ [(name, some v)]) = calls as ++ [.setRef name v true] := by
        unfold calls; rw [withValue_append]; simp [withValue]
      rw [this, run_append, h.run]
      simp only [Option.bind_some, Attrs.run, Attrs.exec, hset]
      rfl
    · rw [withValue_append]; simpa [withValue] using h2
    · simp [h.noValue]
    · intro p hp
      rw [withValue_append, List.mem_append] at hp
      rcases hp with hp | hp
      · exact h.nul p hp
      · simp [withValue] at hp
        subst hp
        exact ⟨hnul, hv v rfl⟩

theorem has_spec {o : Open} {as : List (List Char × Option (List Char))} (h : OpenOk o as) (name : List Char) :
    ∃ b, o.attrs.hasAttribute name = some b ∧ ((b || o.noValue.contains name) = true ↔ name ∈ as.map (·.1)) := by
  refine ⟨_, (Attrs.rep_find h.rep name).1, ?_⟩
  rw [Bool.or_eq_true, List.any_eq_true, h.noValue]
  simp only [List.contains_eq_mem, decide_eq_true_eq, List.mem_map, List.mem_filter, List.mem_reverse, beq_iff_eq]
  constructor
  · rintro (⟨⟨a, b⟩, h1, rfl⟩ | ⟨p, ⟨h1, _⟩, rfl⟩)
    · exact ⟨_, mem_withValue.1 h1, rfl⟩
    · exact ⟨_, h1, rfl⟩
  · rintro ⟨⟨a, b⟩, h1, rfl⟩
    cases b with
    | none => exact Or.inr ⟨_, ⟨h1, rfl⟩, rfl⟩
    | some b => exact Or.inl ⟨_, mem_withValue.2 h1, rfl⟩

theorem space_sat (st : St) (name : List Char) (v : Option (List Char)) : (space st name v).Sat fun st' =>
    st'.opened = st.opened ∧ st'.pis = st.pis ∧ st'.root = st.root := by
  unfold space
  split
  · split
    · exact ⟨rfl, rfl, rfl⟩
    · split
      · exact ⟨rfl, rfl, rfl⟩
      · trivial
  · unfold St.inherit
    cases hp : st.preserve <;> exact ⟨rfl, rfl, rfl⟩

theorem attrib_sat {st : St} {o : Open} {os : List Open} (ho : st.opened = o :: os)
    {as : List (List Char × Option (List Char))} (hok : OpenOk o as) (s : List Char) :
    (attrib st s).Sat fun x => ∃ b t b' n v o', Blank b ∧ Attribute t n v ∧ Blank b' ∧ s = b ++ t ++ b' ++ x.2 ∧
      OpenOk o' (as ++ [(n, v)]) ∧ o'.name = o.name ∧ o'.items = o.items ∧ x.1.opened = o' :: os ∧
      x.1.pis = st.pis ∧ x.1.root = st.root := by
  obtain ⟨b, hb, hs, _⟩ := skip_spec s
  unfold attrib
  cases hf : getUntil [c!"="] (skip s) with
  | none => trivial
  | some f =>
    simp only
    obtain ⟨h1, h2, _, _⟩ := getUntil_single (by decide) (by decide) hf
    have h2 := upTo_char.1 h2
    split
    · trivial
    · rename_i hne
      rcases quote_spec (s := f.after) with hq | ⟨q, r, hq, hq2, hr⟩
      · rw [hq]; trivial
      · rw [hq]
        simp only [ho]
        obtain ⟨has, hh1, hh2⟩ := has_spec hok (toStr f.text)
        rw [hh1]
        simp only [Res.ofOption, Res.ok_bind]
        split
        · trivial
        · rename_i hdup
          rw [hh2] at hdup
          have hnul : ∀ x ∈ (attrValue q r).1, NUL ∉ x := by
            rcases attrValue_spec (q := q) (by rcases hq2 with rfl | rfl <;> decide) r with hv | ⟨v, r', hv, _, _⟩
            · rw [hv]; simp
            · rw [hv]; intro x hx; cases hx; exact nul_cstr v
          obtain ⟨o', hset, hok', hname, hitems⟩ := setAttr_sat hok hdup (nul_cstr f.text) hnul
          rw [hset]
          simp only [Res.ok_bind]
          refine (space_sat _ _ _).bind ?_
          rintro st' ⟨e1, e2, e3⟩
          obtain ⟨b', hb', hs', _⟩ := skip_spec (attrValue q r).2
          rcases attrValue_spec (q := q) (by rcases hq2 with rfl | rfl <;> decide) r with hv | ⟨v, r', hv, hv1, hv2⟩
          · rw [hv] at hs' hok' ⊢
            refine ⟨b, _, b', _, _, o', hb, .noValue h2 hne hq2, hb', ?_, hok', hname, hitems, e1, e2, e3⟩
            show s = _ ++ skip r
            rw [hs, h1, hr]
            simp only [List.append_assoc, List.cons_append, List.nil_append]
            rw [← hs']
          · rw [hv] at hs' hok' ⊢
            refine ⟨b, _, b', _, _, o', hb, .value h2 hne hq2 hv1, hb', ?_, hok', hname, hitems, e1, e2, e3⟩
            show s = _ ++ skip r'
            rw [hs, h1, hr, hv2]
            simp only [List.append_assoc, List.cons_append, List.nil_append]
            rw [← hs']

theorem attribute_ne {t n : List Char} {v : Option (List Char)} (h : Attribute t n v) : t ≠ [] := by
  cases h <;> simp

theorem attrLoop_sat : ∀ (fuel : Nat) (st : St) (s : List Char) {o : Open} {os : List Open}, st.opened = o :: os →
    ∀ {as : List (List Char × Option (List Char))}, OpenOk o as → s.length < fuel →
    (attrLoop fuel st s).Sat fun x => ∃ t as' o' st', Attributes t as' ∧
      s = t ++ (if x.2.2 then c!"/>" else c!">") ++ x.2.1 ∧ OpenOk o' (as ++ as') ∧ o'.name = o.name ∧ o'.items = o.items ∧
      st'.opened = o' :: os ∧ st'.pis = st.pis ∧ st'.root = st.root ∧ x.1 = if x.2.2 then st'.pop else st'
  | 0, _, _, _, _, _, _, _, h => by omega
  | fuel + 1, st, s, o, os, ho, as, hok, hf => by
    unfold attrLoop
    cases h1 : eat s c!"/>" with
    | some r =>
      exact ⟨[], [], o, st, .nil, eat_some.1 h1, by simpa using hok, rfl, rfl, ho, rfl, rfl, rfl⟩
    | none =>
      simp only
      cases h2 : eat s c!">" with
      | some r =>
        exact ⟨[], [], o, st, .nil, eat_some.1 h2, by simpa using hok, rfl, rfl, ho, rfl, rfl, rfl⟩
      | none =>
        simp only
        refine (attrib_sat ho hok s).bind ?_
        rintro ⟨st1, s1⟩ ⟨b, t, b', n, v, o1, hb, ha, hb', hs, hok1, hn1, hi1, ho1, hp1, hr1⟩
        have hl : s1.length < s.length := by
          have := List.length_pos_iff.2 (attribute_ne ha)
          rw [hs]; simp; omega
        refine (attrLoop_sat fuel st1 s1 ho1 hok1 (by omega)).imp ?_
        rintro ⟨st2, s2, e⟩ ⟨u, as', o', st', ha', hs', hok', hn', hi', ho', hp', hr', hx⟩
        refine ⟨b ++ t ++ b' ++ u, (n, v) :: as', o', st', .cons hb ha hb' ha', ?_, by simpa using hok', hn'.trans hn1,
          hi'.trans hi1, ho', hp'.trans hp1, hr'.trans hr1, hx⟩
        simp only at hs hs' ⊢
        rw [hs, hs']
        simp

/-! ### Tags -/

theorem matchAt_tag (c : Char) (r : List Char) : matchAt [c!">", c!" "] c r =
    if isWhite c then some (1, 1) else if c = '>' then some (0, 1) else none := by
  unfold matchAt
  by_cases hw : isWhite c = true
  · simp [hw]; rfl
  · simp only [hw, Bool.and_false, Bool.false_eq_true, if_false, firstChunk, List.isPrefixOf_iff_prefix]
    have : c!">" <+: c :: r ↔ c = '>' := by
      rw [List.cons_prefix_cons]
      simp [eq_comm]
    simp [this]

theorem getUntil_tag {s : List Char} {f : Found} (h : getUntil [c!">", c!" "] s = some f) :
    '>' ∉ f.text ∧ (∀ c ∈ f.text, ¬ White c) ∧
    (f.chunk = 0 ∧ s = f.text ++ '>' :: f.after ∨ f.chunk = 1 ∧ ∃ w, White w ∧ s = f.text ++ w :: f.after) := by
  obtain ⟨c, r, n, h1, h2, h3, h4, h5⟩ := getUntil_some h
  have hno : ∀ d ∈ f.text, ¬ White d ∧ d ≠ '>' := by
    intro d hd
    obtain ⟨x, y, hx⟩ := List.append_of_mem hd
    have := h5 x d y hx
    rw [matchAt_tag] at this
    split at this
    · cases this
    · rename_i hw
      split at this
      · cases this
      · rename_i hg
        exact ⟨by rw [← white_iff]; exact hw, hg⟩
  refine ⟨fun h => (hno _ h).2 rfl, fun c hc => (hno c hc).1, ?_⟩
  rw [matchAt_tag] at h3
  split at h3
  · rename_i hw
    simp only [Option.some.injEq, Prod.mk.injEq] at h3
    obtain ⟨h3, rfl⟩ := h3
    exact Or.inr ⟨h3.symm, c, (white_iff c).1 hw, by rw [h2, h4]; rfl⟩
  · split at h3
    · rename_i hg
      subst hg
      simp only [Option.some.injEq, Prod.mk.injEq] at h3
      obtain ⟨h3, rfl⟩ := h3
      exact Or.inl ⟨h3.symm, by rw [h2, h4]; rfl⟩
    · cases h3

theorem parseTag_sat (st : St) (s : List Char) : (parseTag st s).Sat fun x => ∃ t name as o' st', Tag t x.2.2 name as ∧
    s = t ++ x.2.1 ∧ t ≠ [] ∧ OpenOk o' as ∧ o'.name = name ∧ o'.items = .nil ∧ st'.opened = o' :: st.opened ∧
    st'.pis = st.pis ∧ st'.root = st.root ∧ x.1 = if x.2.2 then st'.pop else st' := by
  unfold parseTag
  cases hf : getUntil [c!">", c!" "] s with
  | none => trivial
  | some f =>
    simp only
    obtain ⟨hgt, hw, h3⟩ := getUntil_tag hf
    split
    · trivial
    · rename_i hne
      have htn : TagName f.text := ⟨hne, hgt, hw⟩
      split
      · rename_i hc
        rcases h3 with ⟨hc0, _⟩ | ⟨_, w, hww, hs⟩
        · omega
        · obtain ⟨b, hb, hsk, _⟩ := skip_spec f.after
          refine (attrLoop_sat _ (st.push (toStr f.text)) (skip f.after) rfl (openOk_new _) (by omega)).imp ?_
          rintro ⟨st1, s1, e⟩ ⟨t, as', o', st', ha, hs', hok, hn, hi, ho, hp, hr, hx⟩
          have heq : s = f.text ++ w :: b ++ t ++ (if e then c!"/>" else c!">") ++ s1 := by
            rw [hs]
            conv => lhs; rw [hsk, hs']
            simp
          cases e with
          | true => exact ⟨_, _, _, o', st', .attrsEmpty htn hww hb ha, heq, by simp, hok, hn, hi, ho, hp, hr, hx⟩
          | false => exact ⟨_, _, _, o', st', .attrs htn hww hb ha, heq, by simp, hok, hn, hi, ho, hp, hr, hx⟩
      · rename_i hc
        rcases h3 with ⟨_, hs⟩ | ⟨hc1, _⟩
        · split
          · rename_i hsl
            obtain ⟨n, hn⟩ := List.getLast?_eq_some_iff.1 hsl
            refine ⟨f.text ++ ['>'], n, [], _, st.push n, .plainEmpty htn hn, by simp [hs], by simp, openOk_new n, rfl, rfl, rfl, rfl, rfl, ?_⟩
            simp [hn]
          · rename_i hsl
            show ∃ t name as o' st', Tag t (endOfName (st.push (toStr f.text)) f.after).2.2 name as ∧ _
            unfold endOfName
            cases he : eat f.after c!"/>" with
            | none =>
              exact ⟨f.text ++ ['>'], _, [], _, st.push (toStr f.text), .plain htn hsl, by simp [hs], by simp, openOk_new _, rfl, rfl, rfl, rfl, rfl, rfl⟩
            | some r =>
              exact ⟨f.text ++ c!">/>", _, [], _, st.push (toStr f.text), .plainLate htn hsl, by rw [hs, eat_some.1 he]; simp, by simp, openOk_new _, rfl, rfl, rfl, rfl, rfl, rfl⟩
        · exact absurd hc1 hc

theorem openAngle_spec {s r : List Char} (h : openAngle s = some r) : ∃ angle, (angle = [] ∨ angle = ['<']) ∧ s = angle ++ r := by
  unfold openAngle at h
  cases he : eat s c!"<" with
  | some r' => rw [he] at h; cases h; exact ⟨_, Or.inr rfl, eat_some.1 he⟩
  | none =>
    rw [he] at h
    simp only at h
    split at h
    · cases h
    · cases h; exact ⟨_, Or.inl rfl, rfl⟩

theorem parseNode_sat (st : St) (s : List Char) : (parseNode st s).Sat fun x => ∃ m ls angle t name as o' st', Misc m ls ∧
    (angle = [] ∨ angle = ['<']) ∧ Tag t x.2.2 name as ∧ s = m ++ angle ++ t ++ x.2.1 ∧ t ≠ [] ∧
    OpenOk o' as ∧ o'.name = name ∧ o'.items = .nil ∧ st'.opened = o' :: (st.addAll ls).opened ∧
    st'.pis = (st.addAll ls).pis ∧ st'.root = (st.addAll ls).root ∧ x.1 = if x.2.2 then st'.pop else st' := by
  unfold parseNode
  refine (comments_sat true _ st s (by omega)).bind ?_
  rintro ⟨st1, s1⟩ ⟨m, ls, hs, hm, hst, _⟩
  simp only at hs hst ⊢
  cases ha : openAngle s1 with
  | none => trivial
  | some s2 =>
    obtain ⟨angle, han, hs2⟩ := openAngle_spec ha
    refine (parseTag_sat st1 s2).imp ?_
    rintro ⟨st2, s3, e⟩ ⟨t, name, as, o', st', ht, hs3, hne, hok, hn, hi, ho, hp, hr, hx⟩
    refine ⟨m, ls, angle, t, name, as, o', st', hm, han, ht, ?_, hne, hok, hn, hi, ?_, ?_, ?_, hx⟩
    · simp only at hs3 ⊢
      rw [hs, hs2, hs3]; simp
    · rw [ho, hst]
    · rw [hp, hst]
    · rw [hr, hst]

/-! ### Nesting -/

theorem append_assoc : ∀ (a b c : Items), (a.append b).append c = a.append (b.append c)
  | .nil, _, _ => rfl
  | .node n a, b, c => by simp only [Items.append, append_assoc a b c]
  | .leaf l a, b, c => by simp only [Items.append, append_assoc a b c]

theorem append_nil : ∀ (a : Items), a.append .nil = a
  | .nil => rfl
  | .node n a => by simp only [Items.append, append_nil a]
  | .leaf l a => by simp only [Items.append, append_nil a]

theorem leaves_append : ∀ (ls : List Leaf) (a b : Items), (leaves ls a).append b = leaves ls (a.append b)
  | [], _, _ => rfl
  | l :: ls, a, b => by simp only [leaves, Items.append, leaves_append ls a b]

theorem content_append {d : List Char} {j : Items} (hd : Content d j) : ∀ {c : List Char} {i : Items}, Content c i → Content (c ++ d) (i.append j)
  | _, _, .nil => hd
  | _, _, .misc hm hc => by
    rw [List.append_assoc, leaves_append]
    exact .misc hm (content_append hd hc)
  | _, _, .text h1 h2 hc => by
    rw [List.append_assoc]
    exact .text h1 h2 (content_append hd hc)
  | _, _, .cdata h1 hc => by
    rw [List.append_assoc]
    exact .cdata h1 (content_append hd hc)
  | _, _, .element hm ha he hc => by
    rw [List.append_assoc, leaves_append]
    exact .element hm ha he (content_append hd hc)

/-- The text read up to here for the nodes opened. -/
inductive Stk : List Open → List Char → Prop
  | root {o : Open} {t c : List Char} {as : List (List Char × Option (List Char))} : Tag t false o.name as → OpenOk o as →
      Content c o.items → Stk [o] (t ++ c)
  | cons {o p : Open} {os : List Open} {u m angle t c : List Char} {ls : List Leaf} {as : List (List Char × Option (List Char))} :
      Stk (p :: os) u → Misc m ls → (angle = [] ∨ angle = ['<']) → Tag t false o.name as → OpenOk o as → Content c o.items →
      Stk (o :: { p with items := p.items.append (leaves ls .nil) } :: os) (u ++ '<' :: m ++ angle ++ t ++ c)

theorem openOk_items {o : Open} {as : List (List Char × Option (List Char))} (h : OpenOk o as) (i : Items) :
    OpenOk { o with items := i } as := ⟨h.nodup, h.run, h.rep, h.noValue, h.nul⟩

theorem Stk.append {o : Open} {os : List Open} {u d : List Char} {j : Items} (h : Stk (o :: os) u) (hd : Content d j) :
    Stk ({ o with items := o.items.append j } :: os) (u ++ d) := by
  cases h with
  | root ht hok hc =>
    rw [List.append_assoc]
    exact .root ht (openOk_items hok _) (content_append hd hc)
  | cons hs hm ha ht hok hc =>
    rw [List.append_assoc _ _ d]
    exact .cons hs hm ha ht (openOk_items hok _) (content_append hd hc)

theorem addItem_opened {st : St} {o : Open} {os : List Open} (h : st.opened = o :: os) (l : Leaf) :
    st.addItem l = { st with opened := { o with items := o.items.append (.leaf l .nil) } :: os } := by
  cases l <;> simp only [St.addItem, St.addPI, St.addLeaf, h]

theorem addAll_opened : ∀ (ls : List Leaf) {st : St} {o : Open} {os : List Open}, st.opened = o :: os →
    st.addAll ls = { st with opened := { o with items := o.items.append (leaves ls .nil) } :: os }
  | [], st, o, os, h => by
    simp only [St.addAll, List.foldl_nil, leaves, append_nil]
    rw [← h]
  | l :: ls, st, o, os, h => by
    have h1 := addItem_opened h l
    have h2 := addAll_opened ls (st := st.addItem l) (o := { o with items := o.items.append (.leaf l .nil) }) (os := os) (by rw [h1])
    have : st.addAll (l :: ls) = (st.addItem l).addAll ls := rfl
    rw [this, h2, h1]
    simp only [append_assoc, Items.append, leaves]

/-- The node at the top is complete. -/
def closedOk (st : St) (st' : St) (u : List Char) : Prop :=
  st'.pis = st.pis ∧ (st'.opened ≠ [] ∧ Stk st'.opened u ∧ st'.root = st.root ∨ st'.opened = [] ∧ ∃ n, st'.root = some n ∧ Element u n)

theorem pop_ok {st : St} {o : Open} {os : List Open} (ho : st.opened = o :: os) {u : List Char} {e : List Char} (hs : Stk (o :: os) u)
    (hc : CloseTag o.name e) : closedOk st st.pop (u ++ e) := by
  unfold closedOk St.pop
  cases hs with
  | root ht hok hcont =>
    rw [ho]
    refine ⟨rfl, Or.inr ⟨rfl, _, rfl, ?_⟩⟩
    exact .pair ht hok.attrsOf hcont hc
  | cons hstk hm ha ht hok hcont =>
    rw [ho]
    refine ⟨rfl, Or.inl ⟨by simp, ?_, rfl⟩⟩
    have hel := Element.pair ht hok.attrsOf hcont hc
    have := hstk.append (.element hm ha hel .nil)
    simp only [append_assoc, leaves_append, Items.append, List.append_nil] at this ⊢
    simpa using this

/-- An element without content is complete. -/
theorem pop_empty {st : St} {o : Open} {p : Open} {os : List Open} {u m angle t : List Char} {ls : List Leaf}
    {as : List (List Char × Option (List Char))} (hs : Stk (p :: os) u) (hm : Misc m ls)
    (ha : angle = [] ∨ angle = ['<']) (ht : Tag t true o.name as) (hok : OpenOk o as) (hi : o.items = .nil)
    (ho : st.opened = o :: { p with items := p.items.append (leaves ls .nil) } :: os) :
    closedOk st st.pop (u ++ '<' :: m ++ angle ++ t) := by
  unfold closedOk St.pop
  rw [ho]
  refine ⟨rfl, Or.inl ⟨by simp, ?_, rfl⟩⟩
  have hel : Element t (.mk o.name o.attrs o.items) := by rw [hi]; exact Element.empty ht hok.attrsOf
  have := hs.append (.element hm ha hel .nil)
  simp only [append_assoc, leaves_append, Items.append, List.append_nil] at this ⊢
  simpa using this

theorem closeName_spec {text name : List Char} (hne : text ≠ []) (hgt : '>' ∉ text) (h : cmp (some name) (some (closeName text)) = true) :
    CloseTag name (c!"</" ++ text ++ ['>']) := by
  rw [Attrs.cmp_beq, beq_iff_eq] at h
  unfold closeName at h
  cases hl : text.getLast? with
  | none => rw [List.getLast?_eq_none_iff] at hl; exact absurd hl hne
  | some c =>
    rw [hl] at h
    simp only at h
    split at h
    · rename_i hw
      obtain ⟨x, hx⟩ := List.getLast?_eq_some_iff.1 hl
      subst hx
      have h2 := CloseTag.blank (name := name) (raw := x) (w := c) (by simp at hgt; exact hgt.1) ((white_iff c).1 hw) (by rw [cstr_eq]; simpa using h.symm)
      simpa using h2
    · exact .plain hgt h.symm

theorem closeNode_sat {st : St} {o : Open} {os : List Open} (ho : st.opened = o :: os) {u : List Char} (hs : Stk (o :: os) u)
    (r : List Char) : (closeNode st r).Sat fun x => ∃ e, e ≠ [] ∧ c!"</" ++ r = e ++ x.2 ∧ closedOk st x.1 (u ++ e) := by
  unfold closeNode
  rcases getUntilRef_spec (mark := c!">") (s := r) (by decide) (by decide) with h | ⟨text, rest, h1, h2, h3, h4⟩
  · split
    · trivial
    · rename_i heq; rw [heq] at h; cases h
  · rw [h1]
    simp only [ho]
    split
    · rename_i hcmp
      have hc := closeName_spec h2 (upTo_char.1 h3) hcmp
      refine ⟨_, by simp, ?_, pop_ok ho hs hc⟩
      rw [h4]; simp
    · trivial

theorem content_leaf {t : List Char} {ls : List Leaf} (h : Misc t ls) : Content t (leaves ls .nil) := by
  have := Content.misc h .nil
  simpa using this

theorem pass_sat {st : St} {o : Open} {os : List Open} (ho : st.opened = o :: os) {u : List Char} (hs : Stk (o :: os) u)
    {s : List Char} (hne : s ≠ []) : (pass st s).Sat fun x => ∃ t, t ≠ [] ∧ s = t ++ x.2.1 ∧ closedOk st x.1 (u ++ t) ∧
      (x.2.2 = !x.1.opened.isEmpty) := by
  -- the white spaces before
  have hpre : ∃ b s1, Blank b ∧ s = b ++ s1 ∧ (if st.preserves then s else skip s) = s1 ∧
      (s1 ≠ [] → ¬ c!"<" <+: s1 → ¬ ∃ r, s = '<' :: r) := by
    by_cases hp : st.preserves = true
    · refine ⟨[], s, by simp [Blank], rfl, by simp [hp], ?_⟩
      rintro _ h ⟨r, rfl⟩
      exact h ⟨r, rfl⟩
    · obtain ⟨b, hb, h1, _⟩ := skip_spec s
      refine ⟨b, skip s, hb, h1, by simp [hp], ?_⟩
      rintro _ h ⟨r, rfl⟩
      rw [skip_cons_not (by simp [White])] at h
      exact h ⟨r, rfl⟩
  obtain ⟨b, s1, hb, hsb, heq, hlt⟩ := hpre
  -- white spaces before markup are no item
  have hblank : Stk (o :: os) (u ++ b) := by
    have := hs.append (content_leaf (by simpa using Misc.blank hb .nil))
    simpa [leaves, append_nil] using this
  have hadd : ∀ {l : Leaf} {t : List Char}, Stk (o :: os) u → Content t (.leaf l .nil) →
      closedOk st (st.addLeaf l) (u ++ t) ∧ (true = !(st.addLeaf l).opened.isEmpty) := by
    intro l t hs' ht
    unfold St.addLeaf
    rw [ho]
    exact ⟨⟨rfl, Or.inl ⟨by simp, hs'.append ht, rfl⟩⟩, rfl⟩
  unfold pass
  simp only [heq]
  split
  · -- comments and instructions
    rename_i hpk
    refine (comments_sat true _ st s1 (by omega)).bind ?_
    rintro ⟨st', s'⟩ ⟨t, ls, h1, h2, h3, _, _, h5⟩
    simp only at h1 h3 h5
    have hlt' : s'.length < s1.length := by
      rcases h5 with h5 | ⟨h5, h6⟩
      · exact h5
      · rw [Bool.or_eq_true, peek_iff, peek_iff] at hpk
        rcases hpk with ⟨r, hr⟩ | ⟨r, hr⟩
        · exfalso; apply h6 trivial
          rw [hr]; show _ <+: skip ('<' :: _)
          rw [skip_cons_not (by simp [White])]; exact ⟨r, rfl⟩
        · exfalso; apply h5
          rw [hr]; show _ <+: skip ('<' :: _)
          rw [skip_cons_not (by simp [White])]; exact ⟨r, rfl⟩
    have hl := congrArg List.length h1
    refine ⟨b ++ t, ?_, by rw [hsb, h1]; simp, ?_, ?_⟩
    · intro hn; simp at hn; rw [hn.2] at hl; simp at hl; omega
    · rw [h3, addAll_opened ls ho]
      refine ⟨rfl, Or.inl ⟨by simp, ?_, rfl⟩⟩
      rw [← List.append_assoc]
      exact hblank.append (content_leaf h2)
    · rw [h3, addAll_opened ls ho]; rfl
  · split
    · -- a closing tag
      rename_i r hr
      have hr := eat_some.1 hr
      refine (closeNode_sat ho hblank r).bind ?_
      rintro ⟨st', s'⟩ ⟨e, he, h1, h2⟩
      simp only at h1 h2
      refine ⟨b ++ e, by simp [he], by rw [hsb, hr, h1]; simp, ?_, rfl⟩
      rw [← List.append_assoc]; exact h2
    · split
      · -- a CDATA section
        rename_i r hr
        have hr := eat_some.1 hr
        unfold cdata
        cases hf : getUntil [c!"]]>"] r with
        | none => trivial
        | some f =>
          obtain ⟨h1, h2, _, _⟩ := getUntil_single (by decide) (by decide) hf
          have hc : Content (c!"<![CDATA[" ++ f.text ++ c!"]]>") (.leaf (.cdata (cstr f.text)) .nil) := by
            have := Content.cdata h2 .nil
            simpa using this
          have hc2 : Content (b ++ (c!"<![CDATA[" ++ f.text ++ c!"]]>")) (.leaf (.cdata (cstr f.text)) .nil) := by
            exact Content.misc (ls := []) (by simpa using Misc.blank hb .nil) hc
          obtain ⟨g1, g2⟩ := hadd hs hc2
          refine ⟨b ++ (c!"<![CDATA[" ++ f.text ++ c!"]]>"), by simp, ?_, g1, g2⟩
          rw [hsb, hr, h1]
          simp
      · split
        · -- a tag
          rename_i hcl _ _ r hr
          have hr := eat_some.1 hr
          refine (parseNode_sat st r).bind ?_
          rintro ⟨st1, s2, e⟩ ⟨m, ls, angle, t, name, as, o', st', hm, ha, ht, h1, htn, hok, hn, hi, ho', hp', hr', hx⟩
          simp only at h1 hx ht ⊢
          rw [addAll_opened ls ho] at ho' hp' hr'
          subst hn
          refine ⟨b ++ ('<' :: m ++ angle ++ t), by simp, by rw [hsb, hr, h1]; simp, ?_, ?_⟩
          · cases e with
            | true =>
              simp only [if_true] at hx
              subst hx
              have := pop_empty hblank hm ha ht hok hi ho'
              refine ⟨this.1.trans hp', ?_⟩
              rcases this.2 with ⟨g1, g2, g3⟩ | ⟨g1, g2⟩
              · refine Or.inl ⟨g1, ?_, g3.trans hr'⟩
                simpa using g2
              · refine Or.inr ⟨g1, ?_⟩
                simpa using g2
            | false =>
              simp only [Bool.false_eq_true, if_false] at hx
              subst hx
              refine ⟨hp', Or.inl ⟨by simp [ho'], ?_, hr'⟩⟩
              rw [ho']
              have := Stk.cons (c := []) hblank hm ha ht hok (by rw [hi]; exact .nil)
              simpa using this
          · cases e with
            | true =>
              simp only [if_true] at hx
              subst hx
              unfold St.pop
              rw [ho']
              rfl
            | false =>
              simp only [Bool.false_eq_true, if_false] at hx
              subst hx
              rw [ho']; rfl
        · -- text
          rename_i hpk _ _ _ hnlt
          have hnlt := eat_none.1 hnlt
          unfold content
          cases hf : getUntil [c!"<"] s with
          | none => trivial
          | some f =>
            obtain ⟨h1, h2, h3, _⟩ := getUntil_single (by decide) (by decide) hf
            have h2 := upTo_char.1 h2
            have htne : f.text ≠ [] := by
              intro h0
              rw [h0] at h1
              refine hlt ?_ hnlt ⟨f.after, by simpa using h1⟩
              rintro rfl
              -- only white spaces, but a `<` was found
              have : '<' ∈ s := by rw [h1]; simp
              rw [hsb, List.append_nil] at this
              have := hb _ this
              simp [White] at this
            have hc : Content f.text (.leaf (.content (cstr f.text)) .nil) := by
              have := Content.text htne h2 .nil
              simpa using this
            obtain ⟨g1, g2⟩ := hadd hs hc
            exact ⟨f.text, htne, by rw [h3, ← List.append_assoc]; exact h1, g1, g2⟩

/-- The result of the loop. -/
theorem mainLoop_sat : ∀ (fuel : Nat) (st : St) (s : List Char) {o : Open} {os : List Open} {u : List Char},
    st.opened = o :: os → Stk (o :: os) u → s.length < fuel →
    (mainLoop fuel st s).Sat fun st' => ∃ x rest, s = x ++ rest ∧ closedOk st st' (u ++ x)
  | 0, _, _, _, _, _, _, _, h => by omega
  | fuel + 1, st, s, o, os, u, ho, hs, hf => by
    unfold mainLoop
    cases s with
    | nil => exact ⟨[], [], rfl, rfl, Or.inl ⟨by simp [ho], by simpa [ho] using hs, rfl⟩⟩
    | cons c s =>
      simp only
      refine (pass_sat ho hs (s := c :: s) (by simp)).bind ?_
      rintro ⟨st1, s1, more⟩ ⟨t, ht, h1, h2, h3⟩
      simp only at h1 h2 h3 ⊢
      split
      · rename_i hm
        rw [hm] at h3
        cases ho1 : st1.opened with
        | nil => simp [ho1] at h3
        | cons o1 os1 =>
          obtain ⟨hp, h2⟩ := h2
          rcases h2 with ⟨_, hs1, hr1⟩ | ⟨h, _⟩
          · rw [ho1] at hs1
            have hl := congrArg List.length h1
            have := List.length_pos_iff.2 ht
            simp only [List.length_append] at hl
            refine (mainLoop_sat fuel st1 s1 ho1 hs1 (by omega)).imp ?_
            rintro st2 ⟨x, rest, g1, g2, g3⟩
            refine ⟨t ++ x, rest, by rw [h1, g1]; simp, g2.trans hp, ?_⟩
            rw [← List.append_assoc]
            rcases g3 with ⟨a, b, c⟩ | g3
            · exact Or.inl ⟨a, b, c.trans hr1⟩
            · exact Or.inr g3
          · rw [ho1] at h; cases h
      · exact ⟨t, s1, h1, h2⟩

theorem addAll_none : ∀ (ls : List Leaf) {st : St}, st.opened = [] →
    st.addAll ls = { st with pis := st.pis ++ instructions ls }
  | [], st, _ => by simp [St.addAll, instructions]
  | l :: ls, st, h => by
    have e : st.addAll (l :: ls) = (st.addItem l).addAll ls := rfl
    have h1 : st.addItem l = { st with pis := st.pis ++ instructions [l] } := by
      obtain ⟨op, root, pis, pres, nv⟩ := st
      simp only at h
      subst h
      cases l <;> simp [St.addItem, St.addPI, St.addLeaf, instructions]
    rw [e, addAll_none ls (by rw [h1]; exact h), h1]
    simp only [List.append_assoc]
    rw [← show instructions (l :: ls) = instructions [l] ++ instructions ls from List.filterMap_append (l := [l])]

/-- The root and the rest of the document. -/
theorem body_sat {st : St} (ho : st.opened = []) (s : List Char) : (body st s).Sat fun st' =>
    ∃ m ls angle x rest, Misc m ls ∧ (angle = [] ∨ angle = ['<']) ∧ s = m ++ angle ++ x ++ rest ∧
      st'.pis = st.pis ++ instructions ls ∧ (st'.opened ≠ [] ∨ ∃ n, st'.root = some n ∧ Element x n) := by
  unfold body
  refine (parseNode_sat st s).bind ?_
  rintro ⟨st1, s1, e⟩ ⟨m, ls, angle, t, name, as, o', st', hm, ha, ht, h1, htn, hok, hn, hi, ho', hp', hr', hx⟩
  simp only at h1 hx ht ⊢
  rw [addAll_none ls ho] at ho' hp' hr'
  simp only [ho] at ho'
  subst hn
  cases e with
  | true =>
    simp only [if_true] at hx ⊢
    subst hx
    refine ⟨m, ls, angle, t, s1, hm, ha, h1, ?_, Or.inr ⟨.mk o'.name o'.attrs o'.items, ?_, ?_⟩⟩
    · unfold St.pop; rw [ho']; exact hp'
    · unfold St.pop; rw [ho']
    · rw [hi]; exact .empty ht hok.attrsOf
  | false =>
    simp only [Bool.false_eq_true, if_false] at hx ⊢
    subst hx
    have hstk : Stk [o'] (t ++ []) := .root ht hok (by rw [hi]; exact .nil)
    refine (mainLoop_sat _ st1 s1 ho' hstk (by omega)).imp ?_
    rintro st2 ⟨x, rest, g1, g2, g3⟩
    refine ⟨m, ls, angle, t ++ x, rest, hm, ha, by rw [h1, g1]; simp, g2.trans hp', ?_⟩
    rcases g3 with ⟨a, _⟩ | ⟨_, g3⟩
    · exact Or.inl a
    · rw [List.append_nil] at g3; exact Or.inr g3

end Parse
end Axl
