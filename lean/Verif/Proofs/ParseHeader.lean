/-
The header of a document and the whole parse.
-/
import Verif.Proofs.ParseSound

namespace Axl

namespace Res

/-- The result, if there is one, satisfies `P`; undefined behaviour only if `U`. -/
def SatU {α : Type} (U : Prop) (P : α → Prop) : Res α → Prop
  | .ok a => P a
  | .error => True
  | .ub => U
  | .loop => False

theorem SatU.bind {α β : Type} {U : Prop} {P : α → Prop} {Q : β → Prop} {r : Res α} {f : α → Res β}
    (h : r.SatU U P) (hf : ∀ a, P a → (f a).SatU U Q) : (r >>= f).SatU U Q := by
  cases r with
  | ok a => exact hf a h
  | error => trivial
  | ub => exact h
  | loop => exact h

theorem Sat.toU {α : Type} {P : α → Prop} {r : Res α} (h : r.Sat P) (U : Prop) : r.SatU U P := by
  cases r with
  | ok a => exact h
  | error => trivial
  | ub => exact h.elim
  | loop => exact h

theorem SatU.imp {α : Type} {U V : Prop} {P Q : α → Prop} {r : Res α} (h : r.SatU U P) (hu : U → V) (hf : ∀ a, P a → Q a) :
    r.SatU V Q := by
  cases r with
  | ok a => exact hf a h
  | error => trivial
  | ub => exact hu h
  | loop => exact h

end Res

namespace Parse
open Str Stream Spec.Xml

theorem inspect_yes {s chunk r : List Char} (h : inspect s chunk = .yes r) : s = chunk ++ r := by
  refine eat_some.1 ?_
  unfold eat; rw [h]

theorem inspectTwo_yes {s a b r : List Char} (h : inspectTwo s a b = .yes r) : s = a ++ r ∨ s = b ++ r := by
  unfold inspectTwo at h
  cases h1 : inspect s a with
  | yes r' => rw [h1] at h; cases h; exact Or.inl (inspect_yes h1)
  | short => rw [h1] at h; cases h
  | no => rw [h1] at h; exact Or.inr (inspect_yes h)

theorem notZero_spec {l : Look} {s r : List Char} (h : notZero l s = some r) : l = .yes r ∨ r = s := by
  cases l with
  | yes t => cases h; exact Or.inl rfl
  | short => cases h; exact Or.inr rfl
  | no => cases h

theorem matchAt_quotes (c : Char) (r : List Char) : matchAt [c!"'", c!"\""] c r =
    if c = '\'' then some (0, 1) else if c = '"' then some (1, 1) else none := by
  unfold matchAt
  have : ([c!"'", c!"\""] : List (List Char)).contains [' '] = false := by decide
  rw [this]
  have h1 : ∀ q, [q] <+: c :: r ↔ c = q := by
    intro q; rw [List.cons_prefix_cons]; simp [eq_comm]
  simp only [Bool.false_and, Bool.false_eq_true, if_false, firstChunk, List.isPrefixOf_iff_prefix, h1]
  simp

theorem headerValue_spec {s v r : List Char} (h : headerValue s = some (v, r)) :
    ∃ value q, (q = '"' ∨ q = '\'') ∧ '"' ∉ value ∧ '\'' ∉ value ∧ s = value ++ q :: r ∧ v = value := by
  unfold headerValue at h
  cases hf : getUntil [c!"'", c!"\""] s with
  | none => rw [hf] at h; cases h
  | some f =>
    rw [hf] at h
    cases h
    obtain ⟨c, r, n, h1, h2, h3, h4, h5⟩ := getUntil_some hf
    have hno : ∀ d ∈ f.text, d ≠ '\'' ∧ d ≠ '"' := by
      intro d hd
      obtain ⟨x, y, hx⟩ := List.append_of_mem hd
      have := h5 x d y hx
      rw [matchAt_quotes] at this
      split at this
      · cases this
      · split at this
        · cases this
        · rename_i a b; exact ⟨a, b⟩
    refine ⟨f.text, c, ?_, fun h => (hno _ h).2 rfl, fun h => (hno _ h).1 rfl, ?_, rfl⟩
    · rw [matchAt_quotes] at h3
      split at h3
      · rename_i hc; exact Or.inr hc
      · split at h3
        · rename_i hc; exact Or.inl hc
        · cases h3
    · have hn : n = 1 := by
        rw [matchAt_quotes] at h3
        split at h3
        · simpa using (Prod.mk.inj (Option.some.inj h3)).2.symm
        · split at h3
          · simpa using (Prod.mk.inj (Option.some.inj h3)).2.symm
          · cases h3
      rw [h4, hn]; exact h2

theorem encoding_sat (s : List Char) : (encoding s).Sat fun x => ∃ t, s = t ++ x.2 ∧ DeclPart c!"encoding=" t x.1 := by
  unfold encoding
  split
  · rename_i r hr
    cases hv : headerValue r with
    | none => trivial
    | some p =>
      obtain ⟨v, r'⟩ := p
      obtain ⟨value, q, hq, h1, h2, h3, h4⟩ := headerValue_spec hv
      subst h4
      rcases inspectTwo_yes hr with h | h
      · exact ⟨c!"encoding=" ++ '"' :: v ++ [q], by rw [h, h3]; simp, .some (Or.inl rfl) hq h1 h2⟩
      · exact ⟨c!"encoding=" ++ '\'' :: v ++ [q], by rw [h, h3]; simp, .some (Or.inr rfl) hq h1 h2⟩
  · exact ⟨[], rfl, .none⟩

theorem yes_isPrefixOf_cstr (v : List Char) : c!"yes".isPrefixOf (cstr v) = c!"yes".isPrefixOf v := by
  have : ∀ (p : List Char), NUL ∉ p → ∀ v, p.isPrefixOf (cstr v) = p.isPrefixOf v := by
    intro p
    induction p with
    | nil => intros; simp
    | cons a p ih =>
      intro hp v
      simp only [List.mem_cons, not_or] at hp
      cases v with
      | nil => rfl
      | cons b v =>
        by_cases hb : b = NUL
        · subst hb
          have e : cstr (NUL :: v) = [] := by simp [cstr, NUL]
          rw [e]
          simp [List.isPrefixOf, Ne.symm hp.1]
        · have e : cstr (b :: v) = b :: cstr v := by
            unfold cstr
            rw [List.takeWhile_cons, if_pos (by simpa [NUL] using hb)]
          rw [e]
          simp [List.isPrefixOf, ih hp.2 v]
  exact this _ (by decide) v

theorem standalone_sat (s : List Char) : (standalone s).SatU (ShortStandalone s) fun x =>
    ∃ t a, s = t ++ x.2 ∧ DeclPart c!"standalone=" t a ∧ x.1 = saysYes a := by
  unfold standalone
  split
  · rename_i r hr
    cases hv : headerValue r with
    | none => trivial
    | some p =>
      obtain ⟨v, r'⟩ := p
      simp only
      obtain ⟨value, q, hq, h1, h2, h3, h4⟩ := headerValue_spec hv
      subst h4
      unfold isYes
      split
      · rename_i hlt
        rcases inspectTwo_yes hr with h | h
        · exact ⟨[], v, r', '"', q, Or.inl rfl, hq, by rw [h, h3]; simp, by omega⟩
        · exact ⟨[], v, r', '\'', q, Or.inr rfl, hq, by rw [h, h3]; simp, by omega⟩
      · rcases inspectTwo_yes hr with h | h
        · exact ⟨c!"standalone=" ++ '"' :: v ++ [q], _, by rw [h, h3]; simp, .some (Or.inl rfl) hq h1 h2, (yes_isPrefixOf_cstr v).symm⟩
        · exact ⟨c!"standalone=" ++ '\'' :: v ++ [q], _, by rw [h, h3]; simp, .some (Or.inr rfl) hq h1 h2, (yes_isPrefixOf_cstr v).symm⟩
  · exact ⟨[], none, rfl, .none, rfl⟩

theorem _root_.Axl.Spec.Xml.ShortStandalone.prepend {s : List Char} (h : ShortStandalone s) (t : List Char) : ShortStandalone (t ++ s) := by
  obtain ⟨pre, value, post, q, q', h1, h2, h3, h4⟩ := h
  exact ⟨t ++ pre, value, post, q, q', h1, h2, by rw [h3]; simp, h4⟩

theorem xmlDecl_sat (s : List Char) : (xmlDecl s).SatU (ShortStandalone s) fun x =>
    ∃ d a, c!"<?" ++ s = d ++ x.2.2 ∧ Decl d x.1 a ∧ x.2.1 = saysYes a := by
  unfold xmlDecl
  cases h1 : eat s c!"xml" with
  | none => trivial
  | some s1 =>
    have h1 := eat_some.1 h1
    simp only
    obtain ⟨b1, hb1, hs1, _⟩ := skip_spec s1
    cases h2 : notZero (inspect (skip s1) c!"version=") (skip s1) with
    | none => trivial
    | some s2 =>
      simp only
      have hv : ∃ ver, (ver = c!"version=" ∨ ver = []) ∧ skip s1 = ver ++ s2 := by
        rcases notZero_spec h2 with h | h
        · exact ⟨_, Or.inl rfl, inspect_yes h⟩
        · exact ⟨_, Or.inr rfl, h.symm⟩
      obtain ⟨ver, hver, hs2⟩ := hv
      obtain ⟨b2, hb2, hs2', _⟩ := skip_spec s2
      cases h3 : notZero (inspectTwo (skip s2) c!"\"1.0\"" c!"'1.0'") (skip s2) with
      | none => trivial
      | some s3 =>
        simp only
        have hn : ∃ num, (num = c!"\"1.0\"" ∨ num = c!"'1.0'" ∨ num = []) ∧ skip s2 = num ++ s3 := by
          rcases notZero_spec h3 with h | h
          · rcases inspectTwo_yes h with h | h
            · exact ⟨_, Or.inl rfl, h⟩
            · exact ⟨_, Or.inr (Or.inl rfl), h⟩
          · exact ⟨_, Or.inr (Or.inr rfl), h.symm⟩
        obtain ⟨num, hnum, hs3⟩ := hn
        obtain ⟨b3, hb3, hs3', _⟩ := skip_spec s3
        refine ((encoding_sat (skip s3)).toU _).bind ?_
        rintro ⟨enc, s4⟩ ⟨et, hs4, he⟩
        simp only at hs4 he ⊢
        obtain ⟨b4, hb4, hs4', _⟩ := skip_spec s4
        have hall : s = c!"xml" ++ b1 ++ ver ++ b2 ++ num ++ b3 ++ et ++ b4 ++ skip s4 := by
          rw [h1]
          conv => lhs; rw [hs1, hs2, hs2', hs3, hs3', hs4, hs4']
          simp
        refine Res.SatU.bind (P := fun x => ∃ t a, skip s4 = t ++ x.2 ∧ DeclPart c!"standalone=" t a ∧
          x.1 = saysYes a)
          ((standalone_sat (skip s4)).imp (fun h => by rw [hall]; exact h.prepend _) fun _ h => h) ?_
        rintro ⟨alone, s5⟩ ⟨at_, a, hs5, ha, haa⟩
        simp only at hs5 ha haa ⊢
        obtain ⟨b5, hb5, hs5', _⟩ := skip_spec s5
        cases h6 : eat (skip s5) c!"?>" with
        | none => trivial
        | some s6 =>
          have h6 := eat_some.1 h6
          refine ⟨_, a, ?_, .mk hb1 hb2 hb3 hb4 hb5 hver hnum he ha, haa⟩
          rw [hall, hs5]
          conv => lhs; rw [hs5', h6]
          simp

theorem doctype_sat {st : St} (ho : st.opened = []) (s : List Char) : (doctype st s).Sat fun x =>
    ∃ dt, s = dt ++ x.2 ∧ x.1 = st ∧
      (dt = [] ∨ ∃ d m ls, dt = c!"<!DOCTYPE" ++ d ++ m ∧ (d = [] ∨ ∃ x, '>' ∉ x ∧ d = x ++ ['>']) ∧ Misc m ls) := by
  unfold doctype
  cases h : eat s c!"<!DOCTYPE" with
  | none => exact ⟨[], rfl, rfl, Or.inl rfl⟩
  | some r =>
    have h := eat_some.1 h
    simp only
    refine (comments_sat false _ st _ (Nat.lt_succ_self _)).imp ?_
    rintro ⟨st', s'⟩ ⟨m, ls, h1, h2, h3, _, h5, _⟩
    have hst : st' = st := by
      have hi : instructions ls = [] := by
        unfold instructions
        rw [List.filterMap_eq_nil_iff]
        intro l hl
        obtain ⟨c, rfl⟩ := h5 rfl l hl
        rfl
      simp only at h3
      rw [h3, addAll_none ls ho, hi, List.append_nil]
    have hd : ∃ d, (d = [] ∨ ∃ x, '>' ∉ x ∧ d = x ++ ['>']) ∧ r = d ++ (getUntilRef [c!">"] r).2 := by
      unfold getUntilRef
      cases hf : getUntil [c!">"] r with
      | none => exact ⟨[], Or.inl rfl, rfl⟩
      | some f =>
        obtain ⟨g1, g2, _, _⟩ := getUntil_single (by decide) (by decide) hf
        refine ⟨f.text ++ ['>'], Or.inr ⟨_, upTo_char.1 g2, rfl⟩, ?_⟩
        simp only
        split <;> exact g1
    obtain ⟨d, hd1, hd2⟩ := hd
    refine ⟨c!"<!DOCTYPE" ++ d ++ m, ?_, hst, Or.inr ⟨d, m, ls, rfl, hd1, h2⟩⟩
    simp only at h1 ⊢
    rw [h]
    conv => lhs; rw [hd2, h1]
    simp

theorem skipBom_spec (s : List Char) : ∃ bom, (bom = [] ∨ bom = ['ï', '»', '¿']) ∧ s = bom ++ skipBom s := by
  unfold skipBom
  cases h : eat s ['ï', '»', '¿'] with
  | none => exact ⟨[], Or.inl rfl, rfl⟩
  | some r => exact ⟨_, Or.inr rfl, eat_some.1 h⟩

theorem parseHeader_sat (s : List Char) : (parseHeader s).SatU (ShortStandalone s) fun x =>
    ∃ prolog a, s = prolog ++ x.2.2.2 ∧ Prolog prolog x.1 a ∧
      x.2.1 = saysYes a ∧ x.2.2.1 = St.new := by
  unfold parseHeader
  obtain ⟨bom, hbom, hs⟩ := skipBom_spec s
  cases h1 : notZero (inspect (skipBom s) c!"<?") (skipBom s) with
  | none =>
    simp only
    refine ((doctype_sat rfl (skipBom s)).toU _).bind ?_
    rintro ⟨st, s'⟩ ⟨dt, hdt, hst, hd⟩
    refine ⟨bom ++ [] ++ dt, none, ?_, .mk hbom (Or.inl ⟨rfl, rfl, rfl⟩) hd, rfl, hst⟩
    simp only at hdt ⊢
    conv => lhs; rw [hs, hdt]
    simp
  | some s1 =>
    simp only
    rcases notZero_spec h1 with h | h
    · have h := inspect_yes h
      refine Res.SatU.bind ((xmlDecl_sat s1).imp (V := ShortStandalone s) (fun hu => ?_) fun _ h => h) ?_
      · have := (hu.prepend c!"<?").prepend bom
        rw [← h, ← hs] at this; exact this
      · rintro ⟨enc, alone, s2⟩ ⟨d, a, hd, hdecl, ha⟩
        simp only at hd hdecl ha ⊢
        refine ((comments_sat false _ St.new s2 (Nat.lt_succ_self _)).toU _).bind ?_
        rintro ⟨st', s3⟩ ⟨m, ls, g1, g2, g3, _, g5, _⟩
        have hst : st' = St.new := by
          have hi : instructions ls = [] := by
            unfold instructions
            rw [List.filterMap_eq_nil_iff]
            intro l hl
            obtain ⟨c, rfl⟩ := g5 rfl l hl
            rfl
          simp only at g3
          rw [g3, addAll_none ls rfl, hi, List.append_nil]
        subst hst
        refine ((doctype_sat rfl s3).toU _).bind ?_
        rintro ⟨st, s'⟩ ⟨dt, hdt, hst, hdd⟩
        refine ⟨bom ++ (d ++ m) ++ dt, a, ?_, .mk hbom (Or.inr ⟨d, m, ls, rfl, hdecl, g2⟩) hdd, ha, hst⟩
        simp only at hdt g1 ⊢
        conv => lhs; rw [hs, h, hd, g1, hdt]
        simp
    · -- a document with less than two bytes
      subst h
      unfold notZero at h1
      cases hi : inspect (skipBom s) c!"<?" with
      | no => rw [hi] at h1; cases h1
      | yes r =>
        rw [hi] at h1
        have h2 := inspect_yes hi
        have := congrArg List.length h2
        cases h1
        simp at this
        omega
      | short =>
        have hlen : (skipBom s).length < 2 := by
          unfold inspect at hi
          split at hi
          · rename_i hh; exact hh
          · split at hi <;> cases hi
        unfold xmlDecl
        have : eat (skipBom s) c!"xml" = none := by
          cases he : eat (skipBom s) c!"xml" with
          | none => rfl
          | some r =>
            have := congrArg List.length (eat_some.1 he)
            simp at this
            omega
        rw [this]
        trivial

/-- The whole parse: it ends; a document is in the grammar. -/
theorem parse_sat (s : List Char) : (parse s).SatU (ShortStandalone s) fun d => Document s d := by
  unfold parse
  refine (parseHeader_sat s).bind ?_
  rintro ⟨enc, alone, st, s1⟩ ⟨prolog, a, hs, hp, ha, hst⟩
  simp only at hs hp ha hst ⊢
  subst hst
  refine ((body_sat (st := St.new) rfl s1).toU _).bind ?_
  rintro st' ⟨m, ls, angle, x, rest, h1, h2, h3, h4, h5⟩
  by_cases ho : st'.opened = []
  · rcases h5 with h5 | ⟨n, hn, he⟩
    · exact absurd ho h5
    · simp only [ho, List.isEmpty_nil, Bool.not_true, Bool.false_eq_true, if_false, hn]
      have hpis : st'.pis = instructions ls := by rw [h4]; rfl
      subst ha
      rw [hs, h3, hpis]
      have := Document.mk (rest := rest) (noValue := st'.noValue) hp h1 h2 he
      show Document _ _
      simpa using this
  · have : st'.opened.isEmpty = false := by
      cases hh : st'.opened with
      | nil => exact absurd hh ho
      | cons _ _ => rfl
    simp only [this, Bool.not_false, if_true]
    trivial

end Parse
end Axl
