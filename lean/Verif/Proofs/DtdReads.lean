/-
The functions that read a DTD move along the text, have no undefined behaviour and end.
-/
import Verif.Proofs.DtdWell
import Verif.Proofs.ParseSound
import Verif.Proofs.StrEdit
import Verif.Props.Str

namespace Axl.Dtd
open Str Stream Spec.Xml

/-! ### The stream -/

theorem skip_suffix (s : List Char) : skip s <:+ s := List.dropWhile_suffix _

theorem eat_suffix {s chunk r : List Char} (h : eat s chunk = some r) : r <:+ s ∧ s.length = chunk.length + r.length := by
  rw [eat_some] at h
  subst h
  exact ⟨List.suffix_append _ _, by simp⟩

theorem matchAt_pos {chunks : List (List Char)} {c : Char} {r : List Char} {i n : Nat} (h : matchAt chunks c r = some (i, n)) : 0 < n := by
  unfold matchAt at h
  split at h
  · cases h; omega
  · have : ∀ (cs : List (List Char)) (j : Nat), firstChunk (c :: r) j cs = some (i, n) → 0 < n := by
      intro cs
      induction cs with
      | nil => intro j h; cases h
      | cons x xs ih =>
        intro j h
        rw [firstChunk] at h
        split at h
        · rename_i hc
          cases h
          exact List.length_pos_iff.2 hc.2.1
        · exact ih _ h
    exact this _ _ h

theorem getUntil_suffix {chunks : List (List Char)} {s : List Char} {f : Found} (h : getUntil chunks s = some f) :
    f.at_ <:+ s ∧ f.after <:+ s ∧ f.after.length < s.length ∧ f.at_ ≠ [] := by
  obtain ⟨c, r, n, h1, h2, h3, h4, -⟩ := getUntil_some h
  have hn := matchAt_pos h3
  have ha : f.at_ <:+ s := by rw [h1, h2]; exact List.suffix_append _ _
  refine ⟨ha, ?_, ?_, by rw [h1]; simp⟩
  · rw [h4, ← h1]; exact (List.drop_suffix _ _).trans ha
  · rw [h4, h2]
    simp only [List.length_drop, List.length_cons, List.length_append]
    omega

/-- `r` is what is left of `s`. -/
def Left (s r : List Char) : Prop := r <:+ s

theorem Left.trans {a b c : List Char} (h : Left a b) (h' : Left b c) : Left a c := List.IsSuffix.trans h' h

theorem Left.refl (a : List Char) : Left a a := List.suffix_refl a

theorem Left.length {a b : List Char} (h : Left a b) : b.length ≤ a.length := h.length_le

theorem left_skip (s : List Char) : Left s (skip s) := skip_suffix s

theorem left_eat {s chunk r : List Char} (h : eat (skip s) chunk = some r) : Left s r :=
  (left_skip s).trans (eat_suffix h).1

theorem left_eat' {s chunk r : List Char} (h : eat s chunk = some r) : Left s r := (eat_suffix h).1

/-! ### Content models -/

theorem repetition_left (s : List Char) : Left s (repetition s).2 := by
  unfold repetition
  split
  · exact left_eat' ‹_›
  · split
    · exact left_eat' ‹_›
    · split
      · exact left_eat' ‹_›
      · exact .refl s

theorem separator_left {s : List Char} {r : Nat × List Char} (h : separator s = some r) : Left s r.2 := by
  unfold separator at h
  split at h
  · cases h; exact left_eat ‹_›
  · split at h
    · cases h; exact left_eat ‹_›
    · split at h
      · cases h; exact left_eat ‹_›
      · cases h

theorem afterSpace_left (s : List Char) : Left s (afterSpace s).2 := by
  unfold afterSpace
  split
  · exact separator_left ‹_›
  · split
    · exact left_eat ‹_›
    · split
      · exact left_eat ‹_›
      · split
        · exact left_eat ‹_›
        · exact left_skip s

theorem closeSep_left (chunk : Nat) (s : List Char) : Left s (closeSep chunk s).2 := by
  unfold closeSep
  split
  · exact left_eat ‹_›
  · split
    · exact left_eat ‹_›
    · exact left_skip s

theorem closeLoop_sat : ∀ {fuel : Nat} {r : Reading} {chunk : Nat} {s : List Char}, s.length < fuel →
    (closeLoop fuel r chunk s).Sat fun x => Left s x.2.2
  | 0, _, _, _, h => by omega
  | fuel + 1, r, chunk, s, hf => by
    rw [closeLoop]
    have h1 := (left_skip s).trans (repetition_left (skip s))
    generalize repetition (skip s) = x1 at h1 ⊢
    obtain ⟨times, s1⟩ := x1
    simp only at h1 ⊢
    have h2 := h1.trans (closeSep_left chunk s1)
    generalize closeSep chunk s1 = x2 at h2 ⊢
    obtain ⟨chunk2, s2⟩ := x2
    simp only at h2 ⊢
    split
    · split
      · rename_i s3 h3
        exact h2.trans (left_eat h3)
      · exact h2.trans (left_skip s2)
    · split
      · rename_i s3 h3
        have hl := (eat_suffix h3).2
        have := h2.length
        have := skip_length s2
        simp only [List.length_cons, List.length_nil] at hl
        exact (closeLoop_sat (by omega)).imp fun x hx => (h2.trans (left_eat h3)).trans hx
      · exact h2.trans (left_skip s2)

theorem specLoop_sat : ∀ {fuel : Nat} {r : Reading} {s : List Char}, s.length < fuel →
    (specLoop fuel r s).Sat fun x => Left s x.2
  | 0, _, _, h => by omega
  | fuel + 1, r, s, hf => by
    rw [specLoop]
    have hk := skip_length s
    split
    · rename_i s1 h1
      have hl := (eat_suffix h1).2
      simp only [List.length_cons, List.length_nil] at hl
      exact (specLoop_sat (by omega)).imp fun x hx => (left_eat h1).trans hx
    · split
      · trivial
      · rename_i f hg
        obtain ⟨-, hg2, hg3, -⟩ := getUntil_suffix hg
        have hx : ∃ chunk s1, (if f.chunk = 0 then afterSpace f.after else (f.chunk, f.after)) = (chunk, s1) ∧ Left f.after s1 := by
          split
          · exact ⟨_, _, rfl, afterSpace_left _⟩
          · exact ⟨_, _, rfl, .refl _⟩
        obtain ⟨chunk, s1, he, hs1⟩ := hx
        rw [he]
        simp only
        have hs : Left s s1 := ((left_skip s).trans hg2).trans hs1
        have hlt : s1.length < s.length := by have := hs1.length; omega
        have hsep : ∀ y, (if (chunk = 4 || chunk = 5 || chunk = 6) = true then separator s1 else some (chunk, s1)) = some y → Left s1 y.2 := by
          intro y hy
          split at hy
          · exact separator_left hy
          · cases hy; exact .refl _
        split
        · trivial
        · rename_i chunk2 s2 h2
          have hs2 := hsep _ h2
          simp only at hs2
          have hs2' := hs.trans hs2
          have hlt2 : s2.length < s.length := by have := hs2.length; omega
          split
          · trivial
          · split
            · have hcl := closeLoop_sat (r := { r with
                cur := { r.cur with kind := ‹Kind›, items := r.cur.items ++ [.node (chunkTimes chunk) (toStr f.text)] },
                sort := sortAfter r (toStr f.text) chunk2 (r.cur.items ++ [.node (chunkTimes chunk) (toStr f.text)]) })
                (chunk := chunk2) (s := s2) (Nat.lt_succ_self _)
              split
              · rename_i r3 chunk3 s3 h3
                rw [h3] at hcl
                have hcl : Left s2 s3 := hcl
                split
                · have := hcl.length
                  exact (specLoop_sat (by omega)).imp fun x hx => (hs2'.trans hcl).trans hx
                · exact hs2'.trans hcl
              · trivial
              · rename_i h3; rw [h3] at hcl; exact hcl
              · rename_i h3; rw [h3] at hcl; exact hcl
            · exact (specLoop_sat (by omega)).imp fun x hx => hs2'.trans hx

theorem readSpec_sat (s : List Char) : (readSpec s).Sat fun x => Left s x.2 := by
  unfold readSpec
  split
  · trivial
  · trivial
  · rename_i s1 h1
    have hl : Left s s1 := left_eat (chunk := c!"(") (by unfold eat; rw [h1])
    have h := specLoop_sat (r := ⟨⟨.undef, .one, []⟩, [], .children, false⟩) (Nat.lt_succ_self s1.length)
    split
    · rename_i h2; rw [h2] at h; exact hl.trans h
    · trivial
    · rename_i h2; rw [h2] at h; exact h
    · rename_i h2; rw [h2] at h; exact h

theorem elementType_sat (s : List Char) : (elementType s).Sat fun x => Left s x.2 := by
  unfold elementType
  split
  · exact left_eat ‹_›
  · split
    · exact left_eat ‹_›
    · exact (readSpec_sat _).imp fun x hx => (left_skip s).trans hx

theorem elementEnd_left {s r : List Char} (h : elementEnd s = some r) : Left s r := by
  unfold elementEnd at h
  split at h
  · cases h
  · cases h; exact left_skip s
  · cases h
    exact left_eat (chunk := c!">") (by unfold eat; rw [‹inspect _ _ = _›])

theorem parseElement_sat (d : Dtd) (s : List Char) : (parseElement d s).Sat fun x => Left s x.2 ∧ x.2.length < s.length ∧
    x.1.entities = d.entities := by
  unfold parseElement
  split
  · trivial
  · rename_i s1 h1
    have hl := left_eat h1
    have hlen := (eat_suffix h1).2
    have := skip_length s
    simp only [List.length_cons, List.length_nil] at hlen
    split
    · trivial
    · rename_i f hg
      have ha := hl.trans ((left_skip s1).trans (getUntil_suffix hg).1)
      have ha1 : f.at_.length ≤ s1.length := ((left_skip s1).trans (getUntil_suffix hg).1).length
      split
      · trivial
      · have he := elementType_sat f.at_
        split
        · rename_i type s2 h2
          rw [h2] at he
          have he : Left f.at_ s2 := he
          split
          · trivial
          · split
            · trivial
            · rename_i s3 h3
              have hs3 := elementEnd_left h3
              have := hs3.length
              have := he.length
              exact ⟨(ha.trans he).trans hs3, by simp only; omega, rfl⟩
        · trivial
        · rename_i h2; rw [h2] at he; exact he
        · rename_i h2; rw [h2] at he; exact he

/-! ### Attributes -/

theorem nul_toStr (t : List Char) : NUL ∉ toStr t := Parse.nul_cstr t

theorem trimmed_some {s : List Char} (hs : NUL ∉ s) : ∃ t, trimmed s = some t ∧ Spec.Str.Trimmed s t := by
  obtain ⟨t, h1, h2⟩ := trimWithSize_spec s [] hs
  refine ⟨t, ?_, h1⟩
  unfold trimmed
  rw [h2]
  simp only [Option.map_some, Option.some.injEq]
  refine toStr_spec _ _ fun h => hs ?_
  obtain ⟨l, r, rfl, -⟩ := h1
  simp [h]

theorem splits_nul {seps : List (List Char)} {s : List Char} {ps : List (List Char)} (h : Spec.Str.Splits seps s ps) (hs : NUL ∉ s) :
    ∀ p ∈ ps, NUL ∉ p := by
  induction h with
  | last => simpa using hs
  | cut _ _ _ ih =>
    simp only [List.mem_append, not_or] at hs
    intro p hp
    rcases List.mem_cons.1 hp with rfl | hp
    · exact hs.1.1
    · exact ih hs.2 p hp

theorem mapM_trimmed : ∀ {ps : List (List Char)}, (∀ p ∈ ps, NUL ∉ p) → ∃ qs, ps.mapM trimmed = some qs
  | [], _ => ⟨[], rfl⟩
  | p :: ps, h => by
    obtain ⟨t, ht, -⟩ := trimmed_some (h p (List.mem_cons_self ..))
    obtain ⟨qs, hq⟩ := mapM_trimmed fun q hq => h q (List.mem_cons_of_mem _ hq)
    refine ⟨t :: qs, ?_⟩
    simp [List.mapM_cons, ht, hq]

theorem enumValues_some {s : List Char} (hs : NUL ∉ s) : ∃ vs, enumValues s = some vs := by
  unfold enumValues
  by_cases h0 : s = []
  · subst h0
    rw [split_empty]
    exact ⟨[], rfl⟩
  · obtain ⟨ps, h1, h2⟩ := split_spec s [c!"|"] h0
    rw [h1]
    exact mapM_trimmed (splits_nul h2 hs)

theorem word_left {s : List Char} : ∀ {ws : List (List Char × AttType)} {r : AttType × List Char}, (∀ w ∈ ws, w.1 ≠ []) →
    word s ws = some r → Left s r.2 ∧ r.2.length < s.length
  | [], _, _, h => by cases h
  | (w, t) :: ws, r, hw, h => by
    rw [word] at h
    split at h
    · rename_i h1
      cases h
      have h0 := List.length_pos_iff.2 (hw (w, t) (List.mem_cons_self ..))
      have := (eat_suffix h1).2
      simp only at h0 ⊢
      exact ⟨left_eat' h1, by omega⟩
    · exact word_left (fun w hm => hw w (List.mem_cons_of_mem _ hm)) h

theorem attType_sat (s : List Char) : (attType s).Sat fun x => Left s x.2 ∧ x.2.length < s.length := by
  unfold attType
  split
  · rename_i h1
    have := (eat_suffix h1).2
    simp only [List.length_cons, List.length_nil] at this
    exact ⟨left_eat' h1, by simp only; omega⟩
  · split
    · rename_i h1
      split
      · trivial
      · rename_i f hf
        obtain ⟨-, h2, h3, -⟩ := getUntil_suffix hf
        obtain ⟨vs, hv⟩ := enumValues_some (nul_toStr f.text)
        rw [hv]
        have := (left_eat' h1).length
        exact ⟨(left_eat' h1).trans h2, by simp only; omega⟩
    · split
      · trivial
      · rename_i r h
        exact word_left (by decide) h

theorem attFixed_left (s : List Char) : Left s (attFixed s).2 := by
  unfold attFixed
  split
  · exact (left_eat' ‹_›).trans (left_skip _)
  · exact .refl _

theorem attDefault_left {s : List Char} {r : Defaults × List Char} (h : attDefault s = some r) : Left s r.2 := by
  unfold attDefault at h
  split at h
  · cases h; exact left_eat' ‹_›
  · split at h
    · cases h; exact left_eat' ‹_›
    · have := attFixed_left s
      generalize attFixed s = x at h this
      obtain ⟨t, s1⟩ := x
      simp only at h
      split at h
      · cases h; exact this
      · cases h

theorem attrValue_left {q : Char} (s : List Char) : Left s (Parse.attrValue q s).2 := by
  unfold Parse.attrValue
  split
  · exact .refl s
  · rename_i hf
    exact (getUntil_suffix hf).2.1

theorem quote_left {s : List Char} {q : Char} {r : List Char} (h : Parse.quote s = some (q, r)) : Left s r := by
  rcases Parse.quote_spec (s := s) with h0 | ⟨q', r', h1, -, rfl⟩
  · rw [h0] at h; cases h
  · rw [h1] at h; cases h
    exact List.suffix_cons _ _

theorem attValue_left (s : List Char) : Left s (attValue s).2 := by
  unfold attValue
  split
  · exact .refl s
  · rename_i hq
    exact (quote_left hq).trans (attrValue_left _)

/-! ### Entities -/

theorem entityContent_left {s : List Char} {r : Option (List Char) × List Char} (h : entityContent s = some r) : Left s r.2 := by
  unfold entityContent at h
  split at h
  · cases h; exact left_eat' ‹_›
  · split at h
    · cases h; exact left_eat' ‹_›
    · split at h
      · cases h
      · rename_i hq
        cases h
        exact (quote_left hq).trans (attrValue_left _)

/-- Names of entities have no white spaces. -/
def Names (d : Dtd) : Prop := ∀ e ∈ d.entities, ∀ c ∈ e.name, ¬ White c

theorem getUntil_white {s : List Char} {f : Found} (h : getUntil [c!" "] s = some f) : ∀ c ∈ f.text, ¬ White c := by
  obtain ⟨c, r, n, -, -, -, -, h5⟩ := getUntil_some h
  intro d hd hw
  obtain ⟨x, y, hx⟩ := List.append_of_mem hd
  have := h5 x d y hx
  unfold matchAt at this
  rw [if_pos (by simp [(white_iff d).2 hw])] at this
  cases this

theorem mem_toStr {t : List Char} {c : Char} (h : c ∈ toStr t) : c ∈ t := by
  rw [← cstr_eq] at h
  exact (List.takeWhile_sublist _).subset h

theorem parseEntity_sat {d : Dtd} (hd : Names d) (s : List Char) : (parseEntity d s).Sat fun x => Left s x.2 ∧ x.2.length < s.length ∧
    Names x.1 := by
  unfold parseEntity
  split
  · trivial
  · rename_i s1 h1
    have hlen := (eat_suffix h1).2
    have := skip_length s
    simp only [List.length_cons, List.length_nil] at hlen
    have h2 : Left s1 (entityType s1).2 := by
      unfold entityType
      split
      · exact (left_eat ‹_›).trans (left_skip _)
      · exact left_skip _
    generalize entityType s1 = x at h2 ⊢
    obtain ⟨type, s2⟩ := x
    simp only
    split
    · trivial
    · rename_i f hf
      split
      · trivial
      · rename_i content s3 h3
        split
        · trivial
        · rename_i s4 h4
          have h5 : Left s1 s4 := (((h2.trans (getUntil_suffix hf).1).trans (left_skip _)).trans (entityContent_left h3)).trans (left_eat h4)
          have := h5.length
          refine ⟨(left_eat h1).trans h5, by simp only; omega, ?_⟩
          intro e he
          simp only [List.mem_append, List.mem_singleton] at he
          rcases he with he | rfl
          · exact hd e he
          · exact fun c hc => getUntil_white hf c (mem_toStr hc)

/-! ### Without references -/

theorem NoReferences.left {s r : List Char} (h : NoReferences s) (hl : Left s r) : NoReferences r := by
  obtain ⟨p, rfl⟩ := hl
  intro a c b hr
  exact h (p ++ a) c b (by rw [hr]; simp)

theorem expand_eq {d : Dtd} (hd : Names d) {s : List Char} (hs : NoReferences s) : expand d s = .ok s ∨ expand d s = .error := by
  unfold expand
  split
  · exact .inl rfl
  · rename_i r hr
    rw [eat_some] at hr
    split
    · exact .inr rfl
    · rename_i f hf
      have hnone : d.entityValue (toStr f.text) .parameter = none := by
        unfold Dtd.entityValue Dtd.entity
        rw [Option.bind_eq_none_iff]
        intro e he
        exfalso
        have hm := List.mem_of_find?_eq_some he
        have hp := List.find?_some he
        simp only [Bool.and_eq_true] at hp
        have hn := cmp_true.1 hp.2
        obtain ⟨h1, -, h3, -⟩ := getUntil_single (by decide) (by decide) hf
        cases ht : f.text with
        | nil =>
          rw [ht] at h1
          have := hs [] ';' f.after (by rw [hr, h1]; rfl)
          revert this
          decide
        | cons c t =>
          rw [ht] at h1
          have hw := hs [] c (t ++ c!";" ++ f.after) (by rw [hr, h1]; simp)
          have hw : White c := hw
          refine hd e hm c ?_ hw
          rw [hn, ht, ← cstr_eq, cstr, List.takeWhile_cons]
          have : c ≠ Char.ofNat 0 := by
            rintro rfl
            revert hw
            unfold White
            decide
          simp [this]
      rw [hnone]
      exact .inl rfl

theorem attlistLoop_sat : ∀ {fuel : Nat} {d : Dtd} {decls : List AttDecl} {s : List Char}, Names d → NoReferences s → s.length < fuel →
    (attlistLoop fuel d decls s).Sat fun x => Left s x.2.2 ∧ x.1.entities = d.entities
  | 0, _, _, _, _, _, h => by omega
  | fuel + 1, d, decls, s, hd, hs, hf => by
    rw [attlistLoop]
    split
    · exact ⟨left_eat ‹_›, rfl⟩
    · split
      · trivial
      · rename_i f hg
        have h1 : Left s (skip f.at_) := ((left_skip s).trans (getUntil_suffix hg).1).trans (left_skip _)
        rcases expand_eq hd (hs.left h1) with he | he
        · rw [he]
          simp only
          have ht := attType_sat (skip f.at_)
          split
          · rename_i type s2 h2
            rw [h2] at ht
            obtain ⟨ht1, ht2⟩ : Left (skip f.at_) s2 ∧ s2.length < (skip f.at_).length := ht
            have hl1 := h1.length
            split
            · trivial
            · rename_i defaults s3 h3
              have h4 := ((left_skip s2).trans (attDefault_left h3)).trans ((left_skip s3).trans (attValue_left (skip s3)))
              generalize attValue (skip s3) = x at h4 ⊢
              obtain ⟨value, s4⟩ := x
              simp only at h4 ⊢
              have hl4 := h4.length
              split
              · trivial
              · split
                · trivial
                · have hall : Left s s4 := (h1.trans ht1).trans h4
                  have hent : (d.mark type).entities = d.entities := by cases type <;> rfl
                  refine (attlistLoop_sat (d := d.mark type) ?_ (hs.left hall) (by omega)).imp fun x hx => ?_
                  · intro e hm; rw [hent] at hm; exact hd e hm
                  · exact ⟨hall.trans hx.1, by rw [hx.2, hent]⟩
          · trivial
          · rename_i h2; rw [h2] at ht; exact ht
          · rename_i h2; rw [h2] at ht; exact ht
        · rw [he]; trivial

theorem parseAttlist_sat {fuel : Nat} {d : Dtd} {s : List Char} (hd : Names d) (hs : NoReferences s) (hf : s.length < fuel) :
    (parseAttlist fuel d s).Sat fun x => Left s x.2 ∧ x.1.entities = d.entities := by
  unfold parseAttlist
  split
  · trivial
  · rename_i f hg
    have h1 : Left s f.at_ := (left_skip s).trans (getUntil_suffix hg).1
    have := h1.length
    have h := attlistLoop_sat (fuel := fuel) (decls := d.declsOf (toStr f.text)) hd (hs.left h1) (by omega)
    split
    · rename_i h2
      rw [h2] at h
      exact ⟨h1.trans h.1, h.2⟩
    · trivial
    · rename_i h2; rw [h2] at h; exact h
    · rename_i h2; rw [h2] at h; exact h

theorem dtdComments_sat (s : List Char) : (dtdComments s).Sat fun r => Left s r := by
  unfold dtdComments
  have h := Parse.comments_sat false (s.length + 1) ⟨[], none, [], [], []⟩ s (Nat.lt_succ_self _)
  split
  · rename_i h2
    rw [h2] at h
    obtain ⟨t, ls, h1, -⟩ := h
    exact ⟨t, h1.symm⟩
  · trivial
  · rename_i h2; rw [h2] at h; exact h
  · rename_i h2; rw [h2] at h; exact h

theorem declaration_sat {fuel : Nat} {d : Dtd} {s : List Char} (hd : Names d) (hs : NoReferences s) (hf : s.length < fuel)
    {x : Res (Dtd × List Char)} (h : declaration fuel d s = some x) :
    x.Sat fun x => Left s x.2 ∧ x.2.length < s.length ∧ Names x.1 := by
  unfold declaration at h
  split at h
  · cases h
    refine (parseElement_sat d s).imp fun x hx => ⟨hx.1, hx.2.1, ?_⟩
    intro e he; rw [hx.2.2] at he; exact hd e he
  · split at h
    · rename_i s1 h1
      cases h
      have hl := (eat_suffix h1).2
      simp only [List.length_cons, List.length_nil] at hl
      refine (parseAttlist_sat hd (hs.left (left_eat' h1)) (by omega)).imp fun x hx => ⟨(left_eat' h1).trans hx.1, ?_, ?_⟩
      · have := hx.1.length; omega
      · intro e he; rw [hx.2] at he; exact hd e he
    · split at h
      · cases h
        exact parseEntity_sat hd s
      · cases h

theorem parseLoop_sat {fuel : Nat} : ∀ {k it : Nat} {d : Dtd} {s : List Char}, Names d → NoReferences s → s.length < fuel → it ≤ 3 →
    s.length + (3 - it) + 1 < k → (parseLoop fuel k it d s).Sat fun _ => True
  | 0, _, _, _, _, _, _, _, h => by omega
  | k + 1, it, d, s, hd, hs, hf, hit, hk => by
    rw [parseLoop]
    split
    · trivial
    · have hc := dtdComments_sat s
      split
      · rename_i s1 h1
        rw [h1] at hc
        have hc : Left s s1 := hc
        have hl := hc.length
        have hx := fun x (h : declaration fuel d s1 = some x) => declaration_sat hd (hs.left hc) (by omega) h
        split
        · split
          · trivial
          · exact parseLoop_sat hd (hs.left hc) (by omega) (by omega) (by omega)
        · rename_i h2
          obtain ⟨h3, h4, h5⟩ := hx _ h2
          simp only at h3 h4 h5
          exact parseLoop_sat h5 ((hs.left hc).left h3) (by omega) hit (by omega)
        · trivial
        · rename_i h2; exact hx _ h2
        · rename_i h2; exact hx _ h2
      · trivial
      · rename_i h2; rw [h2] at hc; exact hc
      · rename_i h2; rw [h2] at hc; exact hc

theorem declarations_sat {fuel : Nat} {text : List Char} (h : NoReferences text) (hf : text.length < fuel) :
    (declarations fuel text).Sat fun _ => True :=
  parseLoop_sat (by intro e he; cases he) h hf (by omega) (by omega)

/-! ### The root -/

theorem countAll_append : ∀ (a b : List Part), countAll (a ++ b) = countAll a + countAll b
  | [], b => by simp [countAll]
  | p :: a, b => by simp [countAll, countAll_append a b]; omega

theorem countAll_reverse : ∀ (a : List Part), countAll a.reverse = countAll a
  | [] => rfl
  | p :: a => by rw [List.reverse_cons, countAll_append, countAll_reverse a]; simp [countAll]; omega

theorem count_pos : ∀ p : Part, 0 < p.count
  | .node _ _ => by simp [Part.count]
  | .list _ _ _ => by simp [Part.count]

theorem isParentLoop_sat {name : List Char} : ∀ {fuel : Nat} {stack : List Part}, stack ≠ [] → countAll stack < fuel →
    (isParentLoop name fuel stack).Sat fun _ => True
  | 0, _, _, h => by omega
  | fuel + 1, [], h, _ => absurd rfl h
  | fuel + 1, .node t n :: stack, _, h => by
    simp only [countAll, Part.count] at h
    rw [isParentLoop]
    split
    · trivial
    · split
      · trivial
      · rename_i hs
        exact isParentLoop_sat (by simpa using hs) (by omega)
  | fuel + 1, .list k t items :: stack, _, h => by
    simp only [countAll, Part.count] at h
    rw [isParentLoop]
    split
    · trivial
    · rename_i hs
      exact isParentLoop_sat (by simpa [List.isEmpty_iff] using hs) (by rw [countAll_append, countAll_reverse]; omega)

theorem isParent_sat (p c : Element) : (isParent p c).Sat fun _ => True := by
  unfold isParent
  split
  · trivial
  · rename_i l hl
    split
    · trivial
    · rename_i h
      exact isParentLoop_sat (by simpa [List.isEmpty_iff] using h) (by rw [countAll_reverse]; omega)

theorem rootRound_sat : ∀ (es : List Element) (root : Element) (ch : Bool), (rootRound es root ch).Sat fun _ => True
  | [], _, _ => trivial
  | e :: es, root, ch => by
    rw [rootRound]
    have h := isParent_sat e root
    split
    · exact rootRound_sat es _ _
    · exact rootRound_sat es _ _
    · trivial
    · rename_i h2; rw [h2] at h; exact h
    · rename_i h2; rw [h2] at h; exact h

theorem newRoot_ne_ub (es : List Element) : ∀ (fuel : Nat) (root : Element), newRoot es fuel root ≠ .ub
  | 0, _, h => by cases h
  | fuel + 1, root, h => by
    rw [newRoot] at h
    have hs := rootRound_sat es root false
    split at h
    · exact newRoot_ne_ub es fuel _ h
    · cases h
    · cases h
    · rename_i h2; rw [h2] at hs; exact hs
    · cases h

/-- A round that changes the root finds one that is higher. -/
theorem rootRound_higher {es : List Element} {height : List Char → Nat}
    (hh : ∀ p ∈ es, ∀ c ∈ es, p.Mentions c.name → height c.name < height p.name) :
    ∀ {xs : List Element} {root : Element} {ch : Bool} {r : Element} {b : Bool}, (∀ x ∈ xs, x ∈ es) → root ∈ es →
      rootRound xs root ch = .ok (r, b) → r ∈ es ∧ height root.name ≤ height r.name ∧
      (ch = false → b = true → height root.name < height r.name)
  | [], root, ch, r, b, _, hr, h => by
    cases h
    exact ⟨hr, Nat.le_refl _, fun h1 h2 => by rw [h1] at h2; cases h2⟩
  | e :: xs, root, ch, r, b, hx, hr, h => by
    rw [rootRound] at h
    split at h
    · rename_i hp
      have he := hx e (List.mem_cons_self ..)
      have hlt := hh e he root hr ((isParent_ok hp).1 rfl)
      obtain ⟨h1, h2, -⟩ := rootRound_higher hh (fun x hm => hx x (List.mem_cons_of_mem _ hm)) he h
      exact ⟨h1, by omega, fun _ _ => by omega⟩
    · exact rootRound_higher hh (fun x hm => hx x (List.mem_cons_of_mem _ hm)) hr h
    all_goals cases h

theorem exists_bound (height : List Char → Nat) : ∀ es : List Element, ∃ N, ∀ e ∈ es, height e.name ≤ N
  | [] => ⟨0, by simp⟩
  | e :: es => by
    obtain ⟨N, h⟩ := exists_bound height es
    refine ⟨height e.name + N, fun x hx => ?_⟩
    rcases List.mem_cons.1 hx with rfl | hx
    · omega
    · have := h x hx; omega

theorem newRoot_ends {es : List Element} {height : List Char → Nat} {N : Nat}
    (hh : ∀ p ∈ es, ∀ c ∈ es, p.Mentions c.name → height c.name < height p.name) (hN : ∀ e ∈ es, height e.name ≤ N) :
    ∀ {fuel : Nat} {root : Element}, root ∈ es → N < fuel + height root.name → newRoot es fuel root ≠ .loop
  | 0, root, hr, hf, _ => by have := hN root hr; omega
  | fuel + 1, root, hr, hf, h => by
    rw [newRoot] at h
    have hs := rootRound_sat es root false
    split at h
    · rename_i r1 h1
      obtain ⟨h2, -, h3⟩ := rootRound_higher hh (fun x hx => hx) hr h1
      have := h3 rfl rfl
      exact newRoot_ends hh hN h2 (by omega) h
    · cases h
    · cases h
    · cases h
    · rename_i h2; rw [h2] at hs; exact hs

/-! ### The whole -/

theorem expand_ne_ub (d : Dtd) (s : List Char) : expand d s ≠ .ub := by
  unfold expand
  split
  · simp
  · split
    · simp
    · split <;> simp

theorem expand_ne_loop (d : Dtd) (s : List Char) : expand d s ≠ .loop := by
  unfold expand
  split
  · simp
  · split
    · simp
    · split <;> simp

theorem attlistLoop_ne_ub : ∀ (fuel : Nat) (d : Dtd) (decls : List AttDecl) (s : List Char), attlistLoop fuel d decls s ≠ .ub
  | 0, _, _, _, h => by cases h
  | fuel + 1, d, decls, s, h => by
    rw [attlistLoop] at h
    split at h
    · cases h
    · split at h
      · cases h
      · rename_i f _
        split at h
        · rename_i s1 _
          have ht := attType_sat s1
          split at h
          · split at h
            · cases h
            · simp only at h
              split at h
              · cases h
              · split at h
                · cases h
                · exact attlistLoop_ne_ub fuel _ _ _ h
          · cases h
          · rename_i h2; rw [h2] at ht; exact ht
          · cases h
        · cases h
        · rename_i h2; exact expand_ne_ub _ _ h2
        · cases h

theorem declaration_ne_ub {fuel : Nat} {d : Dtd} {s : List Char} : declaration fuel d s ≠ some .ub := by
  intro h
  unfold declaration at h
  split at h
  · have hs := parseElement_sat d s
    rw [Option.some.inj h] at hs
    exact hs
  · split at h
    · have h := Option.some.inj h
      unfold parseAttlist at h
      split at h
      · cases h
      · split at h
        · cases h
        · cases h
        · rename_i h2; exact attlistLoop_ne_ub _ _ _ _ h2
        · cases h
    · split at h
      · have h := Option.some.inj h
        unfold parseEntity at h
        split at h
        · cases h
        simp only at h
        split at h
        · cases h
        split at h
        · cases h
        split at h
        · cases h
        cases h
      · cases h

theorem parseLoop_ne_ub {fuel : Nat} : ∀ (k it : Nat) (d : Dtd) (s : List Char), parseLoop fuel k it d s ≠ .ub
  | 0, _, _, _, h => by cases h
  | k + 1, it, d, s, h => by
    rw [parseLoop] at h
    split at h
    · cases h
    · have hc := dtdComments_sat s
      split at h
      · split at h
        · split at h
          · cases h
          · exact parseLoop_ne_ub _ _ _ _ h
        · exact parseLoop_ne_ub _ _ _ _ h
        · cases h
        · rename_i h2; exact declaration_ne_ub h2
        · cases h
      · cases h
      · rename_i h2; rw [h2] at hc; exact hc
      · cases h

theorem parse_ne_ub (fuel : Nat) (text : List Char) : parse fuel text ≠ .ub := by
  intro h
  unfold parse at h
  split at h
  · rename_i d hd
    unfold conclude at h
    simp only at h
    split at h
    · split at h <;> cases h
    · cases h
    · rename_i h2
      split at h2
      · cases h2
      · split at h2
        · cases h2
        · cases h2
        · rename_i h3; exact newRoot_ne_ub _ _ _ h3
        · cases h2
    · cases h
  · cases h
  · rename_i h2; exact parseLoop_ne_ub _ _ _ _ h2
  · cases h

theorem conclude_ends {es : List Element} (h : Acyclic es) : ∃ N, ∀ (d : Dtd) fuel, d.elements = es → N ≤ fuel → conclude fuel d ≠ .loop := by
  obtain ⟨height, hh⟩ := h
  obtain ⟨N, hN⟩ := exists_bound height es
  refine ⟨N + 1, fun d fuel hd hf hc => ?_⟩
  subst hd
  unfold conclude at hc
  simp only at hc
  split at hc
  · split at hc <;> cases hc
  · cases hc
  · cases hc
  · rename_i h2
    split at h2
    · cases h2
    · rename_i e es he
      split at h2
      · cases h2
      · cases h2
      · cases h2
      · rename_i h3
        exact newRoot_ends hh hN (by rw [he]; exact List.mem_cons_self ..) (by omega) h3

end Axl.Dtd
