/-
The rounds given to the parser of DTDs do not change its answer: once it has one, it is the same with more rounds.
-/
import Verif.Proofs.DtdReads

namespace Axl.Dtd
open Str Stream

theorem attlistLoop_mono : ∀ {fuel fuel' : Nat} {d : Dtd} {decls : List AttDecl} {s : List Char}, fuel ≤ fuel' →
    attlistLoop fuel d decls s ≠ .loop → attlistLoop fuel' d decls s = attlistLoop fuel d decls s
  | 0, _, _, _, _, _, h => absurd rfl h
  | fuel + 1, 0, _, _, _, hf, _ => by omega
  | fuel + 1, fuel' + 1, d, decls, s, hf, h => by
    rw [attlistLoop] at h ⊢
    rw [attlistLoop]
    split
    · rfl
    · rename_i he
      rw [he] at h
      simp only at h
      split
      · rfl
      · rename_i f hg
        rw [hg] at h
        simp only at h
        split
        · rename_i s1 hx
          rw [hx] at h
          simp only at h
          split
          · rename_i type s2 ht
            rw [ht] at h
            simp only at h
            split
            · rfl
            · rename_i defaults s3 hd
              rw [hd] at h
              simp only at h ⊢
              split
              · rfl
              · rename_i hi
                rw [if_neg hi] at h
                split
                · rfl
                · rename_i hv
                  rw [if_neg hv] at h
                  exact attlistLoop_mono (by omega) h
          · rfl
          · rfl
          · rfl
        · rfl
        · rfl
        · rfl

theorem declaration_mono {fuel fuel' : Nat} {d : Dtd} {s : List Char} (hf : fuel ≤ fuel') (h : declaration fuel d s ≠ some .loop) :
    declaration fuel' d s = declaration fuel d s := by
  unfold declaration at h ⊢
  split
  · rfl
  · rename_i hp
    rw [if_neg hp] at h
    split
    · rename_i s1 he
      rw [he] at h
      simp only at h
      congr 1
      unfold parseAttlist at h ⊢
      split
      · rfl
      · rename_i f hg
        rw [hg] at h
        simp only at h
        rw [attlistLoop_mono hf]
        intro hl
        rw [hl] at h
        exact h rfl
    · rfl

theorem parseLoop_mono : ∀ {k k' it fuel fuel' : Nat} {d : Dtd} {s : List Char}, fuel ≤ fuel' → k ≤ k' →
    parseLoop fuel k it d s ≠ .loop → parseLoop fuel' k' it d s = parseLoop fuel k it d s
  | 0, _, _, _, _, _, _, _, _, h => absurd rfl h
  | _ + 1, 0, _, _, _, _, _, _, hk, _ => by omega
  | k + 1, k' + 1, it, fuel, fuel', d, s, hf, hk, h => by
    rw [parseLoop] at h ⊢
    rw [parseLoop]
    split
    · rfl
    · rename_i he
      rw [if_neg he] at h
      split
      · rename_i s1 hc
        rw [hc] at h
        simp only at h
        have hd : declaration fuel d s1 ≠ some .loop := by
          intro hl
          rw [hl] at h
          exact h rfl
        rw [declaration_mono hf hd]
        split
        · rename_i hn
          rw [hn] at h
          simp only at h
          split
          · rfl
          · rename_i hi
            rw [if_neg hi] at h
            exact parseLoop_mono hf (by omega) h
        · rename_i d1 s2 hn
          rw [hn] at h
          exact parseLoop_mono hf (by omega) h
        · rfl
        · rfl
        · rfl
      · rfl
      · rfl
      · rfl

theorem declarations_mono {fuel fuel' : Nat} {text : List Char} (hf : fuel ≤ fuel') (h : declarations fuel text ≠ .loop) :
    declarations fuel' text = declarations fuel text := parseLoop_mono hf (by omega) h

theorem newRoot_mono {es : List Element} : ∀ {fuel fuel' : Nat} {root : Element}, fuel ≤ fuel' → newRoot es fuel root ≠ .loop →
    newRoot es fuel' root = newRoot es fuel root
  | 0, _, _, _, h => absurd rfl h
  | fuel + 1, 0, _, hf, _ => by omega
  | fuel + 1, fuel' + 1, root, hf, h => by
    rw [newRoot] at h ⊢
    rw [newRoot]
    split
    · rename_i r hr
      rw [hr] at h
      exact newRoot_mono (by omega) h
    all_goals rfl

theorem conclude_mono {fuel fuel' : Nat} {d : Dtd} (hf : fuel ≤ fuel') (h : conclude fuel d ≠ .loop) : conclude fuel' d = conclude fuel d := by
  unfold conclude at h ⊢
  cases he : d.elements with
  | nil => rfl
  | cons e es =>
    rw [he] at h
    simp only at h ⊢
    rw [newRoot_mono hf]
    intro hl
    rw [hl] at h
    exact h rfl

theorem parse_mono {fuel fuel' : Nat} {text : List Char} (hf : fuel ≤ fuel') (h : parse fuel text ≠ .loop) :
    parse fuel' text = parse fuel text := by
  unfold parse at h ⊢
  have hd : declarations fuel text ≠ .loop := by
    intro hl
    rw [hl] at h
    exact h rfl
  rw [declarations_mono hf hd]
  split
  · rename_i d hd
    rw [hd] at h
    exact conclude_mono hf h
  all_goals rfl

/-- It ends for the texts without references whose elements are not within themselves. -/
theorem parse_ends {text : List Char} (href : NoReferences text)
    (hac : ∀ fuel d, declarations fuel text = .ok d → Acyclic d.elements) : ∃ N, ∀ fuel, N ≤ fuel → parse fuel text ≠ .loop := by
  have h0 : declarations (text.length + 1) text ≠ .loop := by
    intro hl
    have := declarations_sat (fuel := text.length + 1) href (by omega)
    rw [hl] at this
    exact this
  cases hr : declarations (text.length + 1) text with
  | ok d =>
    obtain ⟨N, hN⟩ := conclude_ends (hac _ d hr)
    refine ⟨N + text.length + 1, fun fuel hf => ?_⟩
    unfold parse
    rw [declarations_mono (by omega) h0, hr]
    exact hN d fuel rfl (by omega)
  | error =>
    refine ⟨text.length + 1, fun fuel hf => ?_⟩
    unfold parse
    rw [declarations_mono (by omega) h0, hr]
    simp
  | ub =>
    refine ⟨text.length + 1, fun fuel hf => ?_⟩
    unfold parse
    rw [declarations_mono (by omega) h0, hr]
    simp
  | loop => exact absurd hr h0

end Axl.Dtd
