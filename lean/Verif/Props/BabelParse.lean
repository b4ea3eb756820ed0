/-
C54: the parse of a document in memory after `axl_babel_init`.
-/
import Verif.Proofs.BabelParse

namespace Axl
namespace Babel
open Str Stream Parse Spec.Encoding Spec.Xml Spec.Utf8
open Spec.Source (Decl)

/-- **C54**.  A document that begins in no way known is refused, and the error is filled. -/
theorem C54_unknown {s : List Char} (hl : 4 ≤ s.length) (h : ¬ Begun s) : Babel.parse s = .error := by
  have : detect s = .unknown := by
    match s, hl with
    | a :: b :: c :: d :: r, _ =>
      unfold detect
      simp only [Begun, mark8, mark16, List.cons_prefix_cons, List.nil_prefix, and_true, not_or, not_exists, not_and] at h
      obtain ⟨h1, h2, h3, h4⟩ := h
      have h5 := h4 b (c :: d :: r)
      rw [if_neg (by simp), if_neg, if_neg, if_neg, if_neg, if_neg]
      · simp only [code, Bool.and_eq_true, Bool.not_eq_true', beq_iff_eq, beq_eq_false_iff_ne]
        rintro ⟨⟨g1, g2⟩, g3⟩
        simp at g1 g2 g3
        subst g1
        exact h5 rfl g2 g3
      · simp [code]; rintro rfl rfl rfl rfl; exact h3 rfl rfl rfl rfl
      · simp [code]; rintro rfl rfl; exact absurd rfl (h2 rfl)
      · simp [code]; rintro rfl rfl; exact absurd rfl (h2 rfl)
      · simp [code]; rintro rfl rfl rfl; exact absurd rfl (h1 rfl rfl)
  unfold Babel.parse
  rw [this]

/-- **C54**: not of the code.  A document of less than four bytes is refused and no error is filled. -/
theorem C54_short {s : List Char} (hl : s.length < 4) : Babel.parse s = .ok none := by
  unfold Babel.parse detect
  rw [if_pos hl]

open Classical in
/-- **C54**.  A document that declares UTF-8, by any of its names, with or without the mark: what comes after the declaration
and its comments is read as without babel if it has the form of UTF-8; else there is no document.  Not of the
code: in the last case no error is filled. -/
theorem C54_utf8_partial {bom x m rest enc : List Char} {a : Bool} {ls : List Leaf} (hb : bom = [] ∨ bom = mark8)
    (hd : Decl x (some enc) a) (hz : Char.ofNat 0 ∉ enc) (hn : Named enc c!"utf8") (hm : Misc m ls) (hl : ∀ l ∈ ls, ∃ c, l = .comment c)
    (hw : ∀ c ∈ rest.head?, ¬ White c) (hc : ¬ c!"<!--" <+: rest) :
    Babel.parse (bom ++ x ++ m ++ rest) =
      if WellShaped (octets rest) then same (Parse.parse (bom ++ x ++ m ++ rest)) else .ok none := by
  obtain ⟨det, h⟩ := parse_declared hb hd hm hl (skip_head hw) hc
  rw [h, same_declared hb hd hm hl (skip_head hw) hc]
  unfold configureEncoding
  dsimp only
  rw [normalized_spec hz hn]
  dsimp only [Res.ofOption, bind, Res.bind]
  rw [configure_utf8, setUp_check]
  by_cases hw : WellShaped (octets rest)
  · rw [if_pos hw, if_pos hw]
  · rw [if_neg hw, if_neg hw]

/-- **C54**.  A document that declares no encoding, or one that is not known: it is read as without babel. -/
theorem C54_other {bom x m rest : List Char} {e : Option (List Char)} {a : Bool} {ls : List Leaf} (hb : bom = [] ∨ bom = mark8)
    (hd : Decl x e a) (hz : ∀ enc ∈ e, Char.ofNat 0 ∉ enc ∧ ∃ n, Named enc n ∧ n ∉ known) (hm : Misc m ls) (hl : ∀ l ∈ ls, ∃ c, l = .comment c)
    (hw : ∀ c ∈ rest.head?, ¬ White c) (hc : ¬ c!"<!--" <+: rest) :
    Babel.parse (bom ++ x ++ m ++ rest) = same (Parse.parse (bom ++ x ++ m ++ rest)) := by
  obtain ⟨det, h⟩ := parse_declared hb hd hm hl (skip_head hw) hc
  rw [h, same_declared hb hd hm hl (skip_head hw) hc]
  unfold configureEncoding
  cases e with
  | none =>
    dsimp only
    rw [configure_none]
    rfl
  | some enc =>
    obtain ⟨hz, n, hn, hk⟩ := hz enc rfl
    dsimp only
    rw [normalized_spec hz hn]
    dsimp only [Res.ofOption, bind, Res.bind]
    rw [configure_other hk]
    rfl

/-- **C54**.  A document without declaration: it is read as without babel. -/
theorem C54_undeclared {bom s : List Char} (hb : bom = [] ∨ bom = mark8) {c : Char} {r : List Char} (hs : s = '<' :: c :: r)
    (hc : c ≠ '<' ∧ c ≠ '>' ∧ c ≠ '?') (hl : 4 ≤ (bom ++ s).length) : Babel.parse (bom ++ s) = same (Parse.parse (bom ++ s)) := by
  have hsk : skipBom (bom ++ s) = s := skipBom_src hb (by rintro d t h; rw [hs] at h; simp at h; rw [← h.1]; decide)
  have hde : declaration s = .ok (none, false, St.new, s) := by
    subst hs
    unfold declaration
    have : inspect ('<' :: c :: r) c!"<?" = .no := inspect_no (by simp) (by simp [hc.2.2.symm])
    rw [this]
    rfl
  have hdet : ∃ det k, detect (bom ++ s) = .found det k ∧ afterMark (bom ++ s) k = s := by
    subst hs
    rcases hb with rfl | rfl
    · refine ⟨none, 0, ?_, ?_⟩
      · unfold detect
        rw [if_neg (by simpa using hl), if_neg (by simp [code]), if_neg (by simp [code]), if_neg (by simp [code]), if_neg (by simp [code, hc]),
          if_pos (by simp [code, hc])]
      · unfold afterMark
        rw [eat_none.2 (by simp)]
        rfl
    · refine ⟨some c!"utf8", 3, ?_, ?_⟩
      · unfold detect
        rw [if_neg (by simp [mark8]), if_pos (by simp [code, mark8])]
      · unfold afterMark
        rw [show (mark8 ++ '<' :: c :: r).drop 3 = '<' :: c :: r from rfl, eat_none.2 (by simp)]
  obtain ⟨det, k, h1, h2⟩ := hdet
  rw [same_parse, hsk, hde]
  unfold Babel.parse
  rw [h1]
  dsimp only
  rw [h2, hde]
  dsimp only [bind, Res.bind, configureEncoding]
  rw [configure_none]
  rfl

/-- **C54**.  A document that declares a part of ISO 8859: what comes after the declaration and its comments is read, without
babel, from its conversion to UTF-8.  Not of the code: the conversion is cut to the size that it had before. -/
theorem C54_iso_partial {part : Nat} (hp : part ∈ Spec.Iso8859.parts) {bom x m rest enc : List Char} {a : Bool} {ls : List Leaf}
    (hb : bom = [] ∨ bom = mark8) (hd : Decl x (some enc) a) (hz : Char.ofNat 0 ∉ enc) (hn : Named enc (isoName part)) (hm : Misc m ls)
    (hl : ∀ l ∈ ls, ∃ c, l = .comment c) (hw : ∀ c ∈ rest.head?, ¬ White c) (hc : ¬ c!"<!--" <+: rest) (h8 : ∀ c ∈ rest, c.toNat < 256) :
    ∃ u, CutAt part rest u ∧ Babel.parse (bom ++ x ++ m ++ rest) = same (Parse.parse (bom ++ x ++ m ++ u)) := by
  obtain ⟨det, h⟩ := parse_declared hb hd hm hl (skip_head hw) hc
  obtain ⟨t, ht, hcf⟩ := configure_iso hp det
  obtain ⟨u, hu, hcut⟩ := setUp_decoded hp ht rest
  refine ⟨u, hcut, ?_⟩
  have hpre : ∀ w : List Char, (∀ c ∈ w, c ≠ NUL ∧ c.toNat < 128) → w <+: u → w <+: rest := by
    intro w hw hpu
    obtain ⟨k, hk, e1, e2, _⟩ := hcut
    have h1 : octets w <+: octets u := by
      obtain ⟨y, rfl⟩ := hpu
      exact ⟨octets y, by simp [octets]⟩
    rw [e1] at h1
    have h2 := converted_prefix hp _ _ (by
      intro v hv
      obtain ⟨c, hc, rfl⟩ := List.mem_map.1 hv
      have hc := hw c hc
      have : (UInt8.ofNat c.toNat).toNat = c.toNat := by simp; omega
      refine ⟨?_, by omega⟩
      intro h0
      rw [h0] at this
      refine hc.1 (Char.toNat_inj.1 ?_)
      rw [← this]; rfl) h1
    have h3 : octets w <+: octets rest := h2.trans (by
      refine ⟨octets (rest.drop k), ?_⟩
      simp only [octets, ← List.map_append, List.take_append_drop])
    exact octets_prefix (fun c hc => by have := (hw c hc).2; omega) h8 h3
  have hw' : ∀ c ∈ u.head?, ¬ White c := by
    intro c hcu hwc
    have h1 : [c] <+: u := by
      cases u with
      | nil => cases hcu
      | cons d u => cases hcu; exact ⟨u, rfl⟩
    obtain ⟨y, hy⟩ := hpre [c] (by
      intro d hd
      rw [List.mem_singleton.1 hd]
      rcases hwc with rfl | rfl | rfl | rfl <;> decide) h1
    exact hw c (by rw [← hy]; rfl) hwc
  have hc' : ¬ c!"<!--" <+: u := fun h => hc (hpre _ (by decide) h)
  rw [h, same_declared hb hd hm hl (skip_head hw') hc']
  unfold configureEncoding
  dsimp only
  rw [normalized_spec hz hn]
  dsimp only [Res.ofOption, bind, Res.bind]
  rw [hcf, hu]

/-- **C54**.  When what comes after the declaration and its comments has only bytes of 7 bits, nothing is cut: a document that
declares a part of ISO 8859 is read as without babel. -/
theorem C54_iso_seven_bits {part : Nat} (hp : part ∈ Spec.Iso8859.parts) {bom x m rest enc : List Char} {a : Bool} {ls : List Leaf}
    (hb : bom = [] ∨ bom = mark8) (hd : Decl x (some enc) a) (hz : Char.ofNat 0 ∉ enc) (hn : Named enc (isoName part)) (hm : Misc m ls)
    (hl : ∀ l ∈ ls, ∃ c, l = .comment c) (hw : ∀ c ∈ rest.head?, ¬ White c) (hc : ¬ c!"<!--" <+: rest) (h7 : ∀ c ∈ rest, c.toNat < 128) :
    Babel.parse (bom ++ x ++ m ++ rest) = same (Parse.parse (bom ++ x ++ m ++ rest)) := by
  obtain ⟨u, ⟨k, hk, h1, h2, h3, h4⟩, h⟩ := C54_iso_partial hp hb hd hz hn hm hl hw hc fun c h => by have := h7 c h; omega
  have hv : ∀ j, ∀ v ∈ octets (rest.take j), v.toNat < 128 := by
    intro j v hv
    obtain ⟨c, hc, rfl⟩ := List.mem_map.1 hv
    have := h7 c (List.mem_of_mem_take hc)
    simp; omega
  have hk : k = rest.length := by
    rcases h4 with h | h
    · exact h
    · rw [converted_ascii hp _ (hv _)] at h
      simp [octets] at h
      omega
  rw [converted_ascii hp _ (hv _), hk, List.take_length] at h1
  have : u = rest := by
    rw [h2, h1]
    exact text_octets fun c hc => by have := h7 c hc; omega
  rw [h, this]

/-- **C54**.  A text in UTF-16 with its mark, or in UTF-32: it is refused and the error is filled. -/
theorem C54_utf16 {s r : List Char} (hs : s = mark16 ++ '<' :: Char.ofNat 0 :: r ∨ s = mark16 ++ Char.ofNat 0 :: r) (hl : 4 ≤ s.length) :
    Babel.parse s = .error := by
  obtain ⟨t, rfl, ht⟩ : ∃ t, s = mark16 ++ t ∧ (t = '<' :: NUL :: r ∨ t = NUL :: r) := by
    rcases hs with h | h
    · exact ⟨_, h, Or.inl rfl⟩
    · exact ⟨_, h, Or.inr rfl⟩
  have h2 : 2 ≤ t.length := by simp [mark16] at hl; omega
  have hdet : detect (mark16 ++ t) = .found (some c!"utf16") 2 := by
    unfold detect
    rw [if_neg (by omega), if_neg (by simp [code, mark16]), if_pos (by simp [code, mark16])]
  have hmark : afterMark (mark16 ++ t) 2 = t := by
    unfold afterMark
    rw [show (mark16 ++ t).drop 2 = t from rfl, eat_none.2 (by rcases ht with rfl | rfl <;> simp [NUL])]
  have hde : declaration t = .ok (none, false, St.new, t) := by
    unfold declaration
    have : inspect t c!"<?" = .no := inspect_no h2 (by rcases ht with rfl | rfl <;> simp [NUL])
    rw [this]
    rfl
  unfold Babel.parse
  rw [hdet]
  dsimp only
  rw [hmark, hde]
  dsimp only [bind, Res.bind, configureEncoding]
  rw [configure_none]
  dsimp only [setUp]
  rw [remaining_zero ht]

/-- `UTF-8` and a content of UTF-8 are accepted. -/
example : Babel.parse c!"<?xml version='1.0' encoding='UTF-8'?><a>\xC3\xA9</a>" =
    same (Parse.parse c!"<?xml version='1.0' encoding='UTF-8'?><a>\xC3\xA9</a>") ∧
    (Babel.parse c!"<?xml version='1.0' encoding='UTF-8'?><a>\xC3\xA9</a>").toOption.bind (·.bind (·.encoding)) = some c!"utf-8" := by
  refine ⟨?_, by decide +kernel⟩
  have := C54_utf8_partial (bom := []) (m := []) (rest := c!"<a>\xC3\xA9</a>") (Or.inl rfl) (decl_of (enc := c!"UTF-8") (by decide)) (by decide)
    (named_of (by decide)) .nil (by simp) (by decide) (by decide)
  rw [if_pos] at this
  · exact this
  · exact (C39_accepts (octets c!"<a>\xC3\xA9</a>") 9 (by decide)).1 (by decide +kernel)

/-- `ISO_8859-15` with 7 bits. -/
example : Babel.parse c!"<?xml version='1.0' encoding='ISO_8859-15'?><!-- c --><a>b</a>" =
    same (Parse.parse c!"<?xml version='1.0' encoding='ISO_8859-15'?><!-- c --><a>b</a>") :=
  C54_iso_seven_bits (part := 15) (by decide) (bom := []) (m := c!"<!-- c -->") (rest := c!"<a>b</a>") (Or.inl rfl)
    (decl_of (enc := c!"ISO_8859-15") (by decide)) (by decide) (named_of (by decide))
    (.comment (u := []) (t := c!"<!-- c -->") (.mk (text := c!" c ") (by decide) (by unfold UpTo; decide)) .nil) (by simp) (by decide) (by decide) (by decide)

/-- `iso-8859-1` with a character of two bytes and white spaces at the end: nothing is lost but white spaces. -/
example : ∃ u, CutAt 1 c!"<a>\xE9</a>  " u ∧ Babel.parse c!"<?xml version='1.0' encoding='iso-8859-1'?><a>\xE9</a>  " =
    same (Parse.parse (c!"<?xml version='1.0' encoding='iso-8859-1'?>" ++ u)) ∧
    (Babel.parse c!"<?xml version='1.0' encoding='iso-8859-1'?><a>\xE9</a>  ").toOption.isSome := by
  obtain ⟨u, h1, h2⟩ := C54_iso_partial (part := 1) (by decide) (bom := []) (m := []) (rest := c!"<a>\xE9</a>  ") (Or.inl rfl)
    (decl_of (enc := c!"iso-8859-1") (by decide)) (by decide) (named_of (by decide)) .nil (by simp) (by decide) (by decide) (by decide)
  exact ⟨u, h1, by simpa using h2, by decide +kernel⟩

/-- `<a/>` in UTF-16. -/
example : Babel.parse (mark16 ++ c!"<\x00a\x00/\x00>\x00") = .error := C54_utf16 (Or.inl rfl) (by decide)

/-- **C54**: not of the code.  A document with the mark of UTF-8 and no declaration is not checked: it is accepted with a byte
that has no place in UTF-8. -/
theorem C54_mark_not_checked :
    Babel.parse (mark8 ++ c!"<a>\xFF</a>") = same (Parse.parse (mark8 ++ c!"<a>\xFF</a>")) ∧
      (Parse.parse (mark8 ++ c!"<a>\xFF</a>")).toOption.isSome ∧ ¬ WellShaped (octets c!"<a>\xFF</a>") := by
  refine ⟨C54_undeclared (Or.inr rfl) (c := 'a') rfl (by decide) (by decide), by decide +kernel, ?_⟩
  intro h
  exact absurd ((C39_accepts (octets c!"<a>\xFF</a>") 8 (by decide)).2 h) (by decide +kernel)

/-- **C54**: not of the code.  The content of an encoding not known is not changed, and the document says that it is in UTF-8. -/
theorem C54_unknown_encoding :
    Babel.parse c!"<?xml version='1.0' encoding='koi8-r'?><a>\xC1</a>" = same (Parse.parse c!"<?xml version='1.0' encoding='koi8-r'?><a>\xC1</a>") ∧
      (Babel.parse c!"<?xml version='1.0' encoding='koi8-r'?><a>\xC1</a>").toOption.bind (·.bind (·.encoding)) = some c!"utf-8" := by
  refine ⟨?_, by decide +kernel⟩
  exact C54_other (bom := []) (m := []) (rest := c!"<a>\xC1</a>") (Or.inl rfl) (decl_of (enc := c!"koi8-r") (by decide))
    (by rintro enc ⟨⟩; exact ⟨by decide, c!"koi8r", named_of (by decide), by decide⟩) .nil (by simp) (by decide) (by decide)

/-- **C54**: not of the code.  White spaces before the root, that the parser skips, are not known by babel. -/
theorem C54_white_before : Babel.parse c!" <a/>" = .error ∧ (Parse.parse c!" <a/>").toOption.isSome := by
  refine ⟨C54_unknown (by decide) ?_, by decide +kernel⟩
  unfold Begun
  simp [mark8, mark16]

/-- **C54**.  One mark is skipped, with babel as without it: the bytes of a second one are the beginning of the name of the
root. -/
theorem C54_second_mark :
    (Babel.parse (mark8 ++ (mark8 ++ c!"<a/>"))).toOption.bind (·.map (·.root.name)) = some (mark8 ++ c!"<a") ∧
      (Parse.parse (mark8 ++ (mark8 ++ c!"<a/>"))).toOption.map (·.root.name) = some (mark8 ++ c!"<a") := by
  decide +kernel

/-- **C54**: not of the code.  One character of two bytes is enough to lose the end of a document in ISO 8859-1. -/
theorem C54_cut :
    (Babel.parse c!"<?xml version='1.0' encoding='iso-8859-1'?><a>\xE9</a>").isError ∧
      (Parse.parse c!"<?xml version='1.0' encoding='iso-8859-1'?><a>\xE9</a>").toOption.isSome := by
  decide +kernel

/-- **C54**: not of the code.  No error is filled for a byte that has no place in UTF-8. -/
theorem C54_no_error : Babel.parse c!"<?xml version='1.0' encoding='UTF-8'?><a>\xFF</a>" = .ok none := by
  have := C54_utf8_partial (bom := []) (m := []) (rest := c!"<a>\xFF</a>") (Or.inl rfl) (decl_of (enc := c!"UTF-8") (by decide)) (by decide)
    (named_of (by decide)) .nil (by simp) (by decide) (by decide)
  rw [if_neg] at this
  · exact this
  · intro h
    exact absurd ((C39_accepts (octets c!"<a>\xFF</a>") 8 (by decide)).2 h) (by decide +kernel)

end Babel
end Axl
