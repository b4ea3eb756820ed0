import Verif.Model.BabelParse
import Verif.Spec.BabelParse
import Verif.Proofs.Source
import Verif.Props.Babel

namespace Axl
namespace Babel
open Str Stream Parse FileStream Spec.Encoding Spec.Str Spec.Xml Spec.Utf8

theorem bytes_eq (s : List Char) : bytes s = octets s := rfl
theorem chars_eq (b : List UInt8) : chars b = text b := rfl

theorem octets_text (b : List UInt8) : octets (text b) = b := by
  simp only [octets, text, List.map_map]
  conv => rhs; rw [← List.map_id b]
  apply List.map_congr_left
  intro v _
  have h := v.toNat_lt
  simp only [Function.comp, id]
  rw [toNat_ofNat_small _ (by omega)]
  simp

theorem text_octets {s : List Char} (h : ∀ c ∈ s, c.toNat < 256) : text (octets s) = s := by
  simp only [text, octets, List.map_map]
  conv => rhs; rw [← List.map_id s]
  apply List.map_congr_left
  intro c hc
  have := h c hc
  simp only [Function.comp, id]
  rw [show (UInt8.ofNat c.toNat).toNat = c.toNat by simp; omega, Char.ofNat_toNat]

theorem octets_prefix {s t : List Char} (hs : ∀ c ∈ s, c.toNat < 256) (ht : ∀ c ∈ t, c.toNat < 256) (h : octets s <+: octets t) : s <+: t := by
  obtain ⟨y, hy⟩ := h
  refine ⟨text y, ?_⟩
  rw [← text_octets ht, ← hy]
  conv => lhs; rw [← text_octets hs]
  simp [text]

theorem text_length (b : List UInt8) : (text b).length = b.length := by simp [text]
theorem octets_length (s : List Char) : (octets s).length = s.length := by simp [octets]

/-! ### The name of the encoding -/

theorem rewrites_filter {p : Char} {s out : List Char} (h : Rewrites [p] [] s out) : out = s.filter fun c => c ≠ p := by
  induction h with
  | nil => rfl
  | occurrence _ _ ih => simp [ih]
  | @other c t out hc _ ih =>
    have : c ≠ p := by
      rintro rfl
      rcases hc with h | h
      · simp at h
      · exact h ⟨t, rfl⟩
    simp [this, ih]

theorem remove_char {p : Char} (s tail : List Char) (hs : NUL ∉ s) :
    ∃ rest, remove (s ++ NUL :: tail) [p] false = some ((s.filter fun c => c ≠ p) ++ NUL :: rest) := by
  obtain ⟨out, b', h1, ⟨rest, h2, _⟩, h3⟩ := remove_all_spec s tail [p] hs (by
    rintro ⟨x, y, hx, hy, e, _⟩
    have := congrArg List.length e
    have := List.length_pos_iff.2 hx
    have := List.length_pos_iff.2 hy
    simp at *
    omega)
  exact ⟨rest, by rw [h1, h2, rewrites_filter h3]⟩

theorem normalized_spec {enc n : List Char} (hn : NUL ∉ enc) (h : Named enc n) : normalized enc = some n := by
  obtain ⟨t, ht, rfl⟩ := h
  obtain ⟨t', ht', e⟩ := trimWithSize_spec enc [] hn
  have := trimmed_unique ht ht'
  subst this
  have hnt : NUL ∉ t := by
    obtain ⟨l, r, e, _⟩ := ht
    intro h; exact hn (by simp [e, h])
  obtain ⟨r1, e1⟩ := remove_char (p := '-') t ((enc ++ [NUL]).drop (t.length + 1)) hnt
  have hn1 : NUL ∉ t.filter fun c => c ≠ '-' := fun h => hnt (List.mem_filter.1 h).1
  obtain ⟨r2, e2⟩ := remove_char (p := '_') (t.filter fun c => c ≠ '-') r1 hn1
  unfold normalized
  simp only [Option.bind_eq_bind, e, Option.bind_some, e1, e2, List.map_append, List.map_cons]
  have hz : toLower NUL = NUL := by decide
  rw [hz, toStr_spec]
  · rw [List.filter_filter]
    congr 1
    have : toLower = small := by
      funext c; rfl
    rw [this]
    congr 1
    apply List.filter_congr
    intro c _
    simp [Bool.and_comm]
  · intro h
    obtain ⟨c, hc, e⟩ := List.mem_map.1 h
    have : c = NUL := by
      rcases toLower_of c with ⟨a, b⟩ | h
      · rw [a] at e; exact e
      · obtain ⟨i, hi, _, h⟩ := h
        rw [e] at h
        have := congrArg Char.toNat h
        rw [toNat_ofNat_small _ (by omega)] at this
        simp [NUL] at this
        omega
    subst this
    exact hn1 (List.mem_filter.1 hc).1

/-! ### The parse and its parts -/

/-- The parse without babel, cut at the place where the encoding is configured. -/
theorem same_parse (s : List Char) : same (Parse.parse s) = (do
    let (_, alone, st, s) ← declaration (skipBom s)
    let d ← remaining alone st s
    .ok (some d)) := by
  unfold Parse.parse parseHeader declaration
  cases notZero (inspect (skipBom s) c!"<?") (skipBom s) with
  | none =>
    dsimp only [bind, Res.bind]
    unfold remaining
    cases doctype St.new (skipBom s) with
    | ok p =>
      dsimp only [bind, Res.bind]
      cases body p.1 p.2 with
      | ok st =>
        dsimp only [bind, Res.bind]
        split
        · rfl
        · cases st.root <;> rfl
      | _ => rfl
    | _ => rfl
  | some s =>
    dsimp only [bind, Res.bind]
    cases xmlDecl s with
    | ok p =>
      obtain ⟨enc, alone, s⟩ := p
      dsimp only [bind, Res.bind]
      cases comments false (s.length + 1) St.new s with
      | ok p =>
        obtain ⟨st, s⟩ := p
        dsimp only [bind, Res.bind]
        unfold remaining
        cases doctype st s with
        | ok p =>
          dsimp only [bind, Res.bind]
          cases body p.1 p.2 with
          | ok st =>
            dsimp only [bind, Res.bind]
            split
            · rfl
            · cases st.root <;> rfl
          | _ => rfl
        | _ => rfl
      | _ => rfl
    | _ => rfl

theorem notZero_mark {y : List Char} : notZero (inspect (c!"<?" ++ y) c!"<?") (c!"<?" ++ y) = some y := by
  rw [inspect_append]; rfl

/-- The declaration and its comments, with what is left. -/
theorem declaration_src {x m : List Char} {e : Option (List Char)} {a : Bool} {ls : List Leaf} (hd : Spec.Source.Decl x e a)
    (hm : Misc m ls) (hl : ∀ l ∈ ls, ∃ c, l = .comment c) {s : List Char} (hs : skip s = s) (hn : ¬ c!"<!--" <+: s) :
    declaration (x ++ m ++ s) = .ok (e, a, St.new, s) := by
  obtain ⟨y, h1, h2⟩ := xmlDecl_src hd (m ++ s)
  rw [List.append_assoc, h1]
  unfold declaration
  rw [notZero_mark]
  dsimp only [bind, Res.bind]
  rw [h2]
  dsimp only [bind, Res.bind]
  rw [comments_header hm hl hs hn]

theorem decl_head {x : List Char} {e : Option (List Char)} {a : Bool} (hd : Spec.Source.Decl x e a) : ∃ r, x = c!"<?xml" ++ r := by
  cases hd with
  | mk => exact ⟨_, by simp only [List.append_assoc]; rfl⟩

theorem code_iff {s : List Char} {v k : Nat} : code s v k = true ↔ s[k]? = some (Char.ofNat v) := by
  unfold code; simp

/-- With or without the mark of UTF-8, the parser begins at the declaration. -/
theorem parse_marked {bom x : List Char} (hb : bom = [] ∨ bom = mark8) (hx : ∃ r, x = c!"<?xml" ++ r) (s : List Char) :
    ∃ det, Babel.parse (bom ++ (x ++ s)) = (do
      let (enc, alone, st, s) ← declaration (x ++ s)
      let r ← configureEncoding enc det s
      match r with
      | none => .ok none
      | some s => do
        let d ← remaining alone st s
        .ok (some d)) ∧ skipBom (bom ++ (x ++ s)) = x ++ s := by
  obtain ⟨r, rfl⟩ := hx
  have hsk : skipBom (bom ++ (c!"<?xml" ++ r ++ s)) = c!"<?xml" ++ r ++ s :=
    skipBom_src hb (by intro c t h; simp at h; rw [← h.1]; decide)
  rcases hb with rfl | rfl
  · refine ⟨none, ?_, hsk⟩
    unfold Babel.parse
    have : detect ([] ++ (c!"<?xml" ++ r ++ s)) = .found none 0 := by
      unfold detect
      rw [if_neg (by simp), if_neg (by simp [code]), if_neg (by simp [code]), if_neg (by simp [code]), if_pos (by simp [code])]
    rw [this]
    dsimp only
    have : afterMark ([] ++ (c!"<?xml" ++ r ++ s)) 0 = c!"<?xml" ++ r ++ s := by
      unfold afterMark
      rw [eat_none.2 (by simp)]
      rfl
    rw [this]
    rfl
  · refine ⟨some c!"utf8", ?_, hsk⟩
    unfold Babel.parse
    have : detect (mark8 ++ (c!"<?xml" ++ r ++ s)) = .found (some c!"utf8") 3 := by
      unfold detect
      rw [if_neg (by simp [mark8]), if_pos (by simp [code, mark8])]
    rw [this]
    dsimp only
    have : afterMark (mark8 ++ (c!"<?xml" ++ r ++ s)) 3 = c!"<?xml" ++ r ++ s := by
      unfold afterMark
      rw [show (mark8 ++ (c!"<?xml" ++ r ++ s)).drop 3 = c!"<?xml" ++ r ++ s from rfl, eat_none.2 (by simp)]
    rw [this]
    rfl

/-- A document with a declaration: all depends on what the configuration gives for the rest. -/
theorem parse_declared {bom x m : List Char} (hb : bom = [] ∨ bom = mark8) {e : Option (List Char)} {a : Bool} {ls : List Leaf}
    (hd : Spec.Source.Decl x e a) (hm : Misc m ls) (hl : ∀ l ∈ ls, ∃ c, l = .comment c) {s : List Char} (hs : skip s = s)
    (hn : ¬ c!"<!--" <+: s) : ∃ det, Babel.parse (bom ++ x ++ m ++ s) = (do
      let r ← configureEncoding e det s
      match r with
      | none => .ok none
      | some s => do
        let d ← remaining a St.new s
        .ok (some d)) := by
  obtain ⟨det, h1, _⟩ := parse_marked hb (decl_head hd) (m ++ s)
  refine ⟨det, ?_⟩
  rw [show bom ++ x ++ m ++ s = bom ++ (x ++ (m ++ s)) by simp, h1, show x ++ (m ++ s) = x ++ m ++ s by simp, declaration_src hd hm hl hs hn]
  rfl

theorem same_declared {bom x m : List Char} (hb : bom = [] ∨ bom = mark8) {e : Option (List Char)} {a : Bool} {ls : List Leaf}
    (hd : Spec.Source.Decl x e a) (hm : Misc m ls) (hl : ∀ l ∈ ls, ∃ c, l = .comment c) {s : List Char} (hs : skip s = s)
    (hn : ¬ c!"<!--" <+: s) : same (Parse.parse (bom ++ x ++ m ++ s)) = (do
      let d ← remaining a St.new s
      .ok (some d)) := by
  obtain ⟨_, _, h⟩ := parse_marked hb (decl_head hd) (m ++ s)
  rw [same_parse, show bom ++ x ++ m ++ s = bom ++ (x ++ (m ++ s)) by simp, h, show x ++ (m ++ s) = x ++ m ++ s by simp, declaration_src hd hm hl hs hn]
  rfl

/-! ### What the configuration does -/

theorem cmp_iff {a b : List Char} : cmp (some a) (some b) = true ↔ a = b := by
  simp only [cmp]
  rw [cmpLoop_iff]

open Classical in
theorem setUp_check (s : List Char) : setUp .checked s = .ok (if WellShaped (octets s) then some s else none) := by
  unfold setUp
  have hle : s.length ≤ (bytes s).length := by simp [bytes]
  have h1 := C39_accepts (bytes s) s.length hle
  have h3 := C39_answers (bytes s) s.length hle
  have ht : (bytes s).take s.length = octets s := by
    rw [bytes_eq, List.take_of_length_le (by simp [octets])]
  rw [ht] at h1
  by_cases hw : WellShaped (octets s)
  · rw [h1.2 hw, if_pos hw]; rfl
  · rw [if_neg hw]
    rcases h3 with ⟨h, _⟩ | ⟨k, h, _⟩
    · exact absurd (h1.1 h) hw
    · rw [h]; rfl

theorem configure_utf8 (det : Option (List Char)) : configure (some c!"utf8") det = .checked := by
  unfold configure
  rw [if_pos (cmp_iff.2 rfl)]

theorem tableFor_iso {p : Nat} (hp : p ∈ Spec.Iso8859.parts) : tableFor (some (isoName p)) = tableOf p := by
  unfold tableFor
  simp only [cmp_iff]
  simp only [Spec.Iso8859.parts, List.mem_cons, List.not_mem_nil, or_false] at hp
  rcases hp with rfl | rfl | rfl | rfl | rfl | rfl | rfl | rfl | rfl | rfl <;> simp [isoName]

theorem configure_iso {p : Nat} (hp : p ∈ Spec.Iso8859.parts) (det : Option (List Char)) :
    ∃ t, tableOf p = some t ∧ configure (some (isoName p)) det = .decoded t := by
  obtain ⟨t, ht⟩ := Option.isSome_iff_exists.1 (table_exists p hp)
  refine ⟨t, ht, ?_⟩
  unfold configure
  rw [tableFor_iso hp, ht, if_neg]
  rw [cmp_iff]
  simp [isoName]

theorem configure_none (det : Option (List Char)) : configure none det = .plain := rfl

theorem configure_other {n : List Char} (hn : n ∉ known) (det : Option (List Char)) : configure (some n) det = .plain := by
  have h0 : n ≠ c!"utf8" := fun h => hn (by simp [known, h])
  have h : ∀ p ∈ Spec.Iso8859.parts, n ≠ isoName p := fun p hp h => hn (by simp [known, h]; exact Or.inr ⟨p, hp, rfl⟩)
  simp only [Spec.Iso8859.parts, List.mem_cons, List.not_mem_nil, or_false, forall_eq_or_imp, forall_eq] at h
  unfold configure tableFor
  simp only [cmp_iff]
  simp [isoName] at h
  simp [h0, h]

/-! ### The conversion -/

theorem setUp_decoded {p : Nat} (hp : p ∈ Spec.Iso8859.parts) {t : List (List UInt8)} (ht : tableOf p = some t) (s : List Char) :
    ∃ u, setUp (.decoded t) s = .ok (some u) ∧ CutAt p s u := by
  obtain ⟨taken, rest, h1, h2, h3, h4⟩ := isoDecoder_decodes (entry t) (bytes s) (bytes s).length
  have hlen : (bytes s).length = s.length := by simp [bytes]
  have htl : taken.length ≤ s.length := by
    have := congrArg List.length h1
    simp only [List.length_append] at this
    omega
  have htk : ∀ k, octets (s.take k) = (bytes s).take k := by intro k; simp [octets, bytes]
  refine ⟨text (taken.flatMap (entry t)), ?_, taken.length, htl, ?_, ?_, ?_, ?_⟩
  · unfold setUp
    dsimp only
    have : setupDecode (isoDecoder (entry t)) (newMem (bytes s)) = .ok { newMem (bytes s) with
        decoder := some (isoDecoder (entry t)), tempSize := (bytes s).length * 2 + 1, temp := rest, data := taken.flatMap (entry t) } := by
      unfold setupDecode
      simp only [newMem, List.drop_zero, Nat.sub_zero, h2, List.take_zero, List.nil_append]
    rw [this]
    rfl
  · rw [octets_text, htk, h1, List.take_left, ← table_all hp ht]; rfl
  · rw [octets_text]
  · rw [text_length]; omega
  · cases rest with
    | nil => left; have := congrArg List.length h1; simp only [List.append_nil] at this; omega
    | cons v rest =>
      right
      have := h4 v (by simp)
      rw [htk, h1, List.take_append, List.take_of_length_le (by omega), ← table_all hp ht]
      simp only [all, Nat.add_sub_cancel_left, List.take_succ_cons, List.take_zero, List.flatMap_append, List.flatMap_cons,
        List.flatMap_nil, List.append_nil, List.length_append]
      have := (table_size hp ht v).1
      omega

/-- The bytes of one character converted: the same byte if it is of 7 bits, else none of 1 to 127. -/
theorem converted {p : Nat} (hp : p ∈ Spec.Iso8859.parts) (v : UInt8) :
    (v.toNat < 128 ∧ encode (Spec.Iso8859.text p [v]) = [v]) ∨
    (128 ≤ v.toNat ∧ ∃ h t, encode (Spec.Iso8859.text p [v]) = h :: t ∧ (h = 0 ∨ 128 ≤ h.toNat)) := by
  have key : ∀ p ∈ Spec.Iso8859.parts, ∀ v : Fin 256,
      (v.val < 128 ∧ encode (Spec.Iso8859.text p [UInt8.ofNat v.val]) = [UInt8.ofNat v.val]) ∨
      (128 ≤ v.val ∧ ((encode (Spec.Iso8859.text p [UInt8.ofNat v.val])).head?.any fun h => h = 0 ∨ 128 ≤ h.toNat) = true) := by
    decide +kernel
  have := key p hp ⟨v.toNat, v.toNat_lt⟩
  simp only [UInt8.ofNat_toNat] at this
  rcases this with h | ⟨h1, h2⟩
  · exact Or.inl h
  · right
    refine ⟨h1, ?_⟩
    cases hc : encode (Spec.Iso8859.text p [v]) with
    | nil => simp [hc] at h2
    | cons h t => exact ⟨h, t, rfl, by simpa [hc] using h2⟩

theorem converted_cons (p : Nat) (v : UInt8) (b : List UInt8) :
    encode (Spec.Iso8859.text p (v :: b)) = encode (Spec.Iso8859.text p [v]) ++ encode (Spec.Iso8859.text p b) := by
  simp [encode, Spec.Iso8859.text]

theorem converted_ascii {p : Nat} (hp : p ∈ Spec.Iso8859.parts) : ∀ (b : List UInt8), (∀ v ∈ b, v.toNat < 128) →
    encode (Spec.Iso8859.text p b) = b
  | [], _ => rfl
  | v :: b, h => by
    rw [converted_cons, converted_ascii hp b fun w hw => h w (by simp [hw])]
    rcases converted hp v with ⟨_, e⟩ | ⟨h2, _⟩
    · rw [e]; rfl
    · exact absurd (h v (by simp)) (by omega)

/-- A text of 7 bits at the beginning of what was converted was there before. -/
theorem converted_prefix {p : Nat} (hp : p ∈ Spec.Iso8859.parts) : ∀ (w b : List UInt8), (∀ v ∈ w, v ≠ 0 ∧ v.toNat < 128) →
    w <+: encode (Spec.Iso8859.text p b) → w <+: b
  | [], b, _, _ => List.nil_prefix
  | v :: w, [], _, h => by
    simp [encode, Spec.Iso8859.text] at h
  | v :: w, x :: b, hw, h => by
    rw [converted_cons] at h
    rcases converted hp x with ⟨_, e⟩ | ⟨h2, y, t, e, hy⟩
    · rw [e, List.singleton_append, List.cons_prefix_cons] at h
      rw [List.cons_prefix_cons]
      exact ⟨h.1, converted_prefix hp w b (fun v hv => hw v (by simp [hv])) h.2⟩
    · rw [e, List.cons_append, List.cons_prefix_cons] at h
      have := hw v (by simp)
      rw [h.1] at this
      rcases hy with hy | hy
      · exact absurd hy this.1
      · omega

theorem inspect_no {s chunk : List Char} (hl : chunk.length ≤ s.length) (h : ¬ chunk <+: s) : Stream.inspect s chunk = .no := by
  unfold Stream.inspect
  rw [if_neg (by omega), if_neg (by rw [List.isPrefixOf_iff_prefix]; exact h)]

/-- A text that begins with a byte 0, after `<` or not, is no document. -/
theorem remaining_zero {s r : List Char} (hs : s = '<' :: NUL :: r ∨ s = NUL :: r) (a : Bool) : remaining a St.new s = .error := by
  have hw : ¬ Spec.Xml.White NUL := by unfold Spec.Xml.White; decide
  have hsk : skip s = s := by
    rcases hs with rfl | rfl
    · exact skip_lt _
    · exact skip_cons_not hw
  have h1 : ¬ c!"<!" <+: s := by rcases hs with rfl | rfl <;> simp [NUL]
  have h2 : ¬ c!"<?" <+: s := by rcases hs with rfl | rfl <;> simp [NUL]
  have hopen : openAngle s = some (NUL :: r) := by
    unfold openAngle
    rcases hs with rfl | rfl
    · rw [show '<' :: NUL :: r = c!"<" ++ (NUL :: r) from rfl, eat_append]
    · rw [eat_none.2 (by simp [NUL])]
      simp
  unfold remaining body parseNode
  rw [doctype_no h1]
  dsimp only [bind, Res.bind]
  rw [comments_none (by rw [hsk]; exact fun h => h1 ((show c!"<!" <+: c!"<!--" from ⟨c!"--", rfl⟩).trans h)) (fun _ => by rw [hsk]; exact h2), hsk]
  dsimp only [bind, Res.bind]
  rw [hopen]
  dsimp only
  have : parseTag St.new (NUL :: r) = .error := by
    unfold parseTag
    cases hg : getUntil [c!">", c!" "] (NUL :: r) with
    | none => rfl
    | some f =>
      dsimp only
      obtain ⟨_, _, h⟩ := getUntil_tag hg
      rw [if_pos]
      cases ht : f.text with
      | nil =>
        rcases h with ⟨_, e⟩ | ⟨_, w, hw', e⟩
        · rw [ht, List.nil_append, List.cons.injEq] at e
          exact absurd e.1 (by decide)
        · rw [ht, List.nil_append, List.cons.injEq] at e
          exact absurd (e.1 ▸ hw') hw
      | cons c t =>
        have : c = NUL := by
          rcases h with ⟨_, e⟩ | ⟨_, w, hw', e⟩ <;> rw [ht, List.cons_append, List.cons.injEq] at e <;> exact e.1.symm
        subst this
        simp [toStr]
  rw [this]

/-- What is left of a document after the declaration and the comments: it begins with no white space and no comment. -/
theorem skip_head {s : List Char} (h : ∀ c ∈ s.head?, ¬ Spec.Xml.White c) : skip s = s := by
  cases s with
  | nil => rfl
  | cons c s => exact skip_cons_not (h c rfl)

/-- A declaration with an encoding. -/
theorem decl_of {enc : List Char} (h : '"' ∉ enc ∧ '\'' ∉ enc ∧ Char.ofNat 0 ∉ enc) :
    Spec.Source.Decl (c!"<?xml version='1.0' encoding='" ++ enc ++ c!"'?>") (some enc) false := by
  have := Spec.Source.Decl.mk (b1 := c!" ") (b2 := []) (q := '\'') (by decide) (by simp) (Or.inr rfl)
    (Spec.Source.DeclPart.some (name := c!"encoding") (gap := c!" ") (value := enc) (q := '\'') (by decide) (by simp) (Or.inr rfl) h.1 h.2.1 h.2.2)
    (Spec.Source.DeclPart.none (name := c!"standalone")) (Or.inl rfl) (by decide)
  simpa using this

/-- The names of an encoding. -/
theorem named_of {enc n : List Char} (h : enc.head?.all (fun c => !isWhite c) ∧ enc.getLast?.all (fun c => !isWhite c) ∧
    n = (enc.filter fun c => c ≠ '-' ∧ c ≠ '_').map small) : Named enc n := by
  refine ⟨enc, ⟨[], [], by simp, by simp, by simp, ?_, ?_⟩, h.2.2⟩
  · intro c hc
    have := h.1
    rw [hc] at this
    simp only [Option.all_some, Bool.not_eq_true'] at this
    exact (white_false c).1 this
  · intro c hc
    have := h.2.1
    rw [hc] at this
    simp only [Option.all_some, Bool.not_eq_true'] at this
    exact (white_false c).1 this

end Babel
end Axl
