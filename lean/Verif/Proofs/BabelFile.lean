/-
Proofs about a document read from a file after `axl_babel_init`: the parser over the file does what the one over
memory does.
-/
import Verif.Model.BabelFile
import Verif.Proofs.FileWhole
import Verif.Proofs.BabelParse
import Verif.Proofs.DtdReads
import Verif.Spec.BabelFile

namespace Axl
namespace BabelFile
open Str Parse FileParse FileStream Spec.FileStream Spec.Encoding
open Babel (Config bytes)

section
variable {strict : Prop} {R0 R : List Char → FS Char → Prop} {far : List Char → Prop}

/-- The declaration, in both. -/
theorem declaration_sim (h0 : Reads strict R0) (h : Reads strict R) (hm : Multi R) {l rest : List Char} {s : FS Char}
    (hlook : ∃ k s', look (skipBom s) c!"<?" = .ok (k, s') ∧
      FileParse.notZero k = (Parse.notZero (Stream.inspect l c!"<?") l).isSome ∧
      R0 ((Parse.notZero (Stream.inspect l c!"<?") l).getD l) s')
    (hstart : strict ∧ rest = l ∨ Parse.notZero (Stream.inspect l c!"<?") l = none ∧ rest = l ∨
      ∃ l1, Parse.notZero (Stream.inspect l c!"<?") l = some l1 ∧ Decl l1 rest)
    (conv : ∀ r s, R0 r s → r <:+ rest → R r s) (hrest : rest <:+ l) :
    Sim strict (fun a b => On3 R a b ∧ a.2.2.2 <:+ l) (Babel.declaration l) (declaration s) := by
  unfold Babel.declaration declaration
  obtain ⟨k, s1, e1, z1, m1⟩ := hlook
  rw [e1, ok_bind]
  simp only
  rw [z1]
  cases hz : Parse.notZero (Stream.inspect l c!"<?") l with
  | none =>
    rw [hz] at m1 hstart
    simp only [Option.isSome_none, Bool.false_eq_true, if_false, Option.getD_none] at m1 ⊢
    have hrl : rest = l := by
      rcases hstart with ⟨-, e⟩ | ⟨-, e⟩ | ⟨l1, e, -⟩
      · exact e
      · exact e
      · simp at e
    have hR1 := conv _ _ m1 (by rw [hrl]; exact List.suffix_refl _)
    exact Sim.ok ⟨⟨rfl, rfl, rfl, hR1⟩, List.suffix_refl _⟩
  | some l1 =>
    rw [hz] at m1 hstart
    simp only [Option.isSome_some, if_true, Option.getD_some] at m1 ⊢
    have hl1 : l1 <:+ l := by
      cases hi : Stream.inspect l c!"<?" with
      | yes r =>
        rw [hi] at hz
        simp only [Parse.notZero, Option.some.injEq] at hz
        exact hz ▸ eat_suf (chunk := c!"<?") (by simp [Stream.eat, hi])
      | short =>
        rw [hi] at hz
        simp only [Parse.notZero, Option.some.injEq] at hz
        exact hz ▸ List.suffix_refl _
      | no => rw [hi] at hz; simp [Parse.notZero] at hz
    have hd : strict ∨ ∃ rest, Decl l1 rest := by
      rcases hstart with ⟨e, -⟩ | ⟨e, -⟩ | ⟨l1', e, hd⟩
      · exact .inl e
      · simp at e
      · simp only [Option.some.injEq] at e
        exact .inr ⟨rest, e ▸ hd⟩
    have hs := xmlDecl_sim h0 m1 hd
    cases hx : Parse.xmlDecl l1 with
    | ok x =>
      obtain ⟨enc, alone, l2⟩ := x
      rw [hx] at hs
      obtain ⟨⟨enc', alone', s2⟩, e2, rfl, rfl, m2⟩ := hs
      have hl2 : l2 <:+ rest := by
        rcases hstart with ⟨-, e⟩ | ⟨e, -⟩ | ⟨l1', e, hd⟩
        · rw [e]; exact (xmlDecl_suf hx).trans hl1
        · simp at e
        · simp only [Option.some.injEq] at e
          subst e
          rw [xmlDecl_eq hd] at hx
          exact memDeclEnd_suf hx
      have hR2 := conv _ _ m2 hl2
      have hl2' : l2 <:+ l := hl2.trans hrest
      rw [e2]
      simp only [ok_bind]
      rw [h.left hR2]
      have hs3 := comments_sim h hm false (l2.length + 1) St.new hR2
      cases hx3 : Parse.comments false (l2.length + 1) St.new l2 with
      | ok x =>
        obtain ⟨st3, l3⟩ := x
        rw [hx3] at hs3
        obtain ⟨⟨st3', s3⟩, e3, rfl, m3⟩ := hs3
        rw [e3]
        simp only [ok_bind]
        exact Sim.ok ⟨⟨rfl, rfl, rfl, m3⟩, (comments_suf _ hx3).1.trans hl2'⟩
      | error => rw [hx3] at hs3; intro q; rw [hs3 q]; rfl
      | ub => rw [hx3] at hs3; intro q; rw [hs3 q]; rfl
      | loop => rw [hx3] at hs3; intro q; rw [hs3 q]; rfl
    | error => rw [hx] at hs; intro q; rw [hs q]; rfl
    | ub => rw [hx] at hs; intro q; rw [hs q]; rfl
    | loop => rw [hx] at hs; intro q; rw [hs q]; rfl

/-- What is after the configuration, in both. -/
theorem remaining_sim (h : Reads strict R) (hm : Multi R) (hb : BlankEnd strict R) (hk : Back far strict R) {text : List Char}
    (ht : LeadBut far text) (alone : Bool) (st : St) {l : List Char} {s : FS Char} (hl : l <:+ text) (hR : R l s) :
    Sim strict Eq (Babel.remaining alone st l) (remaining alone st s) := by
  unfold Babel.remaining remaining
  have hs := doctype_sim h hm st hR
  cases hx : Parse.doctype st l with
  | ok x =>
    obtain ⟨st1, l1⟩ := x
    rw [hx] at hs
    obtain ⟨⟨st1', s2⟩, e2, rfl, m2⟩ := hs
    rw [e2]
    simp only [ok_bind]
    refine Sim.bind (body_sim h hm hb hk ht st1 ((doctype_suf hx).trans hl) m2) ?_
    rintro st1 st2 rfl
    split
    · exact Sim.error
    · cases st1.root with
      | none => exact Sim.ub
      | some root => exact Sim.ok rfl
  | error => rw [hx] at hs; intro q; rw [hs q]; rfl
  | ub => rw [hx] at hs; intro q; rw [hs q]; rfl
  | loop => rw [hx] at hs; intro q; rw [hs q]; rfl

end

/-! ### The encoding that is declared -/

theorem toStr_prefix (v : List Char) : ∃ t, v = toStr v ++ t := ⟨v.dropWhile (· ≠ NUL), (List.takeWhile_append_dropWhile).symm⟩

theorem encoding_at {l r e : List Char} (h : Parse.encoding l = .ok (some e, r)) :
    (∃ q rest, l = c!"encoding=" ++ q :: (e ++ rest)) ∧ NUL ∉ e := by
  have hv : ∀ {x v y : List Char}, Parse.headerValue x = some (v, y) → ∃ t, x = toStr v ++ t := by
    intro x v y hx
    unfold Parse.headerValue at hx
    split at hx
    · simp at hx
    · rename_i f hf
      simp only [Option.some.injEq, Prod.mk.injEq] at hx
      obtain ⟨c, r, n, -, h2, -⟩ := Stream.getUntil_some hf
      obtain ⟨t, ht⟩ := toStr_prefix v
      refine ⟨t ++ c :: r, ?_⟩
      rw [h2, hx.1, ← List.append_assoc, ← ht]
  have hy : ∀ {x c y : List Char}, Stream.inspect x c = .yes y → x = c ++ y := by
    intro x c y hx
    exact eat_some_iff.1 (by simp [Stream.eat, hx])
  unfold Parse.encoding at h
  split at h
  · rename_i x hx
    split at h
    · simp at h
    · rename_i v y hvy
      simp only [Res.ok.injEq, Prod.mk.injEq, Option.some.injEq] at h
      obtain ⟨t, ht⟩ := hv hvy
      refine ⟨?_, ?_⟩
      · unfold Stream.inspectTwo at hx
        split at hx
        · rename_i y' hy'
          cases hx
          exact ⟨'"', t, by rw [hy hy', ht, h.1]; rfl⟩
        · cases hx
        · exact ⟨'\'', t, by rw [hy hx, ht, h.1]; rfl⟩
      · rw [← h.1]
        intro hn
        have : ∀ (v : List Char), NUL ∉ toStr v := by
          intro v
          induction v with
          | nil => simp [toStr]
          | cons c v ih =>
            unfold toStr at ih ⊢
            rw [List.takeWhile_cons]
            split
            · rename_i hc
              simp only [List.mem_cons, not_or]
              exact ⟨fun e => by simp [← e] at hc, ih⟩
            · simp
        exact this v hn
  · simp at h

theorem notZero_suf {x y z : List Char} (hx : Parse.notZero (Stream.inspect x y) x = some z) : z <:+ x := by
  cases hi : Stream.inspect x y with
  | yes r =>
    rw [hi] at hx
    simp only [Parse.notZero, Option.some.injEq] at hx
    exact hx ▸ eat_suf (chunk := y) (by simp [Stream.eat, hi])
  | short =>
    rw [hi] at hx
    simp only [Parse.notZero, Option.some.injEq] at hx
    exact hx ▸ List.suffix_refl _
  | no => rw [hi] at hx; simp [Parse.notZero] at hx

theorem notZero_suf2 {x y y' z : List Char} (hx : Parse.notZero (Stream.inspectTwo x y y') x = some z) : z <:+ x := by
  unfold Stream.inspectTwo at hx
  cases hi : Stream.inspect x y with
  | yes r =>
    rw [hi] at hx
    exact notZero_suf (y := y) (by rw [hi]; exact hx)
  | short =>
    rw [hi] at hx
    exact notZero_suf (y := y) (by rw [hi]; exact hx)
  | no => rw [hi] at hx; exact notZero_suf hx

theorem xmlDecl_enc {l r e : List Char} {b : Bool} (h : Parse.xmlDecl l = .ok (some e, b, r)) :
    ∃ x y, x <:+ l ∧ Parse.encoding x = .ok (some e, y) := by
  unfold Parse.xmlDecl at h
  split at h
  · simp at h
  · rename_i l1 he
    split at h
    · simp at h
    · rename_i l2 h2
      split at h
      · simp at h
      · rename_i l3 h3
        obtain ⟨⟨e1, x1⟩, h4, h⟩ := bind_ok h
        obtain ⟨⟨b1, x2⟩, h5, h⟩ := bind_ok h
        simp only at h
        split at h
        · simp at h
        · simp only [Res.ok.injEq, Prod.mk.injEq] at h
          refine ⟨_, x1, (skip_suf _).trans ((notZero_suf2 h3).trans ((skip_suf _).trans ((notZero_suf h2).trans
            ((skip_suf _).trans (eat_suf he))))), ?_⟩
          rw [h4, h.1]

/-- The encoding that the declaration gives is written in it. -/
theorem declaration_enc {l r e : List Char} {a : Bool} {st : St} (h : Babel.declaration l = .ok (some e, a, st, r)) :
    (∃ pre q rest, l = pre ++ c!"encoding=" ++ q :: (e ++ rest)) ∧ NUL ∉ e := by
  unfold Babel.declaration at h
  split at h
  · rename_i l1 h1
    obtain ⟨⟨e1, b1, x1⟩, h2, h⟩ := bind_ok h
    obtain ⟨⟨st1, x2⟩, h3, h⟩ := bind_ok h
    simp only [Res.ok.injEq, Prod.mk.injEq] at h
    rw [h.1] at h2
    obtain ⟨x, y, hs, hx⟩ := xmlDecl_enc h2
    obtain ⟨⟨q, rest, hq⟩, hn⟩ := encoding_at hx
    obtain ⟨pre, hp⟩ := hs.trans (notZero_suf h1)
    exact ⟨⟨pre, q, rest, by rw [← hp, hq]; simp⟩, hn⟩
  · simp at h

theorem configure_cases {n : List Char} (h : ∀ p ∈ Spec.Iso8859.parts, n ≠ isoName p) (det : Option (List Char)) :
    Babel.configure (some n) det = .checked ∨ Babel.configure (some n) det = .plain := by
  by_cases h0 : n = c!"utf8"
  · exact .inl (h0 ▸ Babel.configure_utf8 det)
  · refine .inr (Babel.configure_other ?_ det)
    simp only [known, List.mem_cons, List.mem_map, not_or, not_exists, not_and]
    exact ⟨h0, fun p hp e => h p hp e.symm⟩

theorem named_exists {e : List Char} (he : NUL ∉ e) : ∃ n, Named e n ∧ Babel.normalized e = some n := by
  obtain ⟨t, ht, -⟩ := trimWithSize_spec e [] he
  exact ⟨_, ⟨t, ht, rfl⟩, Babel.normalized_spec he ⟨t, ht, rfl⟩⟩

/-! ### The check -/

theorem isUtf8_iff (l : List Char) : isUtf8 l = true ↔ Spec.Utf8.WellShaped (octets l) := by
  unfold isUtf8
  have hle : l.length ≤ (bytes l).length := by simp [bytes]
  have h := C39_accepts (bytes l) l.length hle
  have ht : (bytes l).take l.length = octets l := by
    rw [Babel.bytes_eq, List.take_of_length_le (by simp [octets])]
  rw [ht] at h
  rw [← h]
  simp

theorem wellShaped_seven {l : List Char} (h : SevenBits l) : Spec.Utf8.WellShaped (octets l) := by
  induction l with
  | nil => exact Babel.wellShaped_nil
  | cons c l ih =>
    have hc := h c (by simp)
    show Spec.Utf8.WellShaped ([UInt8.ofNat c.toNat] ++ octets l)
    refine Babel.wellShaped_append (Babel.wellShaped_one ?_) (ih fun d hd => h d (by simp [hd]))
    simp only [Spec.Utf8.Shaped, UInt8.toNat_ofNat']
    omega

/-! ### The configuration, in both -/

/-- Both give nothing, or the second one a stream for the text of the first one. -/
def Given (R : List Char → FS Char → Prop) (l : List Char) (a : Option (List Char)) (b : Option (FS Char)) : Prop :=
  (a = none ∧ b = none) ∨ (∃ s, a = some l ∧ b = some s ∧ R l s)

theorem setUp_sim {strict : Prop} {R : List Char → FS Char → Prop} {c : Config} (hc : c = .checked ∨ c = .plain) {l : List Char} {s : FS Char} (hR : R l s)
    (hch : c = .checked → isUtf8 (s.data.drop s.index) = isUtf8 l ∧ (isUtf8 l = true → R l { s with check := some isUtf8 })) :
    Sim strict (Given R l) (Babel.setUp c l) (setUp c s) := by
  rcases hc with rfl | rfl
  · obtain ⟨h1, h2⟩ := hch rfl
    rw [Babel.setUp_check]
    unfold setUp
    simp only [setupCheck]
    rw [h1]
    cases hu : isUtf8 l with
    | true =>
      rw [if_pos ((isUtf8_iff l).1 hu)]
      exact Sim.ok (.inr ⟨_, rfl, rfl, h2 hu⟩)
    | false =>
      rw [if_neg (fun h => by rw [(isUtf8_iff l).2 h] at hu; cases hu)]
      exact Sim.ok (.inl ⟨rfl, rfl⟩)
  · exact Sim.ok (.inr ⟨s, rfl, rfl, hR⟩)

theorem configure_sim {strict : Prop} {R : List Char → FS Char → Prop} {enc det : Option (List Char)} (he : ∀ e ∈ enc, NUL ∉ e ∧ ∀ p ∈ Spec.Iso8859.parts, ¬ Named e (isoName p))
    {l : List Char} {s : FS Char} (hR : R l s)
    (hch : isUtf8 (s.data.drop s.index) = isUtf8 l ∧ (isUtf8 l = true → R l { s with check := some isUtf8 })) :
    Sim strict (Given R l) (Babel.configureEncoding enc det l) (configureEncoding enc det s) := by
  unfold Babel.configureEncoding configureEncoding
  cases enc with
  | none => exact setUp_sim (.inr (Babel.configure_none det)) hR fun _ => hch
  | some e =>
    obtain ⟨hn, hi⟩ := he e rfl
    obtain ⟨n, h1, h2⟩ := named_exists hn
    simp only [h2, Res.ofOption, ok_bind]
    exact setUp_sim (configure_cases (fun p hp x => hi p hp (x ▸ h1)) det) hR fun _ => hch

/-! ### The beginning of the file -/

theorem detect_take (text : List Char) {n : Nat} (hn : 4 ≤ n) : Babel.detect (text.take n) = Babel.detect text := by
  have hc : ∀ v k, k < 4 → Babel.code (text.take n) v k = Babel.code text v k := by
    intro v k hk
    unfold Babel.code
    rw [List.getElem?_take_of_lt (by omega)]
  have hl : (text.take n).length < 4 ↔ text.length < 4 := by rw [List.length_take]; omega
  unfold Babel.detect
  simp only [hl, hc _ 0 (by omega), hc _ 1 (by omega), hc _ 2 (by omega), hc _ 3 (by omega)]

theorem detect_index {text : List Char} {det : Option (List Char)} {i : Nat} (h : Babel.detect text = .found det i) :
    i ≤ 4 ∧ 4 ≤ text.length := by
  unfold Babel.detect at h
  split at h
  · cases h
  · refine ⟨?_, by omega⟩
    repeat' split at h
    all_goals first | (cases h; done) | (injection h; omega)

/-- The stream after the mark. -/
theorem start (text : List Char) {n i : Nat} (hn : 8 ≤ n) (hi : i ≤ 4) (hl : 4 ≤ text.length) :
    ∃ s, skipBom { FileStream.new ⟨text, []⟩ n with index := i } = s ∧ s.bufSize = n ∧ unread s.fd = text.drop n ∧ Regular s ∧
      s.check = none ∧ Plain s ∧ pending s = Babel.afterMark text i ∧ Babel.afterMark text i <:+ text := by
  obtain ⟨fd, e, hu, hs⟩ := new_eq text (n := n) (by omega)
  have hgo : ∀ j, j ≤ 4 → Babel.afterMark text i = text.drop j →
      skipBom { FileStream.new ⟨text, []⟩ n with index := i } = ⟨text.take n, j, n, fd, none, [], 0, false, none⟩ →
      ∃ s, skipBom { FileStream.new ⟨text, []⟩ n with index := i } = s ∧ s.bufSize = n ∧ unread s.fd = text.drop n ∧ Regular s ∧
      s.check = none ∧ Plain s ∧ pending s = Babel.afterMark text i ∧ Babel.afterMark text i <:+ text := by
    intro j hj h1 h2
    refine ⟨_, h2, rfl, hu, hs, rfl, ⟨rfl, fun _ _ => rfl, rfl, ?_, ?_, ?_⟩, ?_, ?_⟩
    · simp only [List.length_take]; omega
    · simp only [List.length_take]; omega
    · show 0 < n; omega
    · rw [h1]
      simp only [pending, hu]
      rw [← List.drop_append_of_le_length (by rw [List.length_take]; omega), List.take_append_drop]
    · rw [h1]; exact List.drop_suffix _ _
  by_cases hb : ['ï', '»', '¿'] <+: text.drop i
  · refine hgo 3 (by omega) ?_ ?_
    · unfold Babel.afterMark
      obtain ⟨r, hr⟩ := hb
      rw [eat_some_iff.2 hr.symm]
    · rw [e]
      unfold FileParse.skipBom
      rw [if_pos]
      simp only [List.isPrefixOf_iff_prefix]
      rw [List.drop_take]
      obtain ⟨r, hr⟩ := hb
      rw [← hr, List.take_append, List.take_of_length_le (by simp; omega)]
      exact List.prefix_append _ _
  · refine hgo i hi ?_ ?_
    · unfold Babel.afterMark
      rw [eat_none_iff.2 hb]
    · rw [e]
      unfold FileParse.skipBom
      rw [if_neg]
      simp only [List.isPrefixOf_iff_prefix]
      rw [List.drop_take]
      exact fun x => hb (x.trans (List.take_prefix _ _))

theorem noIso_suffix {s t : List Char} (h : t <:+ s) (hs : NoIso s) : NoIso t := by
  obtain ⟨u, rfl⟩ := h
  intro p hp pre q enc rest e
  exact hs p hp (u ++ pre) q enc rest (by rw [e]; simp)

/-- The parse, in both. -/
theorem parse_sim {strict : Prop} {R0 R : List Char → FS Char → Prop} {far : List Char → Prop} (h0 : Reads strict R0) (h : Reads strict R) (hm : Multi R)
    (hb : BlankEnd strict R) (hk : Back far strict R) {text rest : List Char} {n : Nat} (hn : 8 ≤ n)
    (hlook : ∀ det i, Babel.detect text = .found det i → ∃ k s', look (skipBom { FileStream.new ⟨text, []⟩ n with index := i }) c!"<?" = .ok (k, s') ∧
      FileParse.notZero k = (Parse.notZero (Stream.inspect (Babel.afterMark text i) c!"<?") (Babel.afterMark text i)).isSome ∧
      R0 ((Parse.notZero (Stream.inspect (Babel.afterMark text i) c!"<?") (Babel.afterMark text i)).getD (Babel.afterMark text i)) s')
    (hstart : ∀ det i, Babel.detect text = .found det i → strict ∧ rest = Babel.afterMark text i ∨
      Parse.notZero (Stream.inspect (Babel.afterMark text i) c!"<?") (Babel.afterMark text i) = none ∧ rest = Babel.afterMark text i ∨
      ∃ l1, Parse.notZero (Stream.inspect (Babel.afterMark text i) c!"<?") (Babel.afterMark text i) = some l1 ∧ Decl l1 rest)
    (conv : ∀ r s, R0 r s → r <:+ rest → R r s) (ht : LeadBut far text) (hi : NoIso text)
    (hrest : ∀ det i, Babel.detect text = .found det i → rest <:+ Babel.afterMark text i)
    (hch : ∀ l s, R l s → l <:+ text → isUtf8 (s.data.drop s.index) = isUtf8 l ∧ (isUtf8 l = true → R l { s with check := some isUtf8 })) :
    Sim strict Eq (Babel.parse text) (parseStream (FileStream.new ⟨text, []⟩ n)) := by
  unfold Babel.parse parseStream
  have hdet : Babel.detect (FileStream.new ⟨text, []⟩ n : FS Char).data = Babel.detect text := by
    obtain ⟨fd, e, -⟩ := new_eq text (n := n) (by omega)
    rw [e]
    exact detect_take text (by omega)
  rw [hdet]
  cases hd : Babel.detect text with
  | short => exact Sim.ok rfl
  | unknown => exact Sim.error
  | found det i =>
    obtain ⟨h4, hl⟩ := detect_index hd
    obtain ⟨s, es, -, -, -, -, -, -, hsuf⟩ := start text hn h4 hl
    simp only
    have hds := declaration_sim h0 h hm (hlook det i hd) (hstart det i hd) conv (hrest det i hd)
    cases hx : Babel.declaration (Babel.afterMark text i) with
    | ok x =>
      obtain ⟨enc, alone, st, l⟩ := x
      rw [hx] at hds
      obtain ⟨⟨enc', alone', st', s1⟩, e1, ⟨q1, q2, q3, hR⟩, hl1⟩ := hds
      simp only at q1 q2 q3 hR hl1
      subst q1 q2 q3
      rw [e1]
      simp only [ok_bind]
      have hlt := hl1.trans hsuf
      have henc : ∀ e ∈ enc, NUL ∉ e ∧ ∀ p ∈ Spec.Iso8859.parts, ¬ Named e (isoName p) := by
        intro e he
        cases he
        obtain ⟨⟨pre, q, r, er⟩, hz⟩ := declaration_enc hx
        exact ⟨hz, fun p hp => noIso_suffix hsuf hi p hp pre q e r er⟩
      refine Sim.bind (configure_sim henc hR (hch l s1 hR hlt)) ?_
      rintro a b (⟨rfl, rfl⟩ | ⟨s2, rfl, rfl, hR2⟩)
      · exact Sim.ok rfl
      · refine Sim.bind (remaining_sim h hm hb hk ht alone st hlt hR2) ?_
        rintro d d' rfl
        exact Sim.ok rfl
    | error => rw [hx] at hds; intro q; rw [hds q]; rfl
    | ub => rw [hx] at hds; intro q; rw [hds q]; rfl
    | loop => rw [hx] at hds; intro q; rw [hds q]; rfl

theorem sim_strict {a b : Res α} (h : Sim True Eq a b) : b = a := by
  cases a with
  | ok x => obtain ⟨y, e, rfl⟩ := h; exact e
  | error => exact h trivial
  | ub => exact h trivial
  | loop => exact h trivial

theorem read_small {text : List Char} {n : Nat} (hn : 8 ≤ n) (hsize : text.length ≤ n) (ht : Spec.File.FarLead text) (hi : NoIso text) :
    parseStream (FileStream.new ⟨text, []⟩ n) = Babel.parse text := by
  by_cases hd : ∃ det i, Babel.detect text = .found det i
  · obtain ⟨det, i, hd⟩ := hd
    have huniq : ∀ det' i', Babel.detect text = .found det' i' → i' = i := by
      intro det' i' h
      rw [hd] at h
      injection h with _ h; exact h.symm
    obtain ⟨h4, hl⟩ := detect_index hd
    obtain ⟨s, es, -, hu, -, -, hp, hq, hsuf⟩ := start text hn h4 hl
    have hR : Whole (Babel.afterMark text i) s := ⟨hp, hq, by rw [hu]; simpa using hsize⟩
    refine sim_strict (parse_sim (rest := Babel.afterMark text i) whole_reads whole_reads whole_multi whole_blank whole_back hn ?_ ?_
      (fun _ _ h _ => h) ht hi ?_ ?_)
    · intro det' i' h
      rw [huniq det' i' h, es]
      exact notZero_one whole_reads hR c!"<?" (by decide) (.inl trivial)
    · intro det' i' h
      rw [huniq det' i' h]
      exact .inl ⟨trivial, rfl⟩
    · intro det' i' h
      rw [huniq det' i' h]
      exact List.suffix_refl _
    · rintro l s ⟨h1, h2, h3⟩ -
      refine ⟨by rw [← h2, pending, h3, List.append_nil], fun _ => ⟨⟨h1.1, ?_, h1.3, h1.4, h1.5, h1.6⟩, h2, h3⟩⟩
      intro b hb
      rw [h3, List.infix_nil] at hb
      subst hb
      show isUtf8 [] = true
      decide +kernel
  · unfold parseStream Babel.parse
    obtain ⟨fd, e, -⟩ := new_eq text (n := n) (by omega)
    rw [e, detect_take text (by omega)]
    cases hd' : Babel.detect text with
    | short => rfl
    | unknown => rfl
    | found det i => exact absurd ⟨det, i, hd'⟩ hd

theorem isUtf8_seven {l : List Char} (h : SevenBits l) : isUtf8 l = true := (isUtf8_iff l).2 (wellShaped_seven h)

theorem seven_infix {a b : List Char} (h : b <:+: a) (ha : SevenBits a) : SevenBits b := fun c hc => ha c (h.subset hc)

/-- Behind the mark. -/
theorem mark_after {mark text : List Char} (hm : mark = [] ∨ mark = Spec.File.mark) (h7 : SevenBits text) {det : Option (List Char)} {i : Nat}
    (h : Babel.detect (mark ++ text) = .found det i) : i ≤ 3 ∧ Babel.afterMark (mark ++ text) i = text := by
  have hno : Stream.eat text ['ï', '»', '¿'] = none := by
    refine eat_none_iff.2 fun x => ?_
    have := h7 'ï' (x.subset (by simp))
    revert this; decide
  rcases hm with rfl | rfl
  · rw [List.nil_append] at h ⊢
    have hff : ∀ v k, 128 ≤ v → v < 256 → Babel.code text v k = false := by
      intro v k hv hv'
      unfold Babel.code
      cases hk : text[k]? with
      | none => rfl
      | some c =>
        have := h7 c (List.mem_of_getElem? hk)
        simp only [beq_eq_false_iff_ne, ne_eq, Option.some.injEq]
        rintro rfl
        rw [toNat_ofNat_small _ hv'] at this
        omega
    have : i = 0 := by
      unfold Babel.detect at h
      simp only [hff 0xEF 0 (by decide) (by decide), hff 0xFF 0 (by decide) (by decide), Bool.false_and] at h
      repeat' split at h
      all_goals first | (cases h; done) | (injection h; omega) | simp_all
    subst this
    refine ⟨by omega, ?_⟩
    unfold Babel.afterMark
    rw [List.drop_zero, hno]
  · have : i = 3 := by
      unfold Babel.detect at h
      rw [if_neg, if_pos] at h
      · injection h with _ h; exact h.symm
      · rfl
      · intro hc; rw [if_pos hc] at h; cases h
    subst this
    refine ⟨by omega, ?_⟩
    unfold Babel.afterMark
    show (match Stream.eat text ['ï', '»', '¿'] with | some _ => text | none => text) = text
    rw [hno]

theorem read_big {mark text rest : List Char} {n : Nat} (hn : 12 ≤ n) (hm : mark = [] ∨ mark = Spec.File.mark) (h7 : SevenBits text)
    (hb : Spec.File.Begun text rest) (hrest : Spec.File.Simple rest) (ht : Spec.File.NoLead (mark ++ text))
    (hw : Spec.File.EndsWhite text) (hi : NoIso text) {d : Option Doc} (hp : Babel.parse (mark ++ text) = .ok d) :
    parseStream (FileStream.new ⟨mark ++ text, []⟩ n) = .ok d := by
  have hP0 : ∀ {a b : List Char}, b <:+ a → True → True := fun _ _ => trivial
  have hPs : ∀ {a b : List Char}, b <:+ a → Spec.File.Simple a ∧ SevenBits a → Spec.File.Simple b ∧ SevenBits b :=
    fun h x => ⟨simple_suffix h x.1, seven_infix h.isInfix x.2⟩
  have hmulti : Multi (Big fun l => Spec.File.Simple l ∧ SevenBits l) := by
    refine .inr ?_
    rintro l s ⟨-, -, -, -, -, ⟨h1, h2, h3⟩, -⟩
    exact ⟨eat_none_iff.2 fun x => h1 x.isInfix, eat_none_iff.2 fun x => h2 x.isInfix, eat_none_iff.2 fun x => h3 x.isInfix⟩
  have hsuf : rest <:+ text := by
    cases hb with
    | plain => exact List.suffix_refl _
    | declared => exact List.suffix_append _ _
  have hiso : NoIso (mark ++ text) := by
    intro p hpt pre q enc r e
    rcases hm with rfl | rfl
    · exact hi p hpt pre q enc r e
    · match pre, e with
      | [], e => simp [Spec.File.mark] at e
      | [_], e => simp [Spec.File.mark] at e
      | [_, _], e => simp [Spec.File.mark] at e
      | _ :: _ :: _ :: pre, e =>
        simp only [Spec.File.mark, List.cons_append, List.nil_append, List.cons.injEq] at e
        exact hi p hpt pre q enc r (by rw [e.2.2.2])
  have hlook : ∀ det i, Babel.detect (mark ++ text) = .found det i →
      ∃ s, FileParse.skipBom { FileStream.new ⟨mark ++ text, []⟩ n with index := i } = s ∧ Big (fun _ => True) text s ∧
        (2 ≤ text.length → 2 ≤ s.data.length - s.index) := by
    intro det i hd
    obtain ⟨h4, hl⟩ := detect_index hd
    obtain ⟨h3, ha⟩ := mark_after hm h7 hd
    obtain ⟨s, es, hbs, hu, hr, -, hpl, hq, -⟩ := start (mark ++ text) (n := n) (by omega) h4 hl
    rw [ha] at hq
    refine ⟨s, es, ⟨hpl, hq, hr, by omega, ?_, trivial⟩, ?_⟩
    · obtain ⟨pre, c, h1, h2⟩ := hw
      exact .inr ⟨pre, c, (Stream.white_iff c).2 h1, h2⟩
    · intro h2
      have e := congrArg List.length hq
      rw [pending, hu, List.length_append, List.length_drop, List.length_drop, List.length_append] at e
      have : mark.length ≤ 3 := by rcases hm with rfl | rfl <;> decide
      omega
  have hsim := parse_sim (strict := False) (text := mark ++ text) (n := n) (rest := rest) (R0 := Big fun _ => True)
    (R := Big fun l => Spec.File.Simple l ∧ SevenBits l) (far := fun _ => False)
    (big_reads hP0) (big_reads hPs) hmulti (fun x => x.elim) (fun _ _ _ _ _ _ _ _ _ x => x.elim) (by omega)
    (by
      intro det i hd
      obtain ⟨s, es, hR, hlen⟩ := hlook det i hd
      rw [es, (mark_after hm h7 hd).2]
      exact (begun_look hR hb hlen).1)
    (by
      intro det i hd
      obtain ⟨s, es, hR, hlen⟩ := hlook det i hd
      rw [(mark_after hm h7 hd).2]
      exact .inr (begun_look hR hb hlen).2)
    (fun r s h hs => ⟨h.1, h.2.1, h.2.2.1, h.2.2.2.1, h.2.2.2.2.1, simple_suffix hs hrest, seven_infix (hs.trans hsuf).isInfix h7⟩)
    (fun a b c d h1 h2 h3 h4 => .inl (ht a b c d h1 h2 h3 h4)) hiso
    (by
      intro det i hd
      rw [(mark_after hm h7 hd).2]
      exact hsuf)
    (by
      rintro l s ⟨h1, h2, h3, h4, h5, h6, h8⟩ -
      have hin : ∀ b, b <:+: s.data.drop s.index ∨ b <:+: unread s.fd → SevenBits b := by
        intro b hb
        refine seven_infix ?_ h8
        rw [← h2, pending]
        rcases hb with hb | hb
        · exact hb.trans (List.prefix_append _ _).isInfix
        · exact hb.trans (List.suffix_append _ _).isInfix
      refine ⟨?_, fun _ => ⟨⟨h1.1, ?_, h1.3, h1.4, h1.5, h1.6⟩, h2, h3, h4, h5, h6, h8⟩⟩
      · rw [isUtf8_seven h8, isUtf8_seven (hin _ (.inl (List.infix_refl _)))]
      · intro b hb
        exact isUtf8_seven (hin b (.inr hb)))
  rw [hp] at hsim
  obtain ⟨d', e, rfl⟩ := hsim
  exact e

end BabelFile
end Axl
