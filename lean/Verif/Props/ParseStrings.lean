/-
Property C59: a text given in pieces or by a format is parsed as the text.
-/
import Verif.Spec.ParseStrings
import Verif.Props.ParseMem
import Verif.Props.Printf

namespace Axl
open Str Blocks ParseStrings Spec.ParseMem Spec.Xml

theorem strlen_text {s junk : List Char} (h : NUL ∉ s) : strlen (s ++ NUL :: junk) = some s.length := by
  induction s with
  | nil => simp [strlen]
  | cons c s ih =>
    simp only [List.mem_cons, not_or] at h
    simp [strlen, ih h.2, Ne.symm h.1]

theorem concat_text {a b junk junk' : List Char} (ha : NUL ∉ a) (hb : NUL ∉ b) :
    ParseStrings.concat (some (a ++ NUL :: junk)) (some (b ++ NUL :: junk')) = some (some ((a ++ b) ++ [NUL])) := by
  simp [ParseStrings.concat, strlen_text ha, strlen_text hb]

theorem strdup_text {a junk : List Char} (ha : NUL ∉ a) : ParseStrings.strdup (a ++ NUL :: junk) = some (a ++ [NUL]) := by
  simp [ParseStrings.strdup, strlen_text ha]

/-- The loop, with the text joined so far. -/
theorem joinLoop_more (rest : List (Option (List Char))) : ∀ (mems strings : List (List Char)) (h : Strings) (id : Nat) (a : List Char),
    mems.length = strings.length →
    (∀ (i : Nat) (m s : List Char), mems[i]? = some m → strings[i]? = some s → NUL ∉ s ∧ ∃ junk, m = s ++ NUL :: junk) →
    h.live = [(id, a ++ [NUL])] → id < h.next → NUL ∉ a →
    ∃ h' id', ParseStrings.joinLoop h (some id) (mems.map some ++ none :: rest) = some (h', some id') ∧
      h'.live = [(id', a ++ strings.flatten ++ [NUL])]
  | [], strings, h, id, a, hl, hp, hh, hid, ha => by
    cases strings with
    | cons => simp at hl
    | nil => exact ⟨h, id, by simp [ParseStrings.joinLoop], by simp [hh]⟩
  | m :: mems, strings, h, id, a, hl, hp, hh, hid, ha => by
    cases strings with
    | nil => simp at hl
    | cons s strings =>
      obtain ⟨hs, junk, rfl⟩ := hp 0 m s rfl rfl
      have hr : h.read id = some (a ++ [NUL]) := by simp [Strings.read, hh]
      have hne : h.next ≠ id := by omega
      have hf : Strings.freeOpt (h.alloc (a ++ s ++ [NUL])).1 (some id) = some ⟨h.next + 1, [(h.next, a ++ s ++ [NUL])]⟩ := by
        simp [Strings.freeOpt, Strings.free, Strings.alloc, Strings.read, hh, hne]
      obtain ⟨h', id', e, hl'⟩ := joinLoop_more rest mems strings ⟨h.next + 1, [(h.next, a ++ s ++ [NUL])]⟩ h.next (a ++ s)
        (by simpa using hl) (fun i m s hm hs => hp (i + 1) m s hm hs) rfl (Nat.lt_succ_self _) (by simp [ha, hs])
      refine ⟨h', id', ?_, by simpa using hl'⟩
      simp only [List.map_cons, List.cons_append, ParseStrings.joinLoop, hr, Option.map_some, bind, Option.bind_some]
      erw [concat_text ha hs]
      simp only [Option.bind_some, hf]
      exact e

/-- The loop gives the strings joined, and no other string is left. -/
theorem joinLoop_ok {args : List (Option (List Char))} {strings : List (List Char)} (hp : Pieces args strings) (hn : strings ≠ []) :
    ∃ h id, ParseStrings.joinLoop .empty none args = some (h, some id) ∧ h.live = [(id, strings.flatten ++ [NUL])] := by
  obtain ⟨mems, rest, rfl, hl, hp⟩ := hp
  cases strings with
  | nil => exact absurd rfl hn
  | cons s strings =>
    cases mems with
    | nil => simp at hl
    | cons m mems =>
      obtain ⟨hs, junk, rfl⟩ := hp 0 m s rfl rfl
      obtain ⟨h', id', e, hl'⟩ := joinLoop_more rest mems strings ⟨1, [(0, s ++ [NUL])]⟩ 0 s
        (by simpa using hl) (fun i m s hm hs => hp (i + 1) m s hm hs) rfl (Nat.zero_lt_one) hs
      refine ⟨h', id', ?_, by simpa using hl'⟩
      simp only [List.map_cons, List.cons_append, ParseStrings.joinLoop, bind, Option.bind_some]
      rw [ParseStrings.concat, strdup_text hs]
      simp only [Option.map_some, Option.bind_some, Strings.freeOpt, Strings.alloc, Strings.empty]
      exact e

theorem parseAndFree_ok {h : Strings} {id : Nat} {m : List Char} (hl : h.live = [(id, m)]) (w : World) :
    left (parseAndFree h (some id) w) = alsoFreed (docParse (some m) (-1) w) := by
  have hr : h.read id = some m := by simp [Strings.read, hl]
  have hf : h.free id = some ⟨h.next, []⟩ := by simp [Strings.free, hr, hl]
  simp only [parseAndFree, hr]
  cases docParse (some m) (-1) w <;> simp [hf, left, alsoFreed]

/-- **C59**.  `axl_doc_parse_strings` of one string or more does what `axl_doc_parse` does with the strings joined: the same
document or the same error, with the same memory behind it; and the strings it made are freed. -/
theorem C59_doc_strings (args : List (Option (List Char))) (strings : List (List Char)) (hp : Pieces args strings) (hn : strings ≠ []) :
    left (docParseStrings true args) = alsoFreed (docParse (some (strings.flatten ++ [NUL])) (-1) (World.start true)) := by
  obtain ⟨h, id, e, hl⟩ := joinLoop_ok hp hn
  simp only [docParseStrings, Bool.not_true, Bool.false_eq_true, if_false, e]
  exact parseAndFree_ok hl _

/-- The pieces do not hold the end of a string. -/
theorem Pieces.noNul {args : List (Option (List Char))} {strings : List (List Char)} (hp : Pieces args strings) : NUL ∉ strings.flatten := by
  obtain ⟨mems, rest, rfl, hl, hp⟩ := hp
  intro hm
  obtain ⟨s, hs, hc⟩ := List.mem_flatten.mp hm
  obtain ⟨i, hi, rfl⟩ := List.mem_iff_getElem.mp hs
  exact (hp i mems[i] strings[i] (by simp) (by simp)).1 hc

/-- **C59** (partial: the header of C43 apart).  `axl_doc_parse_strings` gives the document that is written in the strings
joined, whatever the places where the text was cut; if there is none, it gives NULL and one error about the text. -/
theorem C59_doc_of_pieces_partial (args : List (Option (List Char))) (strings : List (List Char)) (hp : Pieces args strings)
    (hn : strings ≠ []) (hs : ¬ ShortStandalone strings.flatten) :
    ∃ ok w, left (docParseStrings true args) = .ret (ok, []) w ∧
      ((ok = true ∧ OnlyDocument w ∧ NoError true w ∧ ∃ doc, Parse.parse strings.flatten = .ok doc ∧ w.document = some doc) ∨
       (ok = false ∧ Parse.parse strings.flatten = .error ∧ OneError strings.flatten true w)) := by
  have hg : Given (strings.flatten ++ [NUL]) (-1) strings.flatten := .inl ⟨rfl, hp.noNul, [], rfl⟩
  obtain ⟨ok, w, e, h⟩ := C53_parse_memory_partial hg true hs
  refine ⟨ok, w, by rw [C59_doc_strings args strings hp hn, e]; rfl, ?_⟩
  rcases h with ⟨h1, h2, h3, doc, h4, h5, _⟩ | ⟨h1, h2, h3, _⟩
  · exact .inl ⟨h1, h2, h3, doc, h4, h5⟩
  · exact .inr ⟨h1, h2, h3⟩

/-- **C59**.  Where the text is cut does not matter. -/
theorem C59_cuts_do_not_matter (args args' : List (Option (List Char))) (strings strings' : List (List Char)) (hp : Pieces args strings)
    (hp' : Pieces args' strings') (hn : strings ≠ []) (hn' : strings' ≠ []) (hf : strings.flatten = strings'.flatten) :
    left (docParseStrings true args) = left (docParseStrings true args') ∧
      left (nodeParseStrings true args) = left (nodeParseStrings true args') := by
  have h : left (docParseStrings true args) = left (docParseStrings true args') := by
    rw [C59_doc_strings args strings hp hn, C59_doc_strings args' strings' hp' hn', hf]
  refine ⟨h, ?_⟩
  simp only [nodeParseStrings]
  revert h
  cases docParseStrings true args with
  | ret a w =>
    cases docParseStrings true args' with
    | ret a' w' =>
      obtain ⟨a, s⟩ := a
      obtain ⟨a', s'⟩ := a'
      simp only [left, Out.ret.injEq, Prod.mk.injEq]
      rintro ⟨⟨rfl, hl⟩, rfl⟩
      cases a with
      | false => simp [rootOf, left, hl]
      | true =>
        simp only [rootOf]
        cases takeRoot w <;> simp [left, hl]
    | _ => simp [left]
  | _ => cases docParseStrings true args' <;> simp [left, rootOf]

/-- The pieces of the examples. -/
private def pieces : List (List Char) := [c!"<?xml vers", c!"ion='1.0'?><a ", [], c!"x='1'>te", c!"xt</a", c!">"]
private def pieceArgs : List (Option (List Char)) := pieces.map (fun s => some (s ++ [NUL, '?'])) ++ [none]

example : Pieces pieceArgs pieces := ⟨pieces.map (· ++ [NUL, '?']), [], by simp [pieceArgs], by simp, by
  intro i m s hm hs
  rw [List.getElem?_map, hs] at hm
  have : m = s ++ [NUL, '?'] := by simpa using hm.symm
  exact ⟨(by decide +kernel : ∀ s ∈ pieces, NUL ∉ s) s (List.mem_of_getElem? hs), ['?'], this⟩⟩

example : ¬ ShortStandalone pieces.flatten := by
  rintro ⟨pre, value, post, q, q', _, _, h, _⟩
  have : 'd' ∈ pieces.flatten := by rw [h]; simp
  exact absurd this (by decide +kernel)

example : (match docParseStrings true pieceArgs with | .ret (ok, h) _ => some (ok, h.live) | _ => none) = some (true, []) := by decide +kernel

/-- **C59** (partial: the header of C43 apart).  `axl_node_parse_strings` gives the root of the document that is written in the
strings joined; if there is none, it gives NULL and one error about the text. -/
theorem C59_node_of_pieces_partial (args : List (Option (List Char))) (strings : List (List Char)) (hp : Pieces args strings)
    (hn : strings ≠ []) (hs : ¬ ShortStandalone strings.flatten) :
    ∃ node w, left (nodeParseStrings true args) = .ret (node, []) w ∧
      ((∃ doc, Parse.parse strings.flatten = .ok doc ∧ node = some doc.root ∧ NoError true w) ∨
       (Parse.parse strings.flatten = .error ∧ node = none ∧ OneError strings.flatten true w)) := by
  obtain ⟨ok, w, e, h⟩ := C59_doc_of_pieces_partial args strings hp hn hs
  simp only [nodeParseStrings]
  cases hd : docParseStrings true args with
  | ret a w' =>
    obtain ⟨a, st⟩ := a
    rw [hd] at e
    simp only [left, Out.ret.injEq, Prod.mk.injEq] at e
    obtain ⟨⟨rfl, hl⟩, rfl⟩ := e
    rcases h with ⟨rfl, ho, he, doc, h1, h2⟩ | ⟨rfl, h1, h2⟩
    · obtain ⟨_, d, hd', _⟩ := ho
      simp only [World.document, hd'] at h2
      cases hr : d.st.root with
      | none => rw [hr] at h2; cases h2
      | some root =>
        rw [hr] at h2
        simp only [Option.some.injEq] at h2
        refine ⟨some root, { w' with doc := some { d with st := { d.st with root := none } } }, ?_, .inl ⟨doc, h1, ?_, ?_⟩⟩
        · simp [rootOf, takeRoot, hd', hr, left, hl]
        · rw [← h2]
        · exact he
    · exact ⟨none, w', by simp [rootOf, left, hl], .inr ⟨h1, rfl, h2⟩⟩
  | ub => rw [hd] at e; simp [left] at e
  | loop => rw [hd] at e; simp [left] at e

/-- **C59** (partial: where there is `vasprintf`; the header of C43 apart).  `axl_node_parse` gives the root of the document that
is written in the text that the format and its arguments make; if there is none, it gives NULL and one error about the
text, if it was asked for. -/
theorem C59_node_parse_partial {Arg : Type} (ask : Bool) (L : Printf.Libc Arg) (content : List Char) (args : List Arg)
    (text : List Char) (hr : L.render content args = .text text) (h0 : NUL ∉ text) (hs : ¬ ShortStandalone text) :
    ∃ node w, left (nodeParse true ask L (some content) args) = .ret (node, []) w ∧
      ((∃ doc, Parse.parse text = .ok doc ∧ node = some doc.root ∧ NoError ask w) ∨
       (Parse.parse text = .error ∧ node = none ∧ OneError text ask w)) := by
  have hb : Printf.strdupPrintfv true L (some content) (some args) = some (.block (text ++ [NUL])) := by
    have : (text.length : Int) ≠ -1 := by omega
    simp [Printf.strdupPrintfv, Printf.vasprintf, Printf.Libc.args, hr, this]
  have hg : Given (text ++ [NUL]) (-1) text := .inl ⟨rfl, h0, [], rfl⟩
  obtain ⟨ok, w, e, h⟩ := C53_parse_memory_partial hg ask hs
  have hp := parseAndFree_ok (h := (Strings.empty.alloc (text ++ [NUL])).1) (id := 0) (m := text ++ [NUL]) rfl (World.start ask)
  rw [e] at hp
  simp only [nodeParse, hb]
  show ∃ node w, left (rootOf (parseAndFree (Strings.empty.alloc (text ++ [NUL])).1 (some 0) (World.start ask))) = .ret (node, []) w ∧ _
  cases hd : parseAndFree (Strings.empty.alloc (text ++ [NUL])).1 (some 0) (World.start ask) with
  | ret a w' =>
    obtain ⟨a, st⟩ := a
    rw [hd] at hp
    simp only [left, alsoFreed, Out.ret.injEq, Prod.mk.injEq] at hp
    obtain ⟨⟨rfl, hl⟩, rfl⟩ := hp
    rcases h with ⟨rfl, ho, he, doc, h1, h2, _⟩ | ⟨rfl, h1, h2, _⟩
    · obtain ⟨_, d, hd', _⟩ := ho
      simp only [World.document, hd'] at h2
      cases hr : d.st.root with
      | none => rw [hr] at h2; cases h2
      | some root =>
        rw [hr] at h2
        simp only [Option.some.injEq] at h2
        refine ⟨some root, { w' with doc := some { d with st := { d.st with root := none } } }, ?_, .inl ⟨doc, h1, ?_, ?_⟩⟩
        · simp [rootOf, takeRoot, hd', hr, left, hl]
        · rw [← h2]
        · exact he
    · exact ⟨none, w', by simp [rootOf, left, hl], .inr ⟨h1, rfl, h2⟩⟩
  | ub => rw [hd] at hp; simp [left, alsoFreed] at hp
  | loop => rw [hd] at hp; simp [left, alsoFreed] at hp

/-- A C library whose format is the text. -/
private def plain : Printf.Libc Unit := ⟨fun f _ => .text f, fun f => f.count '%'⟩

example : ∃ d, Parse.parse c!"<a x='1'>t</a>" = .ok d ∧ plain.render c!"<a x='1'>t</a>" [] = .text c!"<a x='1'>t</a>" := by
  have h : (match Parse.parse c!"<a x='1'>t</a>" with | .ok _ => true | _ => false) = true := by decide +kernel
  cases hp : Parse.parse c!"<a x='1'>t</a>" with
  | ok d => exact ⟨d, rfl, rfl⟩
  | _ => rw [hp] at h; cases h

/-- **C59**: not of the code.  The error is documented as optional, but without a place for it no document and no node is
ever given, whatever the strings. -/
theorem C59_error_not_optional (args : List (Option (List Char))) :
    docParseStrings false args = .ret (false, .empty) (World.start false) ∧
      nodeParseStrings false args = .ret (none, .empty) (World.start false) :=
  ⟨rfl, rfl⟩

/-- **C59**: not of the code.  Without strings there is no document, and no error is told: the place for it is left as it
was. -/
theorem C59_no_strings (rest : List (Option (List Char))) :
    docParseStrings true (none :: rest) = .ret (false, .empty) (World.start true) ∧ (World.start true).errors = some [] :=
  ⟨rfl, rfl⟩

/-- **C59**.  A format whose text cannot be made gives no node and one error, and leaves nothing behind. -/
theorem C59_node_parse_no_text {Arg : Type} (ask : Bool) (L : Printf.Libc Arg) (content part : List Char) (args : List Arg)
    (hr : L.render content args = .fail part) :
    ∃ w, nodeParse true ask L (some content) args = .ret (none, .empty) w ∧ (∀ id, w.heap id = none) ∧ w.doc.isNone ∧
      w.stream.isNone ∧ w.errors.map List.length = if ask then some 1 else none := by
  have hb : Printf.strdupPrintfv true L (some content) (some args) = some .null := by
    simp [Printf.strdupPrintfv, Printf.vasprintf, Printf.Libc.args, hr]
  simp only [nodeParse, hb]
  cases ask
  · exact ⟨_, rfl, fun _ => rfl, rfl, rfl, rfl⟩
  · exact ⟨_, rfl, fun _ => rfl, rfl, rfl, rfl⟩

example : ∃ part, (Printf.Rendered.fail part : Printf.Rendered) ≠ .text [] ∧
    (⟨fun _ _ => .fail part, fun _ => 0⟩ : Printf.Libc Nat).render c!"%d" [3] = .fail part := ⟨[], by simp, rfl⟩

end Axl
