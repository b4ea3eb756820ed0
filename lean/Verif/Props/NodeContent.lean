/-
Property C51: the contents of a node.
-/
import Verif.Proofs.NodeContent

namespace Axl
open Str Escape Spec.Escape Spec.Str Spec.NodeContent NodeContent

/-- **C51**.  A node is a sequence of texts, sections, comments and other items: any history of calls
on a new node that store contents and read them (with axl_node_get_content, get_content_copy,
get_content_trim, get_content_trans, is_empty and axl_item_get_content) reads no memory out of place
and answers as the sequence does, which answers in one way only.  `OpIs` says that a call is given a
string; a CDATA section comes as a C string with its length, without "]]>". -/
theorem C51_history_partial (ops : List Op) (reqs : List Req) (h : All₂ OpIs ops reqs) :
    ∃ items answers ps replies, run [] ops = some (items, answers) ∧ Run [] reqs ps replies ∧
      All₂ AnsIs answers replies ∧ (∀ ps' replies', Run [] reqs ps' replies' → replies' = replies) := by
  obtain ⟨items, as, ps, rs, h1, h2, _, h3⟩ := run_is (items := []) (ps := []) .nil h
  exact ⟨items, as, ps, rs, h1, h2, h3, fun ps' rs' h' => (run_unique h' h2).2⟩

/-- A history that meets the hypotheses, and its answers. -/
def contentCase : List Op :=
  [.getContent, .getTrans, .setOther, .setContent ("  a<b ".toList ++ [NUL]) (-1), .setComment "note!".toList 4,
   .setCdata ("&c".toList ++ [NUL]) (-1), .getContent, .getTrim, .getCopy, .getTrans, .itemContent 2, .itemContent 0, .isEmpty]

example : All₂ OpIs contentCase
    [.content, .trans, .addOther, .addText "  a<b ".toList, .addComment "note".toList, .addCdata "&c".toList, .content,
     .trim, .copy, .trans, .piece 2, .piece 0, .isEmpty] := by
  refine .cons trivial (.cons trivial (.cons trivial (.cons ?_ (.cons ?_ (.cons ?_ (.cons trivial (.cons trivial
    (.cons trivial (.cons trivial (.cons rfl (.cons rfl (.cons trivial .nil))))))))))))
  · exact ⟨by decide, [NUL], rfl, Or.inl ⟨rfl, rfl⟩⟩
  · exact ⟨by decide, "!".toList, rfl, Or.inr rfl⟩
  · exact ⟨by decide, ⟨[], rfl⟩, Or.inl rfl, by unfold NoCdataEnd; decide⟩

example : (run [] contentCase).map (·.2) = some
    [.text [NUL] 0, .null, .unit, .unit, .unit, .unit, .text ("  a&lt;b ".toList ++ [NUL]) 9,
     .text ("a&lt;b".toList ++ [NUL, 'b', ' ', NUL]) 6, .text ("a&lt;b".toList ++ [NUL]) 6,
     .text ("a<b&c".toList ++ NUL :: "&amp;c".toList ++ [NUL]) 5, .text ("note".toList ++ [NUL]) 4, .null, .bool false] := by
  decide

theorem NodeContent.ent_white (c : Char) : (White c ∧ ent c = [c]) ∨
    (¬ White c ∧ (∀ d ∈ (ent c).head?, ¬ White d) ∧ (∀ d ∈ (ent c).getLast?, ¬ White d)) := by
  unfold ent White
  by_cases h1 : c = '\''
  · subst h1; right; decide
  · by_cases h2 : c = '"'
    · subst h2; right; decide
    · by_cases h3 : c = '&'
      · subst h3; right; decide
      · by_cases h4 : c = '>'
        · subst h4; right; decide
        · by_cases h5 : c = '<'
          · subst h5; right; decide
          · simp only [h1, h2, h3, h4, h5, if_false]
            by_cases hw : c = ' ' ∨ c = '\n' ∨ c = '\t' ∨ c = '\r'
            · left; exact ⟨hw, trivial⟩
            · right; refine ⟨hw, ?_, ?_⟩ <;> simpa using hw

theorem NodeContent.esc_white {s : List Char} (h : ∀ c ∈ s, White c) : esc s = s := by
  induction s with
  | nil => rfl
  | cons c s ih =>
    have := ih (fun x hx => h x (by simp [hx]))
    rcases ent_white c with ⟨_, h2⟩ | ⟨h1, _⟩
    · unfold esc at this ⊢; rw [List.flatMap_cons, h2, this]; rfl
    · exact absurd (h c (by simp)) h1

/-- Trimming and escaping can be done in any order. -/
theorem NodeContent.trimmed_esc {s t : List Char} (h : Trimmed s t) : Trimmed (esc s) (esc t) := by
  obtain ⟨l, r, rfl, hl, hr, h1, h2⟩ := h
  refine ⟨l, r, by rw [esc_append, esc_append, esc_white hl, esc_white hr], hl, hr, ?_, ?_⟩
  · cases t with
    | nil => simp [esc]
    | cons c t =>
      intro d hd
      rcases ent_white c with ⟨h3, _⟩ | ⟨_, h3, _⟩
      · exact absurd h3 (h1 c (by simp))
      · apply h3
        have hp := ent_pos c
        unfold esc at hd
        rw [List.flatMap_cons, List.head?_append] at hd
        cases he : (ent c).head? with
        | none => rw [List.head?_eq_none_iff] at he; rw [he] at hp; simp at hp
        | some x => rw [he] at hd; simpa using hd
  · rcases List.eq_nil_or_concat t with rfl | ⟨t', c, rfl⟩
    · simp [esc]
    · intro d hd
      rcases ent_white c with ⟨h3, _⟩ | ⟨_, _, h3⟩
      · exact absurd h3 (h2 c (by simp))
      · apply h3
        have hp := ent_pos c
        rw [List.concat_eq_append, esc_append] at hd
        have e : esc [c] = ent c := by simp [esc]
        rw [e, List.getLast?_append] at hd
        cases he : (ent c).getLast? with
        | none => rw [List.getLast?_eq_none_iff] at he; rw [he] at hp; simp at hp
        | some x => rw [he] at hd; simpa using hd

/-- The replies to a request made after texts were added. -/
theorem NodeContent.run_adds (texts : List (List Char)) (ps : List Piece) :
    Run ps (texts.map .addText) (ps ++ texts.map (fun s => .text (escaped s))) (texts.map (fun _ => .done)) := by
  induction texts generalizing ps with
  | nil => simpa using Run.nil
  | cons s texts ih =>
    have := ih (ps ++ [.text (escaped s)])
    rw [List.append_assoc] at this
    exact .cons .addText this

theorem NodeContent.run_append {ps qs rs : List Piece} {r1 r2 : List Req} {a b : List Reply} (h1 : Run ps r1 qs a)
    (h2 : Run qs r2 rs b) : Run ps (r1 ++ r2) rs (a ++ b) := by
  induction h1 with
  | nil => exact h2
  | cons h _ ih => exact .cons h (ih h2)

theorem NodeContent.texts_of (texts : List (List Char)) :
    (texts.map (fun s => Piece.text (escaped s))).filterMap Piece.text? = texts.map escaped := by
  induction texts with
  | nil => rfl
  | cons s texts ih => simp [Piece.text?, ih]

theorem NodeContent.flatten_escaped (texts : List (List Char)) : (texts.map escaped).flatten = esc texts.flatten := by
  induction texts with
  | nil => rfl
  | cons s texts ih => simp only [List.map_cons, List.flatten_cons, ih, esc_append, escaped_eq]

theorem NodeContent.run_texts (first t : List Char) (texts : List (List Char)) (ht : Trimmed first t) :
    ∃ ps, Run [] ((first :: texts).map Req.addText ++ [.content, .trans, .trim, .trans]) ps
      ((first :: texts).map (fun _ => Reply.done) ++
        [.text (escaped first), .text (first ++ texts.flatten), .text (escaped t), .text (t ++ texts.flatten)]) := by
  have h0 := run_adds (first :: texts) []
  rw [List.nil_append] at h0
  have h1 : Step ((first :: texts).map (fun s => Piece.text (escaped s))) .content
      ((first :: texts).map (fun s => Piece.text (escaped s))) (.text (escaped first)) := by
    have := @Step.content ((first :: texts).map (fun s => Piece.text (escaped s)))
    rw [texts_of] at this
    exact this
  have h2 : ∀ f : List Char, Step ((f :: texts).map (fun s => Piece.text (escaped s))) .trans
      ((f :: texts).map (fun s => Piece.text (escaped s))) (.text (f ++ texts.flatten)) := by
    intro f
    apply Step.trans
    · rw [texts_of]; simp
    · rw [texts_of, flatten_escaped]
      exact decodes_esc _
  have h3 : Step ((first :: texts).map (fun s => Piece.text (escaped s))) .trim
      ((t :: texts).map (fun s => Piece.text (escaped s))) (.text (escaped t)) := by
    apply Step.trim
    apply TrimFirst.text (before := []) (by simp)
    rw [escaped_eq, escaped_eq]; exact trimmed_esc ht
  exact ⟨_, run_append h0 (.cons h1 (.cons (h2 first) (.cons h3 (.cons (h2 t) .nil))))⟩

theorem NodeContent.ops_texts (texts : List (List Char)) (h : ∀ s ∈ texts, NUL ∉ s) {ops : List Op} {reqs : List Req}
    (ho : All₂ OpIs ops reqs) :
    All₂ OpIs (texts.map (fun s => Op.setContent (s ++ [NUL]) (-1)) ++ ops) (texts.map Req.addText ++ reqs) := by
  induction texts with
  | nil => exact ho
  | cons s texts ih =>
    exact .cons ⟨h s (by simp), [NUL], rfl, Or.inl ⟨rfl, rfl⟩⟩ (ih (fun x hx => h x (by simp [hx])))

/-- **C51** for the texts themselves.  After texts are stored with axl_node_set_content,
axl_node_get_content gives the first one escaped, axl_node_get_content_trim the first one trimmed and
escaped, and axl_node_get_content_trans, before and after, all the texts one after the other, the
first one trimmed once that was asked for. -/
theorem C51_texts (first t : List Char) (texts : List (List Char)) (hn : ∀ s ∈ first :: texts, NUL ∉ s)
    (ht : Trimmed first t) :
    ∃ items answers, run [] ((first :: texts).map (fun s => Op.setContent (s ++ [NUL]) (-1)) ++
        [.getContent, .getTrans, .getTrim, .getTrans]) = some (items, answers) ∧
      All₂ AnsIs answers ((first :: texts).map (fun _ => Reply.done) ++
        [.text (escaped first), .text (first ++ texts.flatten), .text (escaped t), .text (t ++ texts.flatten)]) := by
  have ho := ops_texts (first :: texts) hn (ops := [.getContent, .getTrans, .getTrim, .getTrans])
    (reqs := [.content, .trans, .trim, .trans])
    (.cons trivial (.cons trivial (.cons trivial (.cons trivial .nil))))
  obtain ⟨items, as, ps, rs, h1, h2, h3, h4⟩ := C51_history_partial _ _ ho
  obtain ⟨ps', h5⟩ := run_texts first t texts ht
  rw [← h4 _ _ h5] at h3
  exact ⟨items, as, h1, h3⟩

example : ∃ items answers, run [] (["  a<b ".toList, " &c".toList].map (fun s => Op.setContent (s ++ [NUL]) (-1)) ++
        [.getContent, .getTrans, .getTrim, .getTrans]) = some (items, answers) ∧
      All₂ AnsIs answers [.done, .done, .text "  a&lt;b ".toList, .text "  a<b  &c".toList, .text "a&lt;b".toList,
        .text "a<b &c".toList] :=
  C51_texts "  a<b ".toList "a<b".toList [" &c".toList] (by decide)
    ⟨"  ".toList, " ".toList, rfl, by simp [White], by simp [White], by simp [White], by simp [White]⟩

/-- **C51** fails for a CDATA section given with a size that is not its length:
`axl_node_set_cdata_content (node, "abcdef", 3)` stores a section of size 3 whose text is "abcdef". -/
theorem C51_cdata_size : run [] [.setCdata ("abcdef".toList ++ [NUL]) 3, .getContent] =
    some ([.cdata { mem := "abcdef".toList ++ [NUL], size := 3 }], [.unit, .text ("abcdef".toList ++ [NUL]) 3]) := by decide

/-- And trimming it makes its size negative (`none` in the model): `axl_node_set_cdata_content (node,
"a   ", 1)` and axl_node_get_content_trim give the size -2. -/
theorem C51_cdata_size_negative :
    run [] [.setCdata ("a   ".toList ++ [NUL]) 1, .getTrim] = none ∧
    trimWithSize ("a   ".toList ++ [NUL]) = some ('a' :: NUL :: "  ".toList ++ [NUL], 3) := by decide

end Axl
