/-
Properties C20 and C21: escaping of contents and attribute values.
-/
import Verif.Proofs.Escape

namespace Axl
open Str Escape Spec.Escape

namespace Escape

theorem noStraddle_of {s after : List Char}
    (h : ∀ i < s.length, "]]>".toList <+: (s ++ after).drop i → i + 3 ≤ s.length) : NoStraddle s after := by
  rintro r hr ⟨p, rfl⟩ hp
  have hpos := List.length_pos_iff.2 hr
  have := h p.length (by simp; omega) (by rw [List.append_assoc, List.drop_left]; exact hp)
  simp at this; omega

theorem any_special_false {s : List Char} (h : s.any special = false) : esc s = s := by
  apply esc_of_none
  intro c hc
  rw [List.any_eq_false] at h
  exact Bool.eq_false_iff.2 (h c hc)

theorem setContent_spec (s after : List Char) (hn : NUL ∈ after) (hst : NoStraddle s after) :
    setContent (s ++ after) s.length = some { mem := esc s ++ [NUL], size := (esc s).length } := by
  obtain ⟨h1, h2⟩ := hasInvalidChars_spec false s after hn hst
  have h3 := copyAndEscape_spec false s after hn hst _ rfl h2
  rw [escC_false] at h1 h2 h3
  have hz : sizeOr (s ++ after) s.length = some s.length := by
    unfold sizeOr; rw [if_neg (by omega)]; simp
  unfold setContent
  rw [hz]
  simp only [Option.bind_eq_bind, Option.bind_some, h1]
  by_cases hi : s.any special = true
  · rw [if_pos hi, h3]
    simp; omega
  · have hi : s.any special = false := by simpa using hi
    rw [hi, any_special_false hi]
    simp

theorem setContent_neg (s tail : List Char) (hs : NUL ∉ s) :
    setContent (s ++ NUL :: tail) (-1) = setContent (s ++ NUL :: tail) s.length := by
  unfold setContent sizeOr
  rw [if_pos rfl, strlen_spec s tail hs, if_neg (by omega)]
  simp

theorem setCdataContent_spec (s tail : List Char) (hs : NUL ∉ s) (size : Int) (hz : size = s.length ∨ size = -1) :
    setCdataContent (s ++ NUL :: tail) size = some { mem := escC true s ++ [NUL], size := (escC true s).length } := by
  have hst := noStraddle_cstring s tail
  obtain ⟨h1, h2⟩ := hasInvalidChars_spec true s (NUL :: tail) (by simp) hst
  have h3 := copyAndEscape_spec true s (NUL :: tail) (by simp) hst _ rfl h2
  have hz : sizeOr (s ++ NUL :: tail) size = some s.length := by
    unfold sizeOr
    rcases hz with rfl | rfl
    · rw [if_neg (by omega)]; simp
    · rw [if_pos rfl, strlen_spec s tail hs]
  unfold setCdataContent
  rw [hz]
  simp only [Option.bind_eq_bind, Option.bind_some, h1]
  by_cases hi : s.any special = true
  · rw [if_pos hi, h3]
    simp; omega
  · have hi : s.any special = false := by simpa using hi
    have hne : NoCdataEnd s := by
      intro h
      have h' := h.subset (show '>' ∈ "]]>".toList by decide)
      rw [List.any_eq_false] at hi
      exact hi _ h' (by decide)
    rw [hi, escC_noEnd true s hne, any_special_false hi, strlen_spec s tail hs, toStr_spec s tail hs]
    simp

theorem copyAll_spec (ts : List (List Char)) :
    copyAll (ts.map (fun t => { mem := t ++ [NUL], size := t.length })) = some ts.flatten := by
  induction ts with
  | nil => rfl
  | cons t ts ih =>
    simp only [List.map_cons, copyAll, copyOut, ih]
    simp

theorem strlen_nul (s : List Char) (hs : NUL ∉ s) : strlen (s ++ [NUL]) = some s.length := strlen_spec s [] hs

/-- The value stored for an attribute. -/
theorem setValue_esc (s tail : List Char) (hs : NUL ∉ s) : setValue (s ++ NUL :: tail) = some (esc s ++ [NUL]) := by
  have hst := noStraddle_cstring s tail
  obtain ⟨h1, h2⟩ := hasInvalidChars_spec false s (NUL :: tail) (by simp) hst
  have h3 := copyAndEscape_spec false s (NUL :: tail) (by simp) hst _ rfl h2
  rw [escC_false] at h1 h2 h3
  unfold setValue
  rw [strlen_spec s tail hs]
  simp only [Option.bind_eq_bind, Option.bind_some, h1]
  by_cases hi : s.any special = true
  · rw [if_pos hi, h3]
  · have hi : s.any special = false := by simpa using hi
    rw [hi, any_special_false hi, toStr_spec s tail hs]; simp

/-- Reading back contents stored with their sizes. -/
theorem getContentTrans_spec (ts : List (List Char)) (hne : ts ≠ []) (hts : NUL ∉ ts.flatten) :
    ∃ mem out rest, getContentTrans (ts.map (fun t => { mem := t ++ [NUL], size := t.length })) = some (some (mem, out.length)) ∧
      mem = out ++ NUL :: rest ∧ Decodes ts.flatten out := by
  have finish : ∃ mem out rest,
      (do let n ← strlen (ts.flatten ++ [NUL])
          if n = 0 then some (some (ts.flatten ++ [NUL], ts.flatten.length))
          else (translate (ts.flatten ++ [NUL]) ts.flatten.length).map some) = some (some (mem, out.length)) ∧
      mem = out ++ NUL :: rest ∧ Decodes ts.flatten out := by
    rw [strlen_nul _ hts]
    simp only [Option.bind_eq_bind, Option.bind_some]
    by_cases h0 : ts.flatten.length = 0
    · have : ts.flatten = [] := List.eq_nil_of_length_eq_zero h0
      rw [this]
      exact ⟨[NUL], [], [], by simp, by simp, .nil⟩
    · rw [if_neg h0]
      obtain ⟨out, rest, g1, g2, _⟩ := translate_spec ts.flatten [] hts ts.flatten.length (Or.inl rfl)
      rw [g1]
      exact ⟨_, out, rest, rfl, rfl, g2⟩
  match ts, hne, hts, finish with
  | [t], _, hts, finish =>
    simp only [List.flatten_cons, List.flatten_nil, List.append_nil] at finish hts ⊢
    unfold getContentTrans
    simp only [List.map_cons, List.map_nil]
    have hc : getContentCopy { mem := t ++ [NUL], size := t.length } = some (t ++ [NUL], t.length) := by
      unfold getContentCopy
      simp only [strlen_nul t hts, Option.bind_eq_bind, Option.bind_some]
      by_cases h0 : t.length = 0
      · have : t = [] := List.eq_nil_of_length_eq_zero h0
        simp [this]
      · rw [if_neg h0]; simp [copyOut]
    rw [hc, Option.bind_some]
    exact finish
  | t :: u :: ts, _, hts, finish =>
    unfold getContentTrans
    have h1 := copyAll_spec (t :: u :: ts)
    simp only [List.map_cons] at h1 ⊢
    rw [h1]
    simp only [Option.bind_eq_bind, Option.bind_some]
    have h2 : ([({ mem := t ++ [NUL], size := t.length } : Content), { mem := u ++ [NUL], size := u.length }].map Content.size).sum
        + ((ts.map (fun t => ({ mem := t ++ [NUL], size := t.length } : Content))).map Content.size).sum
        = (t :: u :: ts).flatten.length := by
      rw [List.map_map]
      simp only [List.length_flatten, List.map_cons, List.map_nil, List.sum_cons, List.sum_nil]
      have : (Content.size ∘ fun t => ({ mem := t ++ [NUL], size := t.length } : Content)) = List.length := by
        funext x; rfl
      rw [this]; omega
    have h3 : (t.length + (u.length + ((ts.map (fun t => ({ mem := t ++ [NUL], size := t.length } : Content))).map Content.size).sum))
        = (t :: u :: ts).flatten.length := by
      rw [← h2]; simp; omega
    simp only [List.map_cons, List.sum_cons]
    rw [h3]
    exact finish

end Escape

/-- **C20** (contents).  Any number of texts stored with axl_node_set_content, each the first bytes of
some memory (with an explicit size, or -1 for all of a C string): every stored text has no markup
and is as long as its size says, and axl_node_get_content_trans gives the texts back, one after the
other.  The condition on the memory after a text is that it has a terminator and that no "]]>"
crosses the end of the text. -/
theorem C20_content_round_trip (texts : List (List Char × List Char × Int)) (hne : texts ≠ [])
    (h : ∀ x ∈ texts, NUL ∉ x.1 ∧
      ((x.2.2 = -1 ∧ x.2.1.head? = some NUL) ∨
       (x.2.2 = x.1.length ∧ NUL ∈ x.2.1 ∧
         ∀ i < x.1.length, "]]>".toList <+: (x.1 ++ x.2.1).drop i → i + 3 ≤ x.1.length))) :
    ∃ contents : List Content,
      contents.length = texts.length ∧
      (∀ (i : Nat) (x : List Char × List Char × Int), texts[i]? = some x → ∃ c t, contents[i]? = some c ∧ setContent (x.1 ++ x.2.1) x.2.2 = some c ∧
        c.mem = t ++ [NUL] ∧ c.size = t.length ∧ NoMarkup t ∧ NUL ∉ t) ∧
      ∃ rest, getContentTrans contents =
        some (some ((texts.map (fun x => x.1)).flatten ++ NUL :: rest, (texts.map (fun x => x.1)).flatten.length)) := by
  refine ⟨texts.map (fun x => { mem := esc x.1 ++ [NUL], size := (esc x.1).length }), by simp, ?_, ?_⟩
  · intro i x hx
    have hmem := List.mem_of_getElem? hx
    obtain ⟨h1, h2⟩ := h x hmem
    refine ⟨_, esc x.1, by rw [List.getElem?_map, hx]; rfl, ?_, rfl, rfl, noMarkup_esc _, nul_esc h1⟩
    rcases h2 with ⟨h2, h3⟩ | ⟨h2, h3, h4⟩
    · obtain ⟨tail, ht⟩ : ∃ tail, x.2.1 = NUL :: tail := by
        cases hx2 : x.2.1 with
        | nil => rw [hx2] at h3; cases h3
        | cons a t => rw [hx2] at h3; cases h3; exact ⟨t, rfl⟩
      rw [h2, ht, setContent_neg _ _ h1]
      exact setContent_spec _ _ (by simp) (noStraddle_cstring _ _)
    · rw [h2]
      exact setContent_spec _ _ h3 (noStraddle_of h4)
  · have hcat : (texts.map (fun x => esc x.1)).flatten = esc (texts.map (fun x => x.1)).flatten := by
      clear h hne
      induction texts with
      | nil => rfl
      | cons x xs ih => simp only [List.map_cons, List.flatten_cons, ih, esc_append]
    have hnn : NUL ∉ (texts.map (fun x => x.1)).flatten := by
      intro h'
      obtain ⟨l, hl, h2⟩ := List.mem_flatten.1 h'
      obtain ⟨x, hx, rfl⟩ := List.mem_map.1 hl
      exact (h x hx).1 h2
    obtain ⟨mem, out, rest, g1, g2, g3⟩ := getContentTrans_spec (texts.map (fun x => esc x.1)) (by simpa using hne)
      (by rw [hcat]; exact nul_esc hnn)
    rw [hcat] at g3
    have := decodes_unique g3 (decodes_esc _)
    subst this
    refine ⟨rest, ?_⟩
    rw [List.map_map] at g1
    rw [← g2]
    exact g1

example : (setContent ("a<&amp;>'\"]]>".toList ++ [NUL]) (-1)).map (fun c => toStr c.mem) =
    some "a&lt;&amp;amp;&gt;&apos;&quot;]]&gt;".toList := by decide
example : ((setContent ("a<&amp;>".toList ++ [NUL]) (-1)).bind (fun c => getContentTrans [c, c])).map (Option.map (fun r => toStr r.1))
    = some (some "a<&amp;>a<&amp;>".toList) := by decide

/-- **C20** (attributes).  The value stored by axl_node_set_attribute has no markup and
axl_node_get_attribute_value_trans gives the value back. -/
theorem C20_attribute_round_trip (s tail : List Char) (hs : NUL ∉ s) :
    ∃ t rest, setValue (s ++ NUL :: tail) = some (t ++ [NUL]) ∧ NUL ∉ t ∧ NoMarkup t ∧
      getValueTrans (t ++ [NUL]) = some (s ++ NUL :: rest) := by
  have hv := setValue_esc s tail hs
  obtain ⟨out, rest, g1, g2, _⟩ := translate_spec (esc s) [] (nul_esc hs) (esc s).length (Or.inl rfl)
  refine ⟨esc s, rest, hv, nul_esc hs, noMarkup_esc s, ?_⟩
  unfold getValueTrans
  rw [strlen_nul _ (nul_esc hs), toStr_spec _ _ (nul_esc hs)]
  simp only [Option.bind_eq_bind, Option.bind_some, g1]
  rw [decodes_unique g2 (decodes_esc s)]

example : ((setValue ("it's \"x\" & <y>".toList ++ [NUL])).bind getValueTrans).map toStr =
    some "it's \"x\" & <y>".toList := by decide

/-- **C20** (translation).  axl_node_content_translate_defaults replaces in place exactly the default
entities of any content, from left to right, and reports the size of the result. -/
theorem C20_translate (s tail : List Char) (hs : NUL ∉ s) (size : Int) (hz : size = s.length ∨ size = -1) :
    ∃ out rest, translate (s ++ NUL :: tail) size = some (out ++ NUL :: rest, out.length) ∧ Decodes s out ∧
      (∀ o, Decodes s o → o = out) ∧ (out ++ NUL :: rest).length = (s ++ NUL :: tail).length := by
  obtain ⟨out, rest, g1, g2, g3⟩ := translate_spec s tail hs size hz
  exact ⟨out, rest, g1, g2, fun o h => decodes_unique h g2, g3⟩

example : (translate ("&amp;lt; &foo; &lt".toList ++ [NUL]) (-1)).map (fun r => (toStr r.1, r.2)) =
    some ("&lt; &foo; &lt".toList, 14) := by decide

/-- **C20** (CDATA), partial: a text stored with axl_node_set_cdata_content comes back if "]]>" is not
in it. -/
theorem C20_cdata_round_trip_partial (s tail : List Char) (hs : NUL ∉ s) (hc : NoCdataEnd s) (size : Int)
    (hz : size = s.length ∨ size = -1) :
    ∃ c rest, setCdataContent (s ++ NUL :: tail) size = some c ∧
      getContentTrans [c] = some (some (s ++ NUL :: rest, s.length)) := by
  rw [setCdataContent_spec s tail hs size hz, escC_noEnd true s hc]
  obtain ⟨mem, out, rest, g1, g2, g3⟩ := getContentTrans_spec [esc s] (by simp) (by simpa using nul_esc hs)
  simp only [List.flatten_cons, List.flatten_nil, List.append_nil] at g3
  have := decodes_unique g3 (decodes_esc _)
  subst this
  exact ⟨_, rest, rfl, by rw [← g2]; exact g1⟩

example : ((setCdataContent ("x < y]] >".toList ++ [NUL]) (-1)).bind (fun c => getContentTrans [c])).map (Option.map (fun r => toStr r.1)) =
    some (some "x < y]] >".toList) := by decide

/-- **C20** fails for CDATA with "]]>": another text comes back. -/
theorem C20_cdata_end_not_restored :
    ((setCdataContent ("a]]>b".toList ++ [NUL]) (-1)).bind (fun c => getContentTrans [c])).map (Option.map (fun r => toStr r.1)) =
      some (some "a]]>]]><![CDATA[b".toList) := by decide

/-- **C20** fails to store CDATA literally: the markup characters of a CDATA section are escaped, so a
reader of the document (which does not expand entities in CDATA) sees other characters. -/
theorem C20_cdata_is_escaped :
    (setCdataContent ("a<b".toList ++ [NUL]) (-1)).map (fun c => toStr c.mem) = some "a&lt;b".toList := by decide

/-- **C21**.  For any content with the bytes that follow it, in both modes: the copy fits in the
memory reserved by the scan and fills it, but for the terminator in the last byte.  The content may
have any bytes; the memory after it must have a terminator, and no "]]>" may cross its end (never the
case for a C string with its length). -/
theorem C21_escape_size_partial (cdata : Bool) (s after : List Char) (hn : NUL ∈ after)
    (hst : ∀ i < s.length, "]]>".toList <+: (s ++ after).drop i → i + 3 ≤ s.length) :
    ∃ invalid added out, hasInvalidChars (s ++ after) s.length cdata = some (invalid, added) ∧
      copyAndEscape (s ++ after) s.length added cdata = some (out ++ [NUL]) ∧
      out.length = s.length + added ∧
      (invalid = true ↔ ∃ c ∈ s, c = '<' ∨ c = '>' ∨ c = '&' ∨ c = '\'' ∨ c = '"') := by
  obtain ⟨h1, h2⟩ := hasInvalidChars_spec cdata s after hn (noStraddle_of hst)
  refine ⟨_, _, escC cdata s, h1, copyAndEscape_spec cdata s after hn (noStraddle_of hst) _ rfl h2, by omega, ?_⟩
  rw [List.any_eq_true]
  constructor
  · rintro ⟨c, hc, h⟩
    refine ⟨c, hc, ?_⟩
    simp [special] at h
    rcases h with (((h | h) | h) | h) | h <;> simp [h]
  · rintro ⟨c, hc, h⟩
    refine ⟨c, hc, ?_⟩
    simp [special]
    rcases h with h | h | h | h | h <;> simp [h]

/-- **C21** for C strings with their length: no condition is left. -/
theorem C21_escape_size_c_string (cdata : Bool) (s tail : List Char) :
    ∃ invalid added out, hasInvalidChars (s ++ NUL :: tail) s.length cdata = some (invalid, added) ∧
      copyAndEscape (s ++ NUL :: tail) s.length added cdata = some (out ++ [NUL]) ∧
      out.length = s.length + added := by
  have hst := noStraddle_cstring s tail
  obtain ⟨h1, h2⟩ := hasInvalidChars_spec cdata s (NUL :: tail) (by simp) hst
  exact ⟨_, _, escC cdata s, h1, copyAndEscape_spec cdata s _ (by simp) hst _ rfl h2, by omega⟩

example : hasInvalidChars ("a]]>b".toList ++ [NUL]) 5 true = some (true, 15) ∧
    hasInvalidChars ("a]]>b&".toList ++ [NUL]) 6 false = some (true, 7) := by decide

/-- **C21** fails for a content cut inside "]]>": `axl_node_set_content (node, "]]>", 1)` reserves 5
bytes and writes 6, in both modes it writes outside of the memory; with size 2 no terminator is left. -/
theorem C21_cut_inside_cdata_end_overflows :
    hasInvalidChars ("]]>".toList ++ [NUL]) 1 false = some (true, 3) ∧
    copyAndEscape ("]]>".toList ++ [NUL]) 1 3 false = none ∧
    hasInvalidChars ("]]>".toList ++ [NUL]) 1 true = some (true, 15) ∧
    copyAndEscape ("]]>".toList ++ [NUL]) 1 15 true = none ∧
    copyAndEscape ("]]>".toList ++ [NUL]) 2 3 false = some "]]&gt;".toList := by decide

end Axl
