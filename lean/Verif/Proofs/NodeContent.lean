/-
The content functions of a node against `Spec.NodeContent`.
-/
import Verif.Model.NodeContent
import Verif.Spec.NodeContent
import Verif.Props.Escape
import Verif.Props.Str

namespace Axl.NodeContent
open Str Escape Spec.Escape Spec.Str Spec.NodeContent

/-- The content holds the string. -/
def Holds (c : Content) (s : List Char) : Prop :=
  NUL ∉ s ∧ c.size = s.length ∧ ∃ rest, c.mem = s ++ NUL :: rest

/-- The item is the piece. -/
def ItemIs : Item → Piece → Prop
  | .text c, .text s => Holds c s
  | .cdata c, .cdata s => Holds c s
  | .comment c, .comment s => Holds c s
  | .other, .other => True
  | _, _ => False

/-- The call is the request.  Strings come as the first bytes of some memory. -/
def OpIs : Op → Req → Prop
  | .setContent mem size, .addText s => NUL ∉ s ∧ ∃ after, mem = s ++ after ∧
      ((size = -1 ∧ after.head? = some NUL) ∨
       (size = s.length ∧ NUL ∈ after ∧
         ∀ i < s.length, "]]>".toList <+: (s ++ after).drop i → i + 3 ≤ s.length))
  | .setContentRef mem size, .addEncoded s =>
      NUL ∉ s ∧ (∃ tail, mem = s ++ NUL :: tail) ∧ (size = -1 ∨ size = s.length)
  | .setCdata mem size, .addCdata s =>
      NUL ∉ s ∧ (∃ tail, mem = s ++ NUL :: tail) ∧ (size = -1 ∨ size = s.length) ∧ NoCdataEnd s
  | .setCdataRef mem size, .addCdataEncoded s =>
      NUL ∉ s ∧ (∃ tail, mem = s ++ NUL :: tail) ∧ (size = -1 ∨ size = s.length)
  | .setComment mem size, .addComment s => NUL ∉ s ∧ ∃ after, mem = s ++ after ∧
      ((size = -1 ∧ after.head? = some NUL) ∨ size = s.length)
  | .setOther, .addOther => True
  | .isEmpty, .isEmpty => True
  | .getContent, .content => True
  | .getCopy, .copy => True
  | .getTrim, .trim => True
  | .getTrans, .trans => True
  | .itemContent i, .piece j => i = j
  | _, _ => False

/-- The answer of the call is the reply: a text is returned as a C string with its size. -/
def AnsIs : Ans → Reply → Prop
  | .unit, .done => True
  | .bool a, .bool b => a = b
  | .null, .noText => True
  | .text mem size, .text s => NUL ∉ s ∧ size = s.length ∧ ∃ rest, mem = s ++ NUL :: rest
  | _, _ => False

theorem escaped_eq (s : List Char) : escaped s = esc s := by
  unfold escaped esc
  congr 1
  funext c
  unfold ent
  simp only [entities, List.find?]
  by_cases h1 : c = '\''
  · subst h1; rfl
  · by_cases h2 : c = '"'
    · subst h2; rfl
    · by_cases h3 : c = '&'
      · subst h3; rfl
      · by_cases h4 : c = '>'
        · subst h4; rfl
        · by_cases h5 : c = '<'
          · subst h5; rfl
          · simp [h1, h2, h3, h4, h5, beq_iff_eq, Ne.symm h1, Ne.symm h2, Ne.symm h3, Ne.symm h4, Ne.symm h5,
              beq_eq_false_iff_ne.2 (Ne.symm h1), beq_eq_false_iff_ne.2 (Ne.symm h2),
              beq_eq_false_iff_ne.2 (Ne.symm h3), beq_eq_false_iff_ne.2 (Ne.symm h4), beq_eq_false_iff_ne.2 (Ne.symm h5)]

theorem all₂_append {α β : Type} {R : α → β → Prop} {as : List α} {bs : List β} {a : α} {b : β} (h : All₂ R as bs)
    (hab : R a b) : All₂ R (as ++ [a]) (bs ++ [b]) := by
  induction h with
  | nil => exact .cons hab .nil
  | cons h1 _ ih => exact .cons h1 ih

theorem all₂_get {α β : Type} {R : α → β → Prop} {as : List α} {bs : List β} (h : All₂ R as bs) (i : Nat) :
    (as[i]? = none ∧ bs[i]? = none) ∨ ∃ a b, as[i]? = some a ∧ bs[i]? = some b ∧ R a b := by
  induction h generalizing i with
  | nil => left; simp
  | cons h1 _ ih =>
    match i with
    | 0 => right; exact ⟨_, _, rfl, rfl, h1⟩
    | i + 1 => simpa using ih i

theorem contents_is {items : List Item} {ps : List Piece} (h : All₂ ItemIs items ps) :
    All₂ Holds (items.filterMap Item.content?) (ps.filterMap Piece.text?) := by
  induction h with
  | nil => exact .nil
  | @cons a b as bs h1 _ ih =>
    cases a <;> cases b <;> simp only [ItemIs] at h1 <;>
      simp only [List.filterMap_cons, Item.content?, Piece.text?]
    · exact .cons h1 ih
    · exact .cons h1 ih
    · exact ih
    · exact ih

theorem isEmpty_is (items : List Item) : isEmpty items = (items.filterMap Item.content?).isEmpty := by
  induction items with
  | nil => rfl
  | cons i items ih =>
    rw [isEmpty]
    cases h : i.content? with
    | none => simp [h, ih]
    | some c => simp [h]

theorem getContent_is (items : List Item) :
    getContent items = (items.filterMap Item.content?).headD { mem := [NUL], size := 0 } := by
  induction items with
  | nil => rfl
  | cons i items ih =>
    rw [getContent]
    cases h : i.content? with
    | none => simp [h, ih]
    | some c => simp [h]

theorem head_is {cs : List Content} {ts : List (List Char)} (h : All₂ Holds cs ts) :
    Holds (cs.headD { mem := [NUL], size := 0 }) (ts.headD []) := by
  cases h with
  | nil => exact ⟨by simp, rfl, [], rfl⟩
  | cons h1 _ => exact h1

theorem copyOut_holds {c : Content} {s : List Char} (h : Holds c s) : copyOut c = some s := by
  obtain ⟨_, h2, rest, h3⟩ := h
  unfold copyOut
  rw [h2, h3, if_pos (by simp)]
  simp

theorem getContentCopy_holds {c : Content} {s : List Char} (h : Holds c s) :
    getContentCopy c = some (s ++ [NUL], s.length) := by
  have h' := h
  obtain ⟨h1, h2, rest, h3⟩ := h
  unfold getContentCopy
  rw [h3, strlen_spec s rest h1, copyOut_holds h', h2]
  simp only [Option.bind_eq_bind, Option.bind_some]
  by_cases h0 : s.length = 0
  · have : s = [] := List.eq_nil_of_length_eq_zero h0
    simp [this]
  · rw [if_neg h0]

/-- A content that is just the string. -/
def just (t : List Char) : Content := { mem := t ++ [NUL], size := t.length }

theorem just_holds {t : List Char} (h : NUL ∉ t) : Holds (just t) t := ⟨h, rfl, [], rfl⟩

theorem copyAll_holds {cs : List Content} {ts : List (List Char)} (h : All₂ Holds cs ts) : copyAll cs = some ts.flatten := by
  induction h with
  | nil => rfl
  | cons h1 _ ih => rw [copyAll, copyOut_holds h1, ih]; rfl

theorem sizes_holds {cs : List Content} {ts : List (List Char)} (h : All₂ Holds cs ts) :
    (cs.map Content.size) = ts.map List.length := by
  induction h with
  | nil => rfl
  | cons h1 _ ih => simp [h1.2.1, ih]

theorem nul_flatten {cs : List Content} {ts : List (List Char)} (h : All₂ Holds cs ts) : NUL ∉ ts.flatten := by
  induction h with
  | nil => simp
  | cons h1 _ ih => simpa using ⟨h1.1, by simpa using ih⟩

theorem all₂_just {ts : List (List Char)} (h : NUL ∉ ts.flatten) : All₂ Holds (ts.map just) ts := by
  induction ts with
  | nil => exact .nil
  | cons t ts ih =>
    simp only [List.flatten_cons, List.mem_append, not_or] at h
    exact .cons (just_holds h.1) (ih h.2)

theorem getContentTrans_holds {cs : List Content} {ts : List (List Char)} (h : All₂ Holds cs ts) :
    getContentTrans cs = getContentTrans (ts.map just) := by
  have hj := all₂_just (nul_flatten h)
  match h, hj with
  | .nil, _ => rfl
  | .cons (bs := []) h1 .nil, _ =>
    unfold getContentTrans
    simp only [List.map_cons, List.map_nil]
    rw [getContentCopy_holds h1, getContentCopy_holds (just_holds h1.1)]
  | .cons h1 (.cons h2 h3), hj =>
    have e1 := copyAll_holds (.cons h1 (.cons h2 h3))
    have e2 := copyAll_holds hj
    have e3 := sizes_holds (.cons h1 (.cons h2 h3))
    have e4 := sizes_holds hj
    simp only [List.map_cons] at e1 e2 e3 e4 ⊢
    unfold getContentTrans
    simp only [List.map_cons]
    rw [e1, e2, e3, e4]

theorem trimContent_holds {c : Content} {s : List Char} (h : Holds c s) :
    ∃ c' t, trimContent c = some c' ∧ Holds c' t ∧ Trimmed s t := by
  obtain ⟨h1, h2, rest, h3⟩ := h
  obtain ⟨t, rest', g1, _, g2, _, _⟩ := C16_trim s rest h1
  have hlen : t.length ≤ s.length := by
    obtain ⟨l, r, e, _⟩ := g1; rw [e]; simp; omega
  have ht : NUL ∉ t := by
    obtain ⟨l, r, e, _⟩ := g1
    intro h; apply h1; rw [e]; simp [h]
  unfold trimContent
  rw [h3, g2]
  simp only [Option.bind_eq_bind, Option.bind_some]
  rw [if_pos (by omega)]
  exact ⟨_, t, rfl, ⟨ht, by simp only; omega, _, rfl⟩, g1⟩

theorem getTrim_is {items : List Item} {ps : List Piece} (h : All₂ ItemIs items ps) :
    ∃ items' c t qs, getTrim items = some (items', c) ∧ All₂ ItemIs items' qs ∧ Holds c t ∧ TrimFirst ps t qs := by
  induction h with
  | nil => exact ⟨[], _, [], [], rfl, .nil, ⟨by simp, rfl, [], rfl⟩, .none (by simp)⟩
  | @cons a b as bs h1 h2 ih =>
    have skip : ∀ p : Piece, p.text? = none → (∃ items' c t qs, getTrim as = some (items', c) ∧ All₂ ItemIs items' qs ∧ Holds c t ∧ TrimFirst bs t qs) →
        ∃ items' c t qs, getTrim as = some (items', c) ∧ All₂ ItemIs items' qs ∧ Holds c t ∧ TrimFirst (p :: bs) t (p :: qs) := by
      rintro p hp ⟨items', c, t, qs, g1, g2, g3, g4⟩
      refine ⟨items', c, t, qs, g1, g2, g3, ?_⟩
      cases g4 with
      | none h => exact .none (by simpa [hp] using h)
      | @text before s _ after h k => exact .text (before := p :: before) (by simpa [hp] using h) k
      | @cdata before s _ after h k => exact .cdata (before := p :: before) (by simpa [hp] using h) k
    cases a <;> cases b <;> simp only [ItemIs] at h1
    · obtain ⟨c', t, g1, g2, g3⟩ := trimContent_holds h1
      refine ⟨.text c' :: as, c', t, .text t :: bs, ?_, .cons g2 h2, g2, .text (before := []) (by simp) g3⟩
      rw [getTrim, g1]; rfl
    · obtain ⟨c', t, g1, g2, g3⟩ := trimContent_holds h1
      refine ⟨.cdata c' :: as, c', t, .cdata t :: bs, ?_, .cons g2 h2, g2, .cdata (before := []) (by simp) g3⟩
      rw [getTrim, g1]; rfl
    · rename_i ca sb
      obtain ⟨items', c, t, qs, g1, g2, g3, g4⟩ := skip (.comment sb) rfl ih
      refine ⟨.comment ca :: items', c, t, .comment sb :: qs, ?_, .cons (by exact h1) g2, g3, g4⟩
      rw [getTrim, g1]
      · rfl
      all_goals (intro _ hh; cases hh)
    · obtain ⟨items', c, t, qs, g1, g2, g3, g4⟩ := skip .other rfl ih
      refine ⟨.other :: items', c, t, .other :: qs, ?_, .cons trivial g2, g3, g4⟩
      rw [getTrim, g1]
      · rfl
      all_goals (intro _ hh; cases hh)

theorem sizeOr_is {s tail : List Char} (hs : NUL ∉ s) {size : Int} (h : size = -1 ∨ size = s.length) :
    sizeOr (s ++ NUL :: tail) size = some s.length := by
  unfold sizeOr
  rcases h with rfl | rfl
  · rw [if_pos rfl, strlen_spec s tail hs]
  · rw [if_neg (by omega)]; simp

theorem setRef_is {s tail : List Char} (hs : NUL ∉ s) {size : Int} (h : size = -1 ∨ size = s.length) :
    ∃ c, setRef (s ++ NUL :: tail) size = some c ∧ Holds c s := by
  unfold setRef
  rw [sizeOr_is hs h]
  exact ⟨_, rfl, hs, rfl, tail, rfl⟩

theorem holds_of_size {c : Content} {s : List Char} (h : Holds c s) : AnsIs (Ans.of (some c)) (.text s) := by
  obtain ⟨h1, h2, h3⟩ := h
  exact ⟨h1, h2, h3⟩

theorem decodes_nul {s o : List Char} (h : Decodes s o) (hs : NUL ∉ s) : NUL ∉ o := by
  induction h with
  | nil => simp
  | @entity e t out he _ ih =>
    simp only [List.mem_append, not_or] at hs
    have := ih hs.2
    have hn : ∀ e ∈ entities, e.2 ≠ NUL := by decide
    simp [this, Ne.symm (hn e he)]
  | other _ _ ih =>
    simp only [List.mem_cons, not_or] at hs ⊢
    exact ⟨hs.1, ih hs.2⟩

theorem step_is {items : List Item} {ps : List Piece} (h : All₂ ItemIs items ps) {op : Op} {req : Req} (ho : OpIs op req) :
    ∃ items' a qs r, step items op = some (items', a) ∧ Step ps req qs r ∧ All₂ ItemIs items' qs ∧ AnsIs a r := by
  cases op <;> cases req <;> simp only [OpIs] at ho
  case setContent.addText mem size s =>
    obtain ⟨hs, after, rfl, hz⟩ := ho
    have hset : Escape.setContent (s ++ after) size = some { mem := esc s ++ [NUL], size := (esc s).length } := by
      rcases hz with ⟨rfl, ha⟩ | ⟨rfl, hn, hst⟩
      · cases after with
        | nil => simp at ha
        | cons a tail =>
          simp only [List.head?_cons, Option.some.injEq] at ha
          subst ha
          rw [setContent_neg s tail hs]
          exact setContent_spec s _ (by simp) (noStraddle_cstring s tail)
      · exact setContent_spec s after hn (noStraddle_of hst)
    refine ⟨items ++ [.text { mem := esc s ++ [NUL], size := (esc s).length }], .unit, _, _, by rw [step, hset]; rfl,
      .addText, all₂_append h ?_, trivial⟩
    rw [escaped_eq]
    exact ⟨nul_esc hs, rfl, [], rfl⟩
  case setContentRef.addEncoded mem size s =>
    obtain ⟨hs, ⟨tail, rfl⟩, hz⟩ := ho
    obtain ⟨c, g1, g2⟩ := setRef_is (tail := tail) hs hz
    exact ⟨items ++ [.text c], .unit, _, _, by rw [step, g1]; rfl, .addEncoded, all₂_append h (by exact g2), trivial⟩
  case setCdata.addCdata mem size s =>
    obtain ⟨hs, ⟨tail, rfl⟩, hz, hc⟩ := ho
    have hset := setCdataContent_spec s tail hs size hz.symm
    rw [escC_noEnd true s hc] at hset
    refine ⟨items ++ [.cdata { mem := esc s ++ [NUL], size := (esc s).length }], .unit, _, _, by rw [step, hset]; rfl,
      .addCdata, all₂_append h ?_, trivial⟩
    rw [escaped_eq]
    exact ⟨nul_esc hs, rfl, [], rfl⟩
  case setCdataRef.addCdataEncoded mem size s =>
    obtain ⟨hs, ⟨tail, rfl⟩, hz⟩ := ho
    obtain ⟨c, g1, g2⟩ := setRef_is (tail := tail) hs hz
    exact ⟨items ++ [.cdata c], .unit, _, _, by rw [step, g1]; rfl, .addCdataEncoded, all₂_append h (by exact g2), trivial⟩
  case setComment.addComment mem size s =>
    obtain ⟨hs, after, rfl, hz⟩ := ho
    have hsz : sizeOr (s ++ after) size = some s.length := by
      rcases hz with ⟨rfl, ha⟩ | rfl
      · cases after with
        | nil => simp at ha
        | cons a tail =>
          simp only [List.head?_cons, Option.some.injEq] at ha
          subst ha
          exact sizeOr_is hs (Or.inl rfl)
      · unfold sizeOr; rw [if_neg (by omega)]; simp
    have hset : NodeContent.setComment (s ++ after) size = some (just s) := by
      unfold NodeContent.setComment
      rw [hsz]
      simp [just]
    exact ⟨items ++ [.comment (just s)], .unit, _, _, by rw [step, hset]; rfl, .addComment,
      all₂_append h (by exact just_holds hs), trivial⟩
  case setOther.addOther => exact ⟨_, _, _, _, rfl, .addOther, all₂_append h trivial, trivial⟩
  case isEmpty.isEmpty =>
    refine ⟨_, _, _, _, rfl, .isEmpty, h, ?_⟩
    rw [isEmpty_is]
    have := contents_is h
    revert this
    generalize items.filterMap Item.content? = cs
    generalize ps.filterMap Piece.text? = ts
    intro hh
    cases hh <;> rfl
  case getContent.content =>
    refine ⟨_, _, _, _, rfl, .content, h, ?_⟩
    rw [getContent_is]
    exact holds_of_size (head_is (contents_is h))
  case getCopy.copy =>
    have hh := head_is (contents_is h)
    have hc : NodeContent.getCopy items = some ((ps.filterMap Piece.text?).headD [] ++ [NUL], ((ps.filterMap Piece.text?).headD []).length) := by
      unfold NodeContent.getCopy
      rw [getContent_is]
      exact getContentCopy_holds hh
    exact ⟨items, .text ((ps.filterMap Piece.text?).headD [] ++ [NUL]) ((ps.filterMap Piece.text?).headD []).length, _, _,
      by rw [step, hc]; rfl, .copy, h, hh.1, rfl, [], rfl⟩
  case getTrim.trim =>
    obtain ⟨items', c, t, qs, g1, g2, g3, g4⟩ := getTrim_is h
    exact ⟨items', Ans.of (some c), _, _, by rw [step, g1]; rfl, .trim g4, g2, holds_of_size g3⟩
  case getTrans.trans =>
    have hc := contents_is h
    by_cases hne : ps.filterMap Piece.text? = []
    · have ht : NodeContent.getTrans items = some none := by
        unfold NodeContent.getTrans
        rw [getContentTrans_holds hc, hne]; rfl
      exact ⟨items, .null, _, _, by rw [step, ht]; rfl, .transNone hne, h, trivial⟩
    · obtain ⟨mem, out, rest, g1, g2, g3⟩ := getContentTrans_spec _ hne (nul_flatten hc)
      have ht : NodeContent.getTrans items = some (some (mem, out.length)) := by
        unfold NodeContent.getTrans
        rw [getContentTrans_holds hc]; exact g1
      exact ⟨items, .text mem out.length, _, _, by rw [step, ht]; rfl, .trans hne g3, h, decodes_nul g3 (nul_flatten hc), rfl, rest, g2⟩
  case itemContent.piece i j =>
    subst ho
    rcases all₂_get h i with ⟨g1, g2⟩ | ⟨a, b, g1, g2, g3⟩
    · refine ⟨_, _, _, _, rfl, .pieceNone (by rw [g2]; rfl), h, ?_⟩
      rw [g1]; trivial
    · cases a <;> cases b <;> simp only [ItemIs] at g3
      · refine ⟨_, _, _, _, rfl, .piece (by rw [g2]; rfl), h, ?_⟩
        rw [g1]; exact holds_of_size g3
      · refine ⟨_, _, _, _, rfl, .piece (by rw [g2]; rfl), h, ?_⟩
        rw [g1]; exact holds_of_size g3
      · refine ⟨_, _, _, _, rfl, .piece (by rw [g2]; rfl), h, ?_⟩
        rw [g1]; exact holds_of_size g3
      · refine ⟨_, _, _, _, rfl, .pieceNone (by rw [g2]; rfl), h, ?_⟩
        rw [g1]; trivial

theorem run_is {items : List Item} {ps : List Piece} (h : All₂ ItemIs items ps) {ops : List Op} {reqs : List Req}
    (ho : All₂ OpIs ops reqs) :
    ∃ items' as qs rs, run items ops = some (items', as) ∧ Run ps reqs qs rs ∧ All₂ ItemIs items' qs ∧ All₂ AnsIs as rs := by
  induction ho generalizing items ps with
  | nil => exact ⟨_, _, _, _, rfl, .nil, h, .nil⟩
  | cons h1 _ ih =>
    obtain ⟨items1, a, qs1, r, g1, g2, g3, g4⟩ := step_is h h1
    obtain ⟨items2, as, qs2, rs, k1, k2, k3, k4⟩ := ih g3
    refine ⟨items2, a :: as, qs2, r :: rs, ?_, .cons g2 k2, k3, .cons g4 k4⟩
    rw [run, g1]
    simp only [Option.bind_eq_bind, Option.bind_some, k1]

/-! The specification leaves no choice. -/

theorem first_unique {b b' : List Piece} {p p' : Piece} {a a' : List Piece} (h : b ++ p :: a = b' ++ p' :: a')
    (hb : ∀ q ∈ b, q.text? = none) (hb' : ∀ q ∈ b', q.text? = none) (hp : p.text? ≠ none) (hp' : p'.text? ≠ none) :
    b = b' ∧ p = p' ∧ a = a' := by
  induction b generalizing b' with
  | nil =>
    cases b' with
    | nil => simp at h; exact ⟨rfl, h⟩
    | cons q b' =>
      simp at h
      exact absurd (h.1 ▸ hb' q (by simp)) hp
  | cons q b ih =>
    cases b' with
    | nil =>
      simp at h
      exact absurd (h.1 ▸ hb q (by simp)) hp'
    | cons q' b' =>
      simp only [List.cons_append, List.cons.injEq] at h
      obtain ⟨h1, h2, h3⟩ := ih h.2 (fun x hx => hb x (by simp [hx])) (fun x hx => hb' x (by simp [hx]))
      exact ⟨by rw [h.1, h1], h2, h3⟩

theorem trimFirst_unique {ps qs qs' : List Piece} {t t' : List Char} (h : TrimFirst ps t qs) (h' : TrimFirst ps t' qs') :
    t = t' ∧ qs = qs' := by
  generalize e : ps = xs at h'
  cases h with
  | none h =>
    cases h' with
    | none => exact ⟨rfl, e⟩
    | text hb k => subst e; exact absurd (h _ (List.mem_append_right _ (List.mem_cons_self ..))) (by simp [Piece.text?])
    | cdata hb k => subst e; exact absurd (h _ (List.mem_append_right _ (List.mem_cons_self ..))) (by simp [Piece.text?])
  | text hb k =>
    cases h' with
    | none h => subst e; exact absurd (h _ (List.mem_append_right _ (List.mem_cons_self ..))) (by simp [Piece.text?])
    | text hb' k' =>
      obtain ⟨h1, h2, h3⟩ := first_unique e hb hb' (by simp [Piece.text?]) (by simp [Piece.text?])
      cases h2
      have := trimmed_unique k k'
      exact ⟨this, by rw [h1, h3, this]⟩
    | cdata hb' k' =>
      obtain ⟨h1, h2, h3⟩ := first_unique e hb hb' (by simp [Piece.text?]) (by simp [Piece.text?])
      cases h2
  | cdata hb k =>
    cases h' with
    | none h => subst e; exact absurd (h _ (List.mem_append_right _ (List.mem_cons_self ..))) (by simp [Piece.text?])
    | cdata hb' k' =>
      obtain ⟨h1, h2, h3⟩ := first_unique e hb hb' (by simp [Piece.text?]) (by simp [Piece.text?])
      cases h2
      have := trimmed_unique k k'
      exact ⟨this, by rw [h1, h3, this]⟩
    | text hb' k' =>
      obtain ⟨h1, h2, h3⟩ := first_unique e hb hb' (by simp [Piece.text?]) (by simp [Piece.text?])
      cases h2

theorem step_unique {ps qs qs' : List Piece} {req : Req} {r r' : Reply} (h : Step ps req qs r) (h' : Step ps req qs' r') :
    qs = qs' ∧ r = r' := by
  cases h <;> cases h' <;> first | exact ⟨rfl, rfl⟩ | skip
  case trim.trim h _ h' => obtain ⟨a, b⟩ := trimFirst_unique h h'; exact ⟨b, by rw [a]⟩
  case transNone.trans h _ h' _ => exact absurd h h'
  case trans.transNone h _ h' => exact absurd h' h
  case trans.trans h _ _ h' => exact ⟨rfl, by rw [decodes_unique h h']⟩
  case pieceNone.piece h _ h' => rw [h] at h'; cases h'
  case piece.pieceNone h h' => rw [h] at h'; cases h'
  case piece.piece h _ h' => rw [h] at h'; cases h'; exact ⟨rfl, rfl⟩

theorem run_unique {ps qs qs' : List Piece} {reqs : List Req} {rs rs' : List Reply} (h : Run ps reqs qs rs)
    (h' : Run ps reqs qs' rs') : qs = qs' ∧ rs = rs' := by
  induction h generalizing qs' rs' with
  | nil => cases h'; exact ⟨rfl, rfl⟩
  | cons h1 _ ih =>
    cases h' with
    | cons k1 k2 =>
      obtain ⟨rfl, rfl⟩ := step_unique h1 k1
      obtain ⟨rfl, rfl⟩ := ih k2
      exact ⟨rfl, rfl⟩

end Axl.NodeContent
