/-
Parts of attribute declarations: the parser over the memory does what the one over the text does.
-/
import Verif.Proofs.DtdMemElement

namespace Axl
namespace DtdMem
open Str Dtd

section
variable {ask : Bool} {s : List Char} {d : MDtd} {tmp : List Nat} {last : Option Nat} {w : World}

/-! ### Entities -/

theorem mem_ents {e : MEntity} (he : e ∈ d.ents) {i : Nat} (hi : i ∈ e.blocks) : i ∈ d.blocks := by
  unfold MDtd.blocks
  have : i ∈ (d.ents.map MEntity.blocks).flatten := List.mem_flatten.2 ⟨_, List.mem_map.2 ⟨e, he, rfl⟩, hi⟩
  simp [this]

theorem entityValue_run {name : Text} {type : EntityType} : ∀ {es : List MEntity} {w : World}, (∀ e ∈ es, ∀ i ∈ e.blocks, i ∈ w.heap) →
    (∀ e ∈ es, e.name ≠ none) → name.id ∈ w.heap →
    entityValue name type es w =
      .ret (((es.map MEntity.val).find? fun e => decide (e.type = type) && cmp (some e.name) (some name.text)).bind (·.content)) w
  | [], _, _, _, _ => rfl
  | e :: es, w, hb, hn, hm => by
    unfold entityValue
    have ih := entityValue_run (type := type) (es := es) (fun e' h' => hb e' (by simp [h'])) (fun e' h' => hn e' (by simp [h'])) hm
    rw [bind_use (hb e (by simp) _ (by simp [MEntity.blocks]))]
    simp only [List.map_cons, List.find?_cons]
    by_cases ht : e.type = type
    · rw [if_pos ht]
      cases hname : e.name with
      | none => exact absurd hname (hn e (by simp))
      | some n =>
        simp only
        rw [bind_use (hb e (by simp) _ (by simp [MEntity.blocks, hname])), bind_use hm]
        by_cases hc : cmp (some n.text) (some name.text) = true
        · rw [if_pos hc]
          have : (decide (e.val.type = type) && cmp (some e.val.name) (some name.text)) = true := by
            simp [MEntity.val, ht, hname, hc]
          rw [this]
          cases hcon : e.content with
          | none => simp [MEntity.val, hcon, pure_eq]
          | some c =>
            simp only
            rw [bind_use (hb e (by simp) _ (by simp [MEntity.blocks, hcon]))]
            simp [MEntity.val, hcon, pure_eq]
        · rw [if_neg hc, ih]
          have : (decide (e.val.type = type) && cmp (some e.val.name) (some name.text)) = false := by
            simp [MEntity.val, ht, hname, hc]
          rw [this]
    · rw [if_neg ht, ih]
      have : (decide (e.val.type = type) && cmp (some e.val.name) (some name.text)) = false := by
        simp [MEntity.val, ht]
      rw [this]

theorem move_any (h : Any ask s d tmp w) (rest : List Char) : ∃ w', move rest w = .ret () w' ∧ Any ask rest d tmp w' := by
  obtain ⟨last, h⟩ := h
  obtain ⟨w1, e1, h1⟩ := freeLast_at h
  obtain ⟨m, e2, _, _⟩ := h1.getS
  obtain ⟨w2, e3, h2⟩ := h1.setRest rest e2
  unfold move
  exact ⟨w2, by rw [bind_ret e1, bind_ret e2, e3], h2.any⟩

theorem push_any (h : Any ask s d tmp w) (content : List Char) : ∃ w', push content w = .ret () w' ∧ Any ask (content ++ s) d tmp w' := by
  obtain ⟨last, h⟩ := h
  obtain ⟨m, e2, hr, _⟩ := h.getS
  obtain ⟨w2, e3, h2⟩ := h.setRest (content ++ s) e2
  obtain ⟨w3, e4, h3⟩ := freeLast_at h2
  unfold push
  exact ⟨w3, by rw [bind_ret e2, hr, bind_ret e3, e4], h3.any⟩

theorem expand_any {x : Dtd} (h : Any ask s d tmp w) (hn : Neat d) (hx : x.entities = d.val.entities) :
    Follows (fun s' b w' => b = true ∧ Any ask s' d tmp w') (fun b w' => b = false ∧ Dead ask tmp w') (Dtd.expand x s) (expand w) := by
  unfold expand Dtd.expand
  obtain ⟨st, est, hst⟩ := h.getS
  obtain ⟨w1, e1, h1⟩ := reads_eat c!"%" h
  rw [bind_ret est, bind_ret e1]
  cases he : Stream.eat s c!"%" with
  | none =>
    rw [eaten_none he] at h1 ⊢
    exact ⟨rfl, h1⟩
  | some s1 =>
    rw [eaten_some he] at h1 ⊢
    simp only [if_true] at h1 ⊢
    have hg := getUntil_any h1 true [c!";"]
    cases hu : Stream.getUntil [c!";"] s1 with
    | none =>
      rw [hu] at hg
      obtain ⟨w2, e2, h2⟩ := fail_any h1 (code := -1) (by decide)
      rw [bind_ret hg]
      simp only
      rw [bind_ret e2]
      exact ⟨rfl, h2⟩
    | some f =>
      rw [hu] at hg
      obtain ⟨id, w2, e2, h2⟩ := hg
      simp only [if_true] at h2
      have hv := entityValue_run (name := ⟨id, toStr f.text⟩) (type := .parameter) (es := d.ents) (w := w2)
        (fun e he i hi => h2.mem_dtd (mem_ents he hi)) hn.named (h2.mem_last rfl)
      rw [bind_ret e2]
      simp only
      rw [bind_ret h2.getD, bind_ret hv]
      have hev : x.entityValue (toStr f.text) .parameter =
          ((d.ents.map MEntity.val).find? fun e => decide (e.type = .parameter) && cmp (some e.name) (some (toStr f.text))).bind (·.content) := by
        unfold Dtd.entityValue Dtd.entity
        rw [hx]
        rfl
      rw [← hev]
      cases hval : x.entityValue (toStr f.text) .parameter with
      | none =>
        obtain ⟨w3, e3, h3⟩ := move_any h2.any st.rest
        simp only
        rw [bind_ret e3]
        rw [hst] at h3
        exact ⟨rfl, h3⟩
      | some v =>
        obtain ⟨w3, e3, h3⟩ := freeLast_at h2
        obtain ⟨c, w4, e4, h4⟩ := h3.any.alloc
        obtain ⟨w5, e5, h5⟩ := push_any h4 (v ++ [' '])
        obtain ⟨w6, e6, h6⟩ := (frees_free c).any (tmp := tmp) h5
        simp only
        rw [bind_ret e3, bind_ret e4, bind_ret e5, bind_ret e6]
        exact ⟨rfl, by simpa using h6⟩

/-! ### Enumerations -/

theorem alloc_at (h : At ask s d tmp last w) : ∃ id w', alloc w = .ret id w' ∧ At ask s d (id :: tmp) last w' := ⟨_, _, rfl, h.alloc⟩

theorem allocEach_at : ∀ {ts : List (List Char)} {tmp : List Nat} {w : World}, At ask s d tmp last w →
    ∃ ps w', allocEach ts w = .ret ps w' ∧ ps.map (·.text) = ts ∧ At ask s d (ps.map (·.id) ++ tmp) last w'
  | [], _, w, h => ⟨[], w, rfl, rfl, h⟩
  | t :: ts, tmp, w, h => by
    obtain ⟨id, w1, e1, h1⟩ := alloc_at h
    obtain ⟨ps, w2, e2, ht, h2⟩ := allocEach_at (ts := ts) h1
    refine ⟨⟨id, t⟩ :: ps, w2, ?_, by simp [ht], h2.perm (by simp only [List.map_cons]; blocks)⟩
    unfold allocEach
    rw [bind_ret e1, bind_ret e2]
    rfl

theorem copyEach_at : ∀ {ts : List Text} {tmp : List Nat} {w : World}, At ask s d tmp last w → (∀ t ∈ ts, t.id ∈ tmp) →
    match (ts.map (·.text)).mapM trimmed with
    | none => copyEach ts w = .ub
    | some vs => ∃ cs w', copyEach ts w = .ret cs w' ∧ cs.map (·.text) = vs ∧ At ask s d (cs.map (·.id) ++ tmp) last w'
  | [], _, w, h, _ => ⟨[], w, rfl, rfl, h⟩
  | t :: ts, tmp, w, h, hm => by
    unfold copyEach
    rw [bind_use (h.mem_tmp (hm t (by simp)))]
    simp only [List.map_cons, List.mapM_cons]
    cases ht : trimmed t.text with
    | none => rfl
    | some v =>
      obtain ⟨id, w1, e1, h1⟩ := alloc_at h
      have ih := copyEach_at (ts := ts) h1 (fun t' h' => List.mem_cons_of_mem _ (hm t' (by simp [h'])))
      have e0 : M.ofOption (some v) w = .ret v w := rfl
      rw [bind_ret e0, bind_ret e1]
      cases hts : (ts.map (·.text)).mapM trimmed with
      | none =>
        rw [hts] at ih
        simp only [Option.bind_eq_bind, Option.bind_some, Option.bind_none]
        rw [bind_ub ih]
      | some vs =>
        rw [hts] at ih
        obtain ⟨cs, w2, e2, hv, h2⟩ := ih
        refine ⟨⟨id, v⟩ :: cs, w2, ?_, by simp [hv], h2.perm (by simp only [List.map_cons]; blocks)⟩
        rw [bind_ret e2]
        rfl

theorem enumValues_at {values : Text} (h : At ask s d tmp last w) (hl : last = some values.id) :
    match Dtd.enumValues values.text with
    | none => enumValues values w = .ub
    | some vs => ∃ l cs w', enumValues values w = .ret (l, cs) w' ∧ cs.map (·.text) = vs ∧ At ask s d (l :: (cs.map (·.id) ++ tmp)) last w' := by
  unfold enumValues Dtd.enumValues
  rw [bind_use (h.mem_last hl)]
  cases hs : split values.text [c!"|"] with
  | none => rfl
  | some ps =>
    have e0 : M.ofOption (some ps) w = .ret ps w := rfl
    rw [bind_ret e0]
    obtain ⟨arr, w1, e1, h1⟩ := alloc_at h
    obtain ⟨pieces, w2, e2, ht, h2⟩ := allocEach_at (ts := ps) h1
    obtain ⟨l, w3, e3, h3⟩ := alloc_at h2
    have hc := copyEach_at (ts := pieces) h3 (fun t ht => by
      simp only [List.mem_cons, List.mem_append, List.mem_map]
      exact .inr (.inl ⟨t, ht, rfl⟩))
    rw [bind_ret e1, bind_ret e2, bind_ret e3]
    rw [ht] at hc
    simp only [Option.bind_some]
    cases hm : ps.mapM trimmed with
    | none =>
      rw [hm] at hc
      simp only at hc ⊢
      rw [bind_ub hc]
    | some vs =>
      rw [hm] at hc
      obtain ⟨cs, w4, e4, hv, h4⟩ := hc
      obtain ⟨w5, e5, h5⟩ := (frees_texts pieces).at_ (tmp := arr :: l :: (cs.map (·.id) ++ tmp)) (h4.perm (by blocks))
      obtain ⟨w6, e6, h6⟩ := (frees_free arr).at_ (tmp := l :: (cs.map (·.id) ++ tmp)) h5
      refine ⟨l, cs, w6, ?_, hv, h6⟩
      rw [bind_ret e4, bind_ret e5, bind_ret e6]
      rfl

/-! ### Types -/

/-- The blocks of a declaration besides its structure and its name. -/
def MDecl.extra (x : MDecl) : List Nat :=
  (x.value.map (·.id)).toList ++
    match x.enum with
    | none => []
    | some (l, values) => l :: values.map (·.id)

theorem MDecl.blocks_eq (x : MDecl) : x.blocks = x.id :: x.name.id :: x.extra := rfl

theorem reads_word : ∀ (ws : List (List Char × AttType)), Reads (word ws) fun s => match Dtd.word s ws with
    | some (t, s) => (some t, s)
    | none => (none, s)
  | [] => .pure none
  | (c, t) :: ws => by
    refine Reads.of_eq ((reads_eat c).bind fun a => Reads.ite a (.pure (some t)) (reads_word ws)) fun s => ?_
    cases h1 : Stream.eat s c with
    | some r => simp [eaten_some h1, Dtd.word, h1]
    | none =>
      simp only [eaten_none h1, Bool.false_eq_true, if_false]
      conv => rhs; unfold Dtd.word
      simp only [h1]

theorem word_mem : ∀ {ws : List (List Char × AttType)} {s r : List Char} {t : AttType}, Dtd.word s ws = some (t, r) → ∃ c, (c, t) ∈ ws
  | [], _, _, _, h => by cases h
  | (c, t') :: ws, s, r, t, h => by
    unfold Dtd.word at h
    split at h
    · cases h
      exact ⟨c, by simp⟩
    · obtain ⟨c', hc⟩ := word_mem h
      exact ⟨c', by simp [hc]⟩

theorem typeWords_plain {s r : List Char} {t : AttType} (h : Dtd.word s typeWords = some (t, r)) (vs : List (List Char)) : t ≠ .enum vs := by
  obtain ⟨c, hc⟩ := word_mem h
  simp only [typeWords, List.mem_cons, Prod.mk.injEq, List.not_mem_nil, or_false] at hc
  rintro rfl
  simp at hc

theorem attType_any {x : MDecl} (h : Any ask s d tmp w) (he : x.enum = none) (ht : x.type = .cdata) (hv : x.value = none) :
    Follows (fun (b : AttType × List Char) o w' => ∃ x', o = some x' ∧ x'.typeVal = b.1 ∧ x'.id = x.id ∧ x'.name = x.name ∧
        x'.value = none ∧ (x'.enum = none → x'.type = b.1 ∧ ∀ vs, x'.type ≠ .enum vs) ∧ (x'.enum ≠ none → ∃ vs, b.1 = .enum vs) ∧ Any ask b.2 d (x'.extra ++ tmp) w')
      (fun o w' => o = none ∧ Dead ask tmp w') (Dtd.attType s) (attType x w) := by
  unfold attType Dtd.attType
  have hx : ∀ t, ({ x with type := t } : MDecl).extra = [] := by
    intro t
    simp [MDecl.extra, he, hv]
  have hx0 : x.extra = [] := by simp [MDecl.extra, he, hv]
  obtain ⟨w1, e1, h1⟩ := reads_eat c!"NOTATION" h
  rw [bind_ret e1]
  cases hn : Stream.eat s c!"NOTATION" with
  | some s1 =>
    rw [eaten_some hn] at h1 ⊢
    refine ⟨x, rfl, by simp [MDecl.typeVal, he, ht], rfl, rfl, hv, fun _ => ⟨ht, fun vs h => by rw [ht] at h; cases h⟩, fun h => by simp [he] at h, ?_⟩
    rw [hx0]
    exact h1
  | none =>
    rw [eaten_none hn] at h1 ⊢
    simp only [Bool.false_eq_true, if_false] at h1 ⊢
    obtain ⟨w2, e2, h2⟩ := reads_eat c!"(" h1
    rw [bind_ret e2]
    cases hp : Stream.eat s c!"(" with
    | some s1 =>
      rw [eaten_some hp] at h2 ⊢
      simp only [if_true] at h2 ⊢
      have hg := getUntil_any h2 true [c!")"]
      cases hu : Stream.getUntil [c!")"] s1 with
      | none =>
        rw [hu] at hg
        obtain ⟨w3, e3, h3⟩ := fail_any h2 (code := -1) (by decide)
        rw [bind_ret hg]
        simp only
        rw [bind_ret e3]
        exact ⟨rfl, h3⟩
      | some f =>
        rw [hu] at hg
        obtain ⟨id, w3, e3, h3⟩ := hg
        rw [bind_ret e3]
        simp only [if_true] at h3 ⊢
        have hen := enumValues_at (values := ⟨id, toStr f.text⟩) h3 rfl
        simp only at hen
        cases hvs : Dtd.enumValues (toStr f.text) with
        | none =>
          rw [hvs] at hen
          rw [bind_ub hen]
          trivial
        | some vs =>
          rw [hvs] at hen
          obtain ⟨l, cs, w4, e4, hcs, h4⟩ := hen
          rw [bind_ret e4]
          refine ⟨_, rfl, by simp [MDecl.typeVal, hcs], rfl, rfl, hv, fun h => by simp at h, fun _ => ⟨vs, rfl⟩, ?_⟩
          simp only [MDecl.extra, hv]
          exact h4.any
    | none =>
      rw [eaten_none hp] at h2 ⊢
      simp only [Bool.false_eq_true, if_false] at h2 ⊢
      obtain ⟨w3, e3, h3⟩ := reads_word typeWords h2
      rw [bind_ret e3]
      cases hw : Dtd.word s typeWords with
      | none =>
        simp only [hw] at h3 ⊢
        obtain ⟨w4, e4, h4⟩ := fail_any h3 (code := -1) (by decide)
        rw [bind_ret e4]
        exact ⟨rfl, h4⟩
      | some r =>
        obtain ⟨t, s2⟩ := r
        simp only [hw] at h3 ⊢
        refine ⟨_, rfl, by simp [MDecl.typeVal, he], rfl, rfl, hv, fun _ => ⟨rfl, typeWords_plain hw⟩, fun h => by simp [he] at h, ?_⟩
        rw [hx]
        exact h3

/-! ### Defaults -/

theorem reads_attFixed : Reads attFixed Dtd.attFixed := by
  refine Reads.of_eq ((reads_eat c!"#FIXED").bind fun a => Reads.ite a (reads_skip.bind fun _ => .pure Defaults.fixed) (.pure Defaults.implied)) fun s => ?_
  unfold Dtd.attFixed
  cases h1 : Stream.eat s c!"#FIXED" with
  | some r => simp [eaten_some h1]
  | none => simp [eaten_none h1]

/-- `Dtd.attDefault` with the stream after it. -/
def defaulted (s : List Char) : Option Defaults × List Char :=
  match Dtd.attDefault s with
  | some (x, s) => (some x, s)
  | none => (none, (Dtd.attFixed s).2)

theorem reads_attDefault : Reads attDefault defaulted := by
  refine Reads.of_eq ((reads_eat c!"#REQUIRED").bind fun a => Reads.ite a (.pure (some Defaults.required)) ((reads_eat c!"#IMPLIED").bind fun a =>
    Reads.ite a (.pure (some Defaults.implied)) (reads_attFixed.bind fun x => (reads_peek c!"\"").bind fun a => (reads_peek c!"'").bind fun b =>
      Reads.ite (a || b) (.pure (some x)) (.pure none)))) fun s => ?_
  unfold defaulted Dtd.attDefault
  cases h1 : Stream.eat s c!"#REQUIRED" with
  | some r => simp [eaten_some h1]
  | none =>
    simp only [eaten_none h1]
    cases h2 : Stream.eat s c!"#IMPLIED" with
    | some r => simp [eaten_some h2]
    | none =>
      simp only [eaten_none h2, Bool.false_eq_true, if_false]
      split <;> rfl

/-- `Parse.quote` with the stream after it. -/
def quoted (s : List Char) : Option Char × List Char :=
  match Parse.quote s with
  | some (q, s) => (some q, s)
  | none => (none, s)

theorem reads_quote : Reads quote quoted := by
  refine Reads.of_eq ((reads_eat c!"\"").bind fun a => Reads.ite a (.pure (some '"')) ((reads_eat c!"'").bind fun a =>
    Reads.ite a (.pure (some '\'')) (.pure none))) fun s => ?_
  unfold quoted Parse.quote
  cases h1 : Stream.eat s c!"\"" with
  | some r => simp [eaten_some h1]
  | none =>
    simp only [eaten_none h1]
    cases h2 : Stream.eat s c!"'" with
    | some r => simp [eaten_some h2]
    | none => simp [eaten_none h2]

theorem attValue_any (h : Any ask s d tmp w) :
    match Dtd.attValue s with
    | (none, s') => ∃ w', attValue w = .ret none w' ∧ Any ask s' d tmp w'
    | (some v, s') => ∃ id w', attValue w = .ret (some ⟨id, v⟩) w' ∧ At ask s' d tmp (some id) w' := by
  unfold attValue Dtd.attValue
  obtain ⟨w1, e1, h1⟩ := reads_quote h
  rw [bind_ret e1]
  unfold quoted at h1 ⊢
  cases hq : Parse.quote s with
  | none =>
    simp only [hq] at h1 ⊢
    exact ⟨w1, rfl, h1⟩
  | some r =>
    obtain ⟨q, s1⟩ := r
    simp only [hq] at h1 ⊢
    have hg := getUntil_any h1 true [[q]]
    unfold Parse.attrValue
    cases hu : Stream.getUntil [[q]] s1 with
    | none =>
      rw [hu] at hg
      simp only
      rw [bind_ret hg]
      exact ⟨w1, rfl, h1⟩
    | some f =>
      rw [hu] at hg
      obtain ⟨id, w2, e2, h2⟩ := hg
      simp only
      rw [bind_ret e2]
      exact ⟨id, w2, rfl, h2⟩

/-! ### Errors with a message -/

theorem failWith_any {x : MDecl} {a : MAttr} (h : Any ask s d tmp w) (hx : x.name.id ∈ w.heap) (ha : a.name.id ∈ w.heap) :
    ∃ w', failWith x a w = .ret () w' ∧ Dead ask tmp w' := by
  unfold failWith
  obtain ⟨msg, w1, e1, h1⟩ := h.alloc
  obtain ⟨w2, e2, h2⟩ := fail_any h1 (code := -1) (by decide)
  obtain ⟨hh, e3, p⟩ := frees_free msg w2 tmp h2.heap
  rw [bind_use hx, bind_use ha, bind_ret e1]
  have e4 : (do
      errorNew (-1)
      streamFree
      free msg : M Unit) = (fail (-1) >>= fun _ => free msg) := by
    unfold fail
    simp only [bind_assoc]
  rw [e4, bind_ret e2, e3]
  exact ⟨_, rfl, h2.stream, h2.dtd, p, p.nodup_iff.2 (List.nodup_cons.1 (h2.heap.nodup_iff.1 h2.nodup)).2, h2.errors⟩

/-! ### The checks -/

theorem findId_run : ∀ {xs : List MDecl} {w : World}, (∀ x ∈ xs, x.id ∈ w.heap) →
    findId xs w = .ret (xs.find? fun x => x.enum.isNone && decide (x.type = .id)) w
  | [], _, _ => rfl
  | x :: xs, w, h => by
    unfold findId
    rw [bind_use (h x (by simp))]
    simp only [List.find?_cons]
    have ih := findId_run (xs := xs) (w := w) (fun x' h' => h x' (by simp [h']))
    by_cases hc : (x.enum.isNone && decide (x.type = .id)) = true
    · rw [if_pos hc, hc]
      rfl
    · rw [if_neg hc, ih]
      simp only [Bool.not_eq_true] at hc
      rw [hc]

theorem typeVal_id (x : MDecl) : decide (x.typeVal = .id) = (x.enum.isNone && decide (x.type = .id)) := by
  unfold MDecl.typeVal
  cases x.enum <;> simp

theorem idFine_run {a : MAttr} {x : MDecl} (hb : ∀ y ∈ a.decls, y.id ∈ w.heap ∧ y.name.id ∈ w.heap) (hx : x.name.id ∈ w.heap) :
    idFine a x w = .ret (Dtd.idFine (a.decls.map MDecl.val) x.val) w := by
  unfold idFine Dtd.idFine
  have hf := findId_run (xs := a.decls) (w := w) fun y hy => (hb y hy).1
  have hfind : (a.decls.map MDecl.val).find? (fun y => decide (y.type = .id)) =
      (a.decls.find? fun y => y.enum.isNone && decide (y.type = .id)).map MDecl.val := by
    rw [List.find?_map]
    congr 2
    funext y
    exact typeVal_id y
  have hc := typeVal_id x
  by_cases ht : (x.enum.isNone && decide (x.type = .id)) = true
  · rw [ht] at hc
    have hc' : x.val.type = .id := of_decide_eq_true hc
    rw [if_pos ht, if_pos hc', bind_ret hf, hfind]
    cases hy : a.decls.find? fun y => y.enum.isNone && decide (y.type = .id) with
    | none =>
      simp only [Option.map_none, Bool.true_and]
      rfl
    | some y =>
      have hm := List.mem_of_find?_eq_some hy
      simp only [Option.map_some]
      rw [bind_use (hb y hm).2, bind_use hx]
      have hcmp : cmp (some y.val.name) (some x.val.name) = cmp (some y.name.text) (some x.name.text) := rfl
      rw [hcmp]
      by_cases hcm : cmp (some y.name.text) (some x.name.text) = true
      · rw [if_pos hcm, hcm]
        rfl
      · rw [if_neg hcm]
        simp only [Bool.not_eq_true] at hcm
        rw [hcm]
        rfl
  · simp only [Bool.not_eq_true] at ht
    rw [ht] at hc
    have hc' : x.val.type ≠ .id := of_decide_eq_false hc
    rw [if_neg (by simp [ht]), if_neg hc']
    rfl

theorem anyText_run {v : Text} : ∀ {ts : List Text} {w : World}, (∀ t ∈ ts, t.id ∈ w.heap) → v.id ∈ w.heap →
    anyText v ts w = .ret ((ts.map (·.text)).any fun x => cmp (some x) (some v.text)) w
  | [], _, _, _ => rfl
  | t :: ts, w, h, hv => by
    unfold anyText
    rw [bind_use (h t (by simp)), bind_use hv]
    have ih := anyText_run (ts := ts) (fun x hx => h x (by simp [hx])) hv
    simp only [List.map_cons, List.any_cons]
    by_cases hc : cmp (some t.text) (some v.text) = true
    · rw [if_pos hc, hc]
      rfl
    · rw [if_neg hc, ih]
      simp only [Bool.not_eq_true] at hc
      rw [hc, Bool.false_or]

theorem valueFine_run {x : MDecl} {v : Text} (hb : ∀ i ∈ x.extra, i ∈ w.heap) (hv : v.id ∈ w.heap) (hd : x.enum = none → ∀ vs, x.type ≠ .enum vs) :
    valueFine x v w = .ret (Dtd.valueFine x.typeVal (some v.text)) w := by
  unfold valueFine Dtd.valueFine MDecl.typeVal
  cases he : x.enum with
  | none =>
    simp only
    split
    · rename_i h1 h2
      exact absurd h1 (hd he _)
    · rfl
  | some r =>
    obtain ⟨l, values⟩ := r
    simp only
    rw [bind_use (hb l (by simp [MDecl.extra, he]))]
    exact anyText_run (fun t ht => hb t.id (by
      simp only [MDecl.extra, he, List.mem_append, List.mem_cons, List.mem_map]
      exact .inr (.inr ⟨t, ht, rfl⟩))) hv

end

end DtdMem
end Axl
