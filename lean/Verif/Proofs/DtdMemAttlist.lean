/-
Attribute declarations: the parser over the memory does what the one over the text does, and loses nothing.
-/
import Verif.Proofs.DtdMemAttType

namespace Axl
namespace DtdMem
open Str Dtd

section
variable {ask : Bool} {s : List Char} {m : MDtd} {tmp tmp' : List Nat} {last : Option Nat} {w : World} {pre post : List MAttr} {a a' : MAttr}

theorem modify_mid {α : Type} (f : α → α) (x : α) (post : List α) : ∀ (pre : List α), (pre ++ x :: post).modify pre.length f = pre ++ f x :: post
  | [] => rfl
  | y :: pre => by
    have := modify_mid f x post pre
    simpa using this

theorem get_mid {α : Type} (x : α) (pre post : List α) : (pre ++ x :: post)[pre.length]? = some x := by simp

theorem mem_att (hm : m.atts = pre ++ a :: post) {i : Nat} (hi : i ∈ a.blocks) : i ∈ m.blocks := by
  unfold MDtd.blocks
  have : i ∈ (m.atts.map MAttr.blocks).flatten := List.mem_flatten.2 ⟨a.blocks, List.mem_map.2 ⟨a, by simp [hm], rfl⟩, hi⟩
  simp [this]

theorem Any.setAtt (h : Any ask s m tmp w) (hm : m.atts = pre ++ a :: post) (hl : m.attributes ≠ none)
    (p : (a.blocks ++ tmp).Perm (a'.blocks ++ tmp')) :
    ∃ w', DtdMem.setD { m with atts := pre ++ a' :: post } w = .ret () w' ∧ Any ask s { m with atts := pre ++ a' :: post } tmp' w' := by
  have hmade := h.made
  refine h.setD ?_ ⟨hmade.els, fun h0 => absurd h0 hl, hmade.ents, hmade.each⟩
  simp only [MDtd.blocks, hm, List.map_append, List.map_cons, List.flatten_append, List.flatten_cons]
  rw [List.perm_iff_count] at p ⊢
  intro i
  have := p i
  simp only [List.count_append, List.count_cons] at this ⊢
  omega

theorem addDecl_any {x : MDecl} (h : Any ask s m (x.blocks ++ tmp) w) (hm : m.atts = pre ++ a :: post) (hl : m.attributes ≠ none) :
    ∃ w', addDecl pre.length x w = .ret () w' ∧ Any ask s { m with atts := pre ++ { a with decls := a.decls ++ [x] } :: post } tmp w' := by
  unfold addDecl
  rw [bind_ret h.getD, hm, get_mid]
  simp only
  rw [bind_use (h.mem_dtd (mem_att hm (by simp [MAttr.blocks])))]
  have hd : m.modAttr pre.length (· ++ [x]) = { m with atts := pre ++ { a with decls := a.decls ++ [x] } :: post } := by
    unfold MDtd.modAttr
    rw [hm, modify_mid]
  rw [hd]
  refine h.setAtt hm hl ?_
  simp only [MAttr.blocks, List.map_append, List.map_cons, List.map_nil, List.flatten_append, List.flatten_cons, List.flatten_nil]
  blocks

theorem mem_decl {xs : List MDecl} {x : MDecl} (ha : x ∈ a.decls) {i : Nat} (hi : i ∈ x.blocks) : i ∈ a.blocks := by
  unfold MAttr.blocks
  have : i ∈ (a.decls.map MDecl.blocks).flatten := List.mem_flatten.2 ⟨_, List.mem_map.2 ⟨x, ha, rfl⟩, hi⟩
  simp [this]

theorem setDecl_any {xs : List MDecl} {x0 x : MDecl} (h : Any ask s m tmp w) (hm : m.atts = pre ++ a :: post) (hl : m.attributes ≠ none)
    (hd : a.decls = xs ++ [x0]) (hid : x.id = x0.id) (p : (x0.blocks ++ tmp).Perm (x.blocks ++ tmp')) :
    ∃ w', setDecl pre.length x w = .ret () w' ∧ Any ask s { m with atts := pre ++ { a with decls := xs ++ [x] } :: post } tmp' w' := by
  unfold setDecl
  rw [hid, bind_use (h.mem_dtd (mem_att hm (mem_decl (xs := xs) (x := x0) (by simp [hd]) (by simp [MDecl.blocks])))), bind_ret h.getD]
  have he : m.modAttr pre.length (fun ys => ys.dropLast ++ [x]) = { m with atts := pre ++ { a with decls := xs ++ [x] } :: post } := by
    unfold MDtd.modAttr
    rw [hm, modify_mid, hd]
    simp
  rw [he]
  refine h.setAtt hm hl ?_
  simp only [MAttr.blocks, hd, List.map_append, List.map_cons, List.map_nil, List.flatten_append, List.flatten_cons, List.flatten_nil]
  rw [List.perm_iff_count] at p ⊢
  intro i
  have := p i
  simp only [List.count_append, List.count_cons, List.count_nil] at this ⊢
  omega

/-! ### The rest of a declaration -/

theorem idFine_value (decls : List AttDecl) (decl : AttDecl) (v : Option (List Char)) :
    Dtd.idFine (decls ++ [{ decl with value := v }]) { decl with value := v } = Dtd.idFine (decls ++ [decl]) decl := by
  unfold Dtd.idFine
  simp only [List.find?_append]
  cases decls.find? fun x => decide (x.type = .id) with
  | some y => rfl
  | none =>
    simp only [Option.none_or, List.find?_cons, List.find?_nil]
    by_cases hd : decl.type = .id <;> simp [hd]

/-- The rest of a declaration over the text. -/
def declRestF (name : List Char) (type : AttType) (decls : List AttDecl) (s : List Char) : Res (AttDecl × List Char) :=
  match Dtd.attDefault (Stream.skip s) with
  | none => .error
  | some (defaults, s) =>
    if !Dtd.idFine (decls ++ [⟨name, type, defaults, (Dtd.attValue (Stream.skip s)).1⟩]) ⟨name, type, defaults, (Dtd.attValue (Stream.skip s)).1⟩ then .error
    else if !Dtd.valueFine type (Dtd.attValue (Stream.skip s)).1 then .error
    else .ok (⟨name, type, defaults, (Dtd.attValue (Stream.skip s)).1⟩, (Dtd.attValue (Stream.skip s)).2)

theorem declRest_any {xs : List MDecl} {x : MDecl} (h : Any ask s m [] w) (hm : m.atts = pre ++ a :: post) (hl : m.attributes ≠ none)
    (hd : a.decls = xs ++ [x]) (hv : x.value = none) (ht : x.enum = none → ∀ vs, x.type ≠ .enum vs) :
    Follows (fun (b : AttDecl × List Char) ok w' => ok = true ∧
        ∃ x' : MDecl, x'.val = b.1 ∧ Any ask b.2 { m with atts := pre ++ { a with decls := xs ++ [x'] } :: post } [] w')
      (fun ok w' => ok = false ∧ Dead ask [] w') (declRestF x.name.text x.typeVal (xs.map MDecl.val) s) (declRest pre.length x w) := by
  unfold declRest declRestF
  obtain ⟨w1, e1, h1⟩ := reads_skip h
  obtain ⟨w2, e2, h2⟩ := reads_attDefault h1
  rw [bind_ret e1, bind_ret e2, bind_ret h2.getD, hm, get_mid]
  unfold defaulted at h2 ⊢
  simp only at h2 ⊢
  have hmem : ∀ {w' : World} {s' : List Char}, Any ask s' m [] w' → x.name.id ∈ w'.heap ∧ a.name.id ∈ w'.heap := fun h' =>
    ⟨h'.mem_dtd (mem_att hm (mem_decl (xs := xs) (x := x) (by simp [hd]) (by simp [MDecl.blocks]))), h'.mem_dtd (mem_att hm (by simp [MAttr.blocks]))⟩
  cases hdef : Dtd.attDefault (Stream.skip s) with
  | none =>
    simp only [hdef] at h2 ⊢
    obtain ⟨w3, e3, h3⟩ := failWith_any (x := x) (a := a) h2 (hmem h2).1 (hmem h2).2
    rw [bind_ret e3]
    exact ⟨rfl, h3⟩
  | some r =>
    obtain ⟨defaults, s2⟩ := r
    simp only [hdef] at h2 ⊢
    obtain ⟨w3, e3, h3⟩ := setDecl_any (x := { x with defaults := defaults }) (tmp' := []) h2 hm hl hd rfl (List.Perm.refl _)
    rw [bind_ret e3, bind_ret h3.getD]
    simp only
    rw [get_mid]
    have hb : ∀ y ∈ xs ++ [{ x with defaults := defaults }], ∀ i ∈ y.blocks, i ∈ w3.heap := fun y hy i hi =>
      h3.mem_dtd (mem_att (a := { a with decls := xs ++ [{ x with defaults := defaults }] }) rfl (mem_decl (xs := xs) (x := y) hy hi))
    have hid := idFine_run (a := { a with decls := xs ++ [{ x with defaults := defaults }] }) (x := { x with defaults := defaults }) (w := w3)
      (fun y hy => ⟨hb y hy _ (by simp [MDecl.blocks]), hb y hy _ (by simp [MDecl.blocks])⟩)
      (hb { x with defaults := defaults } (by simp) _ (by simp [MDecl.blocks]))
    simp only
    rw [bind_ret hid]
    have hfine : Dtd.idFine (List.map MDecl.val (xs ++ [{ x with defaults := defaults }])) ({ x with defaults := defaults } : MDecl).val =
        Dtd.idFine (xs.map MDecl.val ++ [⟨x.name.text, x.typeVal, defaults, (Dtd.attValue (Stream.skip s2)).1⟩])
          ⟨x.name.text, x.typeVal, defaults, (Dtd.attValue (Stream.skip s2)).1⟩ := by
      have := idFine_value (xs.map MDecl.val) ({ x with defaults := defaults } : MDecl).val (Dtd.attValue (Stream.skip s2)).1
      rw [List.map_append, List.map_cons, List.map_nil]
      exact this.symm
    rw [hfine]
    generalize hF : Dtd.idFine (xs.map MDecl.val ++ [⟨x.name.text, x.typeVal, defaults, (Dtd.attValue (Stream.skip s2)).1⟩])
          ⟨x.name.text, x.typeVal, defaults, (Dtd.attValue (Stream.skip s2)).1⟩ = F
    cases F with
    | false =>
      obtain ⟨w4, e4, h4⟩ := failWith_any (x := { x with defaults := defaults }) (a := { a with decls := xs ++ [{ x with defaults := defaults }] }) h3
        (hb { x with defaults := defaults } (by simp) _ (by simp [MDecl.blocks]))
        (h3.mem_dtd (mem_att (a := { a with decls := xs ++ [{ x with defaults := defaults }] }) rfl (by simp [MAttr.blocks])))
      simp only [Bool.false_eq_true, if_false, Bool.not_false, if_true]
      rw [bind_ret e4]
      exact ⟨rfl, h4⟩
    | true =>
      simp only [if_true, Bool.not_true, Bool.false_eq_true, if_false]
      obtain ⟨w4, e4, h4⟩ := reads_skip h3
      simp only at h4
      have hav := attValue_any h4
      rw [bind_ret e4]
      generalize hV : Dtd.attValue (Stream.skip s2) = V at hav ⊢
      obtain ⟨value, s5⟩ := V
      cases value with
      | none =>
        simp only at hav ⊢
        obtain ⟨w5, e5, h5⟩ := hav
        rw [bind_ret e5]
        unfold storeValue
        have hvf : Dtd.valueFine x.typeVal none = true := by
          unfold Dtd.valueFine
          split <;> first | rfl | (rename_i h; cases h)
        rw [hvf]
        refine ⟨rfl, { x with defaults := defaults }, ?_, h5⟩
        simp [MDecl.val, hv, MDecl.typeVal]
      | some v =>
        simp only at hav ⊢
        obtain ⟨id, w5, e5, h5⟩ := hav
        rw [bind_ret e5]
        unfold storeValue
        have hvf := valueFine_run (x := { x with defaults := defaults }) (v := ⟨id, v⟩) (w := w5)
          (fun i hi => h5.mem_dtd (mem_att (a := { a with decls := xs ++ [{ x with defaults := defaults }] }) rfl
            (mem_decl (xs := xs) (x := { x with defaults := defaults }) (by simp) (by rw [MDecl.blocks_eq]; simp [hi]))))
          (h5.mem_last rfl) ht
        simp only
        rw [bind_ret hvf]
        have htv : ({ x with defaults := defaults } : MDecl).typeVal = x.typeVal := rfl
        simp only [htv]
        cases hG : Dtd.valueFine x.typeVal (some v) with
        | false =>
          obtain ⟨w6, e6, h6⟩ := fail_any h5.any (code := -1) (by decide)
          simp only [Bool.false_eq_true, if_false, Bool.not_false, if_true]
          rw [bind_ret e6]
          exact ⟨rfl, h6⟩
        | true =>
          obtain ⟨w6, e6, h6, _⟩ := nullify_at h5
          obtain ⟨w7, e7, h7⟩ := setDecl_any (x := { x with defaults := defaults, value := some ⟨id, v⟩ }) (tmp' := []) h6.any
            (a := { a with decls := xs ++ [{ x with defaults := defaults }] }) rfl hl rfl rfl
            (by simp only [MDecl.blocks, hv, Option.map_none, Option.map_some, Option.toList]; blocks)
          simp only [if_true, Bool.not_true, Bool.false_eq_true, if_false]
          rw [bind_ret e6, bind_ret e7]
          exact ⟨rfl, _, rfl, h7⟩

/-! ### The loop -/

theorem mark_val (d : MDtd) (t : AttType) : (d.mark t).val = d.val.mark t := by
  unfold MDtd.mark Dtd.mark
  cases t <;> rfl

theorem mark_atts (d : MDtd) (t : AttType) (as : List MAttr) : ({ d with atts := as } : MDtd).mark t = { d.mark t with atts := as } := by
  unfold MDtd.mark
  cases t <;> rfl

theorem mark_blocks (d : MDtd) (t : AttType) : (d.mark t).blocks = d.blocks := by
  unfold MDtd.mark
  cases t <;> rfl

theorem mark_parts (d : MDtd) (t : AttType) : (d.mark t).els = d.els ∧ (d.mark t).atts = d.atts ∧ (d.mark t).ents = d.ents ∧ (d.mark t).root = d.root ∧
    (d.mark t).elements = d.elements ∧ (d.mark t).attributes = d.attributes ∧ (d.mark t).entities = d.entities := by
  unfold MDtd.mark
  cases t <;> exact ⟨rfl, rfl, rfl, rfl, rfl, rfl, rfl⟩

theorem attlistLoop_any {ask : Bool} {pre post : List MAttr} {a : MAttr} : ∀ {fuel : Nat} {d : Dtd} {xs : List MDecl} {m : MDtd} {s : List Char} {w : World},
    Any ask s m [] w → m.atts = pre ++ { a with decls := xs } :: post → m.attributes ≠ none → Neat m →
    { m.val with attributes := d.attributes } = d →
    Follows (fun (b : Dtd × List AttDecl × List Char) ok w' => ok = true ∧
        ∃ (m' : MDtd) (xs' : List MDecl), m'.atts = pre ++ { a with decls := xs' } :: post ∧ xs'.map MDecl.val = b.2.1 ∧
          { m'.val with attributes := d.attributes } = b.1 ∧ Neat m' ∧ Any ask b.2.2 m' [] w')
      (fun ok w' => ok = false ∧ Dead ask [] w') (Dtd.attlistLoop fuel d (xs.map MDecl.val) s) (attlistLoop pre.length fuel w)
  | 0, _, _, _, _, _, _, _, _, _, _ => trivial
  | fuel + 1, d, xs, m, s, w, h, hm, hl, hn, hs => by
    unfold attlistLoop Dtd.attlistLoop
    obtain ⟨w1, e1, h1⟩ := reads_skip h
    obtain ⟨w2, e2, h2⟩ := reads_eat c!">" h1
    rw [bind_ret e1, bind_ret e2]
    simp only at h2 ⊢
    cases he : Stream.eat (Stream.skip s) c!">" with
    | some s' =>
      rw [eaten_some he] at h2 ⊢
      exact ⟨rfl, m, xs, hm, rfl, hs, hn, h2⟩
    | none =>
      rw [eaten_none he] at h2 ⊢
      simp only [Bool.false_eq_true, if_false] at h2 ⊢
      have hg := getUntil_any h2 false [c!" "]
      cases hu : Stream.getUntil [c!" "] (Stream.skip s) with
      | none =>
        rw [hu] at hg
        obtain ⟨w3, e3, h3⟩ := fail_any h2 (code := -1) (by decide)
        rw [bind_ret hg]
        simp only
        rw [bind_ret e3]
        exact ⟨rfl, h3⟩
      | some f =>
        rw [hu] at hg
        obtain ⟨nid, w3, e3, h3⟩ := hg
        simp only [Bool.false_eq_true, if_false] at h3
        rw [bind_ret e3]
        simp only
        obtain ⟨w4, e4, h4, _⟩ := nullify_at h3
        obtain ⟨id, w5, e5, h5⟩ := h4.any.alloc
        obtain ⟨w6, e6, h6⟩ := addDecl_any (x := ⟨id, ⟨nid, toStr f.text⟩, .cdata, none, .required, none⟩) (tmp := [])
          (h5.perm (by simp only [MDecl.blocks, Option.map_none, Option.toList]; blocks)) hm hl
        obtain ⟨w7, e7, h7⟩ := reads_skip h6
        rw [bind_ret e4, bind_ret e5, bind_ret e6, bind_ret e7]
        simp only at h7
        have hents : d.entities = m.val.entities := by rw [← hs]
        rcases (expand_any (x := d) h7 ⟨hn.named, hn.root⟩ hents).cases with
          ⟨s8, b, w8, hX, hY, rfl, h8⟩ | ⟨b, w8, hX, hY, rfl, h8⟩ | ⟨hX, hY⟩ | ⟨hX, hY⟩
        · rw [bind_ret hY, hX]
          simp only [if_true]
          rcases (attType_any (x := ⟨id, ⟨nid, toStr f.text⟩, .cdata, none, .required, none⟩) h8 rfl rfl rfl).cases with
            ⟨⟨t, s9⟩, o, w9, hX9, hY9, x, rfl, htv, hid, hname, hval, hty, hen, h9⟩ | ⟨o, w9, hX9, hY9, rfl, h9⟩ | ⟨hX9, hY9⟩ | ⟨hX9, hY9⟩
          · rw [bind_ret hY9, hX9]
            simp only at htv hty hen h9 ⊢
            obtain ⟨w10, e10, h10⟩ := setDecl_any (x := x) (tmp' := []) (xs := xs) h9
              (a := { a with decls := xs ++ [⟨id, ⟨nid, toStr f.text⟩, .cdata, none, .required, none⟩] }) rfl hl rfl hid
              (by simp only [MDecl.blocks_eq, hid, hname]; simp only [MDecl.extra, Option.map_none, Option.toList, List.nil_append, List.append_nil, List.cons_append]; exact List.Perm.refl _)
            rw [bind_ret e10, bind_ret h10.getD]
            obtain ⟨m11, hm11⟩ : ∃ m11 : MDtd, m11 = { m with atts := pre ++ { a with decls := xs ++ [x] } :: post } := ⟨_, rfl⟩
            simp only at h10 ⊢
            rw [← hm11] at h10 ⊢
            have hmark : (if x.enum.isNone = true then m11.mark x.type else m11) = m11.mark t := by
              cases hxe : x.enum with
              | none => simp [(hty hxe).1]
              | some r =>
                obtain ⟨vs, hvs⟩ := hen (by simp [hxe])
                simp [hvs, MDtd.mark]
            rw [hmark]
            obtain ⟨p1, p2, p3, p4, p5, p6, p7⟩ := mark_parts m11 t
            have hmade := h10.made
            obtain ⟨w11, e11, h11⟩ := h10.setD (d' := m11.mark t) (tmp' := []) (by rw [mark_blocks])
              ⟨by rw [p5, p1]; exact hmade.els, by rw [p6, p2]; exact hmade.atts, by rw [p7, p3]; exact hmade.ents, by rw [p1]; exact hmade.each⟩
            rw [bind_ret e11]
            have hatts : (m11.mark t).atts = pre ++ { a with decls := xs ++ [x] } :: post := by rw [p2, hm11]
            have hl11 : (m11.mark t).attributes ≠ none := by rw [p6, hm11]; exact hl
            have hdr := declRest_any (xs := xs) (x := x) h11 hatts hl11 rfl hval (fun hxe => (hty hxe).2)
            rw [hname, htv] at hdr
            simp only at hdr
            have hfun : (match Dtd.attDefault (Stream.skip s9) with
                | none => .error
                | some (defaults, s) =>
                  if (!Dtd.idFine (xs.map MDecl.val ++ [⟨toStr f.text, t, defaults, (Dtd.attValue (Stream.skip s)).1⟩])
                    ⟨toStr f.text, t, defaults, (Dtd.attValue (Stream.skip s)).1⟩) = true then .error
                  else if (!Dtd.valueFine t (Dtd.attValue (Stream.skip s)).1) = true then .error
                  else Dtd.attlistLoop fuel (d.mark t) (xs.map MDecl.val ++ [⟨toStr f.text, t, defaults, (Dtd.attValue (Stream.skip s)).1⟩])
                    (Dtd.attValue (Stream.skip s)).2 : Res (Dtd × List AttDecl × List Char)) =
                (match declRestF (toStr f.text) t (xs.map MDecl.val) s9 with
                | .ok (decl, s) => Dtd.attlistLoop fuel (d.mark t) (xs.map MDecl.val ++ [decl]) s
                | .error => .error
                | .ub => .ub
                | .loop => .loop) := by
              unfold declRestF
              cases Dtd.attDefault (Stream.skip s9) with
              | none => rfl
              | some r =>
                simp only
                split
                · rfl
                · split <;> rfl
            refine (congrArg (fun r => Follows _ _ r _) hfun).mpr ?_
            rcases hdr.cases with ⟨⟨decl, s12⟩, ok, w12, hX12, hY12, rfl, x', hx', h12⟩ | ⟨ok, w12, hX12, hY12, rfl, h12⟩ | ⟨hX12, hY12⟩ | ⟨hX12, hY12⟩
            · rw [bind_ret hY12, hX12]
              simp only [if_true] at hx' h12 ⊢
              have := attlistLoop_any (fuel := fuel) (d := d.mark t) (xs := xs ++ [x']) (a := a) h12 rfl hl11
                ⟨by show ∀ e ∈ (m11.mark t).ents, _; rw [p3, hm11]; exact hn.named, by show (m11.mark t).root = none; rw [p4, hm11]; exact hn.root⟩ ?_
              · rw [List.map_append, List.map_cons, List.map_nil, hx'] at this
                have hda : (d.mark t).attributes = d.attributes := by
                  unfold Dtd.mark
                  cases t <;> rfl
                rw [hda] at this
                exact this
              · rw [← hs]
                have : ({ m11.mark t with atts := pre ++ { a with decls := xs ++ [x'] } :: post } : MDtd).val =
                    { (m11.mark t).val with attributes := (pre ++ { a with decls := xs ++ [x'] } :: post).map MAttr.val } := rfl
                rw [this, mark_val, hm11]
                unfold Dtd.mark
                cases t <;> rfl
            · rw [bind_ret hY12, hX12]
              exact ⟨rfl, h12⟩
            · rw [bind_ub hY12, hX12]
              trivial
            · rw [bind_loop hY12, hX12]
              trivial
          · rw [bind_ret hY9, hX9]
            exact ⟨rfl, h9⟩
          · rw [bind_ub hY9, hX9]
            trivial
          · rw [bind_loop hY9, hX9]
            trivial
        · rw [bind_ret hY, hX]
          exact ⟨rfl, h8⟩
        · rw [bind_ub hY, hX]
          trivial
        · rw [bind_loop hY, hX]
          trivial

/-! ### The declaration -/

theorem attributesList_any (h : Any ask s m tmp w) :
    ∃ i w', attributesList w = .ret () w' ∧ Any ask s { m with attributes := some i } tmp w' := by
  unfold attributesList
  rw [bind_ret h.getD, bind_use (h.mem_dtd (by simp [MDtd.blocks]))]
  cases he : m.attributes with
  | some i =>
    refine ⟨i, w, rfl, ?_⟩
    rw [← he]
    exact h
  | none =>
    obtain ⟨i, w1, e1, h1⟩ := h.alloc
    simp only
    rw [bind_ret e1]
    have hm := h.made
    obtain ⟨w2, e2, h2⟩ := h1.setD (d' := { m with attributes := some i }) (tmp' := tmp)
      (by simp only [MDtd.blocks, he]; blocks) ⟨hm.els, by simp, hm.ents, hm.each⟩
    exact ⟨i, w2, e2, h2⟩

theorem findAttr_run {name : Text} : ∀ {as : List MAttr} {k : Nat} {w : World}, (∀ x ∈ as, x.id ∈ w.heap ∧ x.name.id ∈ w.heap) → name.id ∈ w.heap →
    (findAttr name as k w = .ret none w ∧ ∀ x ∈ as, x.name.text ≠ name.text) ∨
    ∃ pre a post, as = pre ++ a :: post ∧ findAttr name as k w = .ret (some (k + pre.length)) w ∧ a.name.text = name.text ∧
      ∀ x ∈ pre, x.name.text ≠ name.text
  | [], _, _, _, _ => .inl ⟨rfl, fun x hx => (nomatch hx)⟩
  | y :: as, k, w, hb, hn => by
    unfold findAttr
    rw [bind_use (hb y (by simp)).1, bind_use (hb y (by simp)).2, bind_use hn]
    by_cases hc : (y.name.text == name.text) = true
    · rw [if_pos hc]
      exact .inr ⟨[], y, as, rfl, rfl, eq_of_beq hc, fun x hx => (nomatch hx)⟩
    · rw [if_neg hc]
      have hne : y.name.text ≠ name.text := fun he => hc (by simp [he])
      rcases findAttr_run (as := as) (k := k + 1) (w := w) (fun x hx => hb x (by simp [hx])) hn with ⟨e, h⟩ | ⟨pre, a, post, rfl, e, ha, h⟩
      · refine .inl ⟨e, fun x hx => ?_⟩
        rcases List.mem_cons.1 hx with rfl | hx
        · exact hne
        · exact h x hx
      · refine .inr ⟨y :: pre, a, post, rfl, ?_, ha, fun x hx => ?_⟩
        · rw [e]
          simp only [List.length_cons]
          congr 2
          omega
        · rcases List.mem_cons.1 hx with rfl | hx
          · exact hne
          · exact h x hx

theorem setDecls_mid {name : List Char} {decls old : List AttDecl} {post : List AttList} : ∀ {pre : List AttList}, (∀ x ∈ pre, x.name ≠ name) →
    setDecls name decls (pre ++ ⟨name, old⟩ :: post) = pre ++ ⟨name, decls⟩ :: post
  | [], _ => by simp [setDecls]
  | y :: pre, h => by
    have hne := h y (by simp)
    simp only [List.cons_append, setDecls, beq_iff_eq, hne, if_false]
    rw [setDecls_mid fun x hx => h x (by simp [hx])]

theorem setDecls_new {name : List Char} {decls : List AttDecl} : ∀ {as : List AttList}, (∀ x ∈ as, x.name ≠ name) →
    setDecls name decls as = as ++ [⟨name, decls⟩]
  | [], _ => rfl
  | y :: as, h => by
    have hne := h y (by simp)
    simp only [setDecls, beq_iff_eq, hne, if_false, List.cons_append]
    rw [setDecls_new fun x hx => h x (by simp [hx])]

theorem find_mid {name : List Char} {al : AttList} {post : List AttList} (ha : al.name = name) : ∀ {pre : List AttList}, (∀ x ∈ pre, x.name ≠ name) →
    (pre ++ al :: post).find? (fun x => x.name == name) = some al
  | [], _ => by simp [ha]
  | y :: pre, h => by
    have hne := h y (by simp)
    have : (y.name == name) = false := by simp [hne]
    simp only [List.cons_append, List.find?_cons, this]
    exact find_mid ha fun x hx => h x (by simp [hx])

theorem find_new {name : List Char} {as : List AttList} (h : ∀ x ∈ as, x.name ≠ name) : as.find? (fun x => x.name == name) = none := by
  rw [List.find?_eq_none]
  intro x hx
  simp [h x hx]

theorem mem_atts {x : MAttr} (hx : x ∈ m.atts) {i : Nat} (hi : i ∈ x.blocks) : i ∈ m.blocks := by
  unfold MDtd.blocks
  have : i ∈ (m.atts.map MAttr.blocks).flatten := List.mem_flatten.2 ⟨_, List.mem_map.2 ⟨x, hx, rfl⟩, hi⟩
  simp [this]

theorem parseAttlist_any {fuel : Nat} (h : Any ask s m [] w) (hn : Neat m) :
    Follows (Read ask) (fun ok w' => ok = false ∧ Dead ask [] w') (Dtd.parseAttlist fuel m.val s) (parseAttlist fuel w) := by
  unfold parseAttlist Dtd.parseAttlist
  obtain ⟨i, w1, e1, h1⟩ := attributesList_any h
  obtain ⟨w2, e2, h2⟩ := reads_skip h1
  rw [bind_ret e1, bind_ret e2]
  simp only at h2
  have hg := getUntil_any h2 false [c!" "]
  cases hu : Stream.getUntil [c!" "] (Stream.skip s) with
  | none =>
    rw [hu] at hg
    obtain ⟨w3, e3, h3⟩ := fail_any h2 (code := -1) (by decide)
    rw [bind_ret hg]
    simp only
    rw [bind_ret e3]
    exact ⟨rfl, h3⟩
  | some f =>
    rw [hu] at hg
    obtain ⟨nid, w3, e3, h3⟩ := hg
    simp only [Bool.false_eq_true, if_false] at h3
    rw [bind_ret e3]
    simp only
    -- the loop, once the holder is there
    have hloop : ∀ {pre post : List MAttr} {b : MAttr} {m' : MDtd} {w' : World}, Any ask f.at_ m' [] w' → m'.atts = pre ++ b :: post → m'.attributes ≠ none →
        Neat m' → { m'.val with attributes := m.val.attributes } = m.val → b.decls.map MDecl.val = m.val.declsOf (toStr f.text) →
        (∀ decls, setDecls (toStr f.text) decls m.val.attributes = pre.map MAttr.val ++ ⟨b.name.text, decls⟩ :: post.map MAttr.val) →
        Follows (Read ask) (fun ok w' => ok = false ∧ Dead ask [] w')
          (match Dtd.attlistLoop fuel m.val (m.val.declsOf (toStr f.text)) f.at_ with
            | .ok (d, decls, s) => .ok ({ d with attributes := setDecls (toStr f.text) decls d.attributes }, s)
            | .error => .error
            | .ub => .ub
            | .loop => .loop) (attlistLoop pre.length fuel w') := by
      intro pre post b m' w' h' hm' hl' hn' hs' hdecls hset
      rw [← hdecls]
      rcases (attlistLoop_any (fuel := fuel) (d := m.val) (xs := b.decls) (a := b) h' hm' hl' hn' hs').cases with
        ⟨⟨d', decls, s'⟩, ok, w4, hX, hY, rfl, m4, xs4, ha4, hv4, hs4, hn4, h4⟩ | ⟨ok, w4, hX, hY, rfl, h4⟩ | ⟨hX, hY⟩ | ⟨hX, hY⟩
      · rw [hX, hY]
        simp only at hv4 hs4 h4
        refine ⟨rfl, m4, ?_, hn4, h4⟩
        simp only
        rw [← hs4]
        simp only
        rw [hset, ← hv4]
        have : m4.val.attributes = pre.map MAttr.val ++ ⟨b.name.text, xs4.map MDecl.val⟩ :: post.map MAttr.val := by
          show m4.atts.map MAttr.val = _
          rw [ha4]
          simp [MAttr.val]
        rw [← this]
      · rw [hX, hY]
        exact ⟨rfl, h4⟩
      · rw [hX, hY]
        trivial
      · rw [hX, hY]
        trivial
    unfold attrHolder
    rw [bind_assoc, bind_ret h3.getD, bind_assoc]
    rcases findAttr_run (name := ⟨nid, toStr f.text⟩) (as := m.atts) (k := 0) (w := w3)
        (fun x hx => ⟨h3.mem_dtd (mem_atts (m := { m with attributes := some i }) hx (by simp [MAttr.blocks])),
          h3.mem_dtd (mem_atts (m := { m with attributes := some i }) hx (by simp [MAttr.blocks]))⟩) (h3.mem_last rfl) with
      ⟨e, hne⟩ | ⟨pre, b, post, hat, e, hb, hpre⟩
    · rw [bind_ret e]
      simp only
      obtain ⟨aid, w4, e4, h4⟩ := alloc_at h3
      obtain ⟨w5, e5, h5, _⟩ := nullify_at h4
      obtain ⟨lid, w6, e6, h6⟩ := h5.any.alloc
      have hmade := h6.made
      obtain ⟨w7, e7, h7⟩ := h6.setD (d' := { m with attributes := some i, atts := m.atts ++ [⟨aid, ⟨nid, toStr f.text⟩, lid, []⟩] }) (tmp' := [])
        (by
          simp only [MDtd.blocks, List.map_append, List.map_cons, List.map_nil, List.flatten_append, List.flatten_cons, List.flatten_nil, MAttr.blocks, Option.toList]
          blocks)
        ⟨hmade.els, by simp, hmade.ents, hmade.each⟩
      simp only [bind_assoc]
      rw [bind_ret e4, bind_ret e5, bind_ret e6, bind_ret h6.getD, bind_ret e7]
      have hne' : ∀ x ∈ m.val.attributes, x.name ≠ toStr f.text := by
        intro x hx
        obtain ⟨y, hy, rfl⟩ := List.mem_map.1 hx
        exact hne y hy
      have hnone : m.val.declsOf (toStr f.text) = [] := by
        unfold Dtd.declsOf Dtd.attr
        rw [find_new hne']
      refine hloop (pre := m.atts) (post := []) h7 rfl (by simp) ⟨hn.named, hn.root⟩ rfl hnone.symm ?_
      intro decls
      rw [setDecls_new hne']
      rfl
    · rw [bind_ret e]
      simp only [Nat.zero_add]
      have hpre' : ∀ x ∈ pre.map MAttr.val, x.name ≠ toStr f.text := by
        intro x hx
        obtain ⟨y, hy, rfl⟩ := List.mem_map.1 hx
        exact hpre y hy
      have hav : m.val.attributes = pre.map MAttr.val ++ ⟨toStr f.text, b.decls.map MDecl.val⟩ :: post.map MAttr.val := by
        show m.atts.map MAttr.val = _
        rw [hat]
        simp [MAttr.val, hb]
      refine hloop (pre := pre) (post := post) (b := b) (m' := { m with attributes := some i }) h3.any hat (by simp) ⟨hn.named, hn.root⟩ rfl ?_ ?_
      · unfold Dtd.declsOf Dtd.attr
        rw [hav, find_mid (name := toStr f.text) (al := ⟨toStr f.text, _⟩) rfl hpre']
      · intro decls
        rw [hav, setDecls_mid hpre', hb]

end

end DtdMem
end Axl
