/-
Content models: the parser over the memory does what the one over the text does.
-/
import Verif.Proofs.DtdMemAt

namespace Axl
namespace DtdMem
open Str Dtd

/-- A function over the memory does what one over the text does. -/
def Follows {α β : Type} (ok : β → α → World → Prop) (bad : α → World → Prop) : Res β → Out α → Prop
  | .ok b, .ret a w => ok b a w
  | .error, .ret a w => bad a w
  | .ub, .ub => True
  | .loop, .loop => True
  | _, _ => False

theorem Follows.imp {α β : Type} {ok ok' : β → α → World → Prop} {bad bad' : α → World → Prop} {r : Res β} {o : Out α}
    (h : Follows ok bad r o) (h1 : ∀ b a w, ok b a w → ok' b a w) (h2 : ∀ a w, bad a w → bad' a w) : Follows ok' bad' r o := by
  cases r <;> cases o <;> first | exact h1 _ _ _ h | exact h2 _ _ h | exact h

theorem Follows.cases {α β : Type} {ok : β → α → World → Prop} {bad : α → World → Prop} {r : Res β} {o : Out α} (h : Follows ok bad r o) :
    (∃ b a w, r = .ok b ∧ o = .ret a w ∧ ok b a w) ∨ (∃ a w, r = .error ∧ o = .ret a w ∧ bad a w) ∨ (r = .ub ∧ o = .ub) ∨
      (r = .loop ∧ o = .loop) := by
  cases r <;> cases o
  case ok.ret b a w => exact .inl ⟨b, a, w, rfl, rfl, h⟩
  case error.ret a w => exact .inr (.inl ⟨a, w, rfl, rfl, h⟩)
  case ub.ub => exact .inr (.inr (.inl ⟨rfl, rfl⟩))
  case loop.loop => exact .inr (.inr (.inr ⟨rfl, rfl⟩))
  all_goals exact h.elim

theorem partsVal_length (ps : List MPart) : (partsVal ps).length = ps.length := by
  rw [partsVal_map, List.length_map]

/-! ### Delimiters -/

theorem reads_repetition : Reads repetition Dtd.repetition := by
  refine Reads.of_eq ((reads_eat c!"?").bind fun a => Reads.ite a (.pure Times.opt) ((reads_eat c!"+").bind fun a =>
    Reads.ite a (.pure Times.some1) ((reads_eat c!"*").bind fun a => Reads.ite a (.pure Times.many) (.pure Times.one)))) fun s => ?_
  unfold Dtd.repetition
  cases h1 : Stream.eat s c!"?" with
  | some r => simp [eaten_some h1]
  | none =>
    simp only [eaten_none h1]
    cases h2 : Stream.eat s c!"+" with
    | some r => simp [eaten_some h2]
    | none =>
      simp only [eaten_none h2]
      cases h3 : Stream.eat s c!"*" with
      | some r => simp [eaten_some h3]
      | none => simp [eaten_none h3]

/-- `Dtd.separator` with the stream after it. -/
def separated (s : List Char) : Option Nat × List Char :=
  match Dtd.separator s with
  | some (k, s) => (some k, s)
  | none => (none, Stream.skip s)

theorem reads_separator : Reads separator separated := by
  refine Reads.of_eq (reads_skip.bind fun _ => (reads_eat c!",").bind fun a => Reads.ite a (.pure (some 1)) ((reads_eat c!"|").bind fun a =>
    Reads.ite a (.pure (some 2)) ((reads_eat c!")").bind fun a => Reads.ite a (.pure (some 3)) (.pure none)))) fun s => ?_
  unfold separated Dtd.separator
  cases h1 : Stream.eat (Stream.skip s) c!"," with
  | some r => simp [eaten_some h1]
  | none =>
    simp only [eaten_none h1]
    cases h2 : Stream.eat (Stream.skip s) c!"|" with
    | some r => simp [eaten_some h2]
    | none =>
      simp only [eaten_none h2]
      cases h3 : Stream.eat (Stream.skip s) c!")" with
      | some r => simp [eaten_some h3]
      | none => simp [eaten_none h3]

theorem reads_afterSpace : Reads afterSpace Dtd.afterSpace := by
  have hk : ∀ o : Option Nat, Reads (match o with
      | some k => pure k
      | none => do
        let a ← eat c!"+"
        if a then pure 4
        else do
          let a ← eat c!"*"
          if a then pure 5
          else do
            let a ← eat c!"?"
            if a then pure 6 else pure 0) (fun s => match o with
      | some k => (k, s)
      | none => match Stream.eat s c!"+" with
        | some s => (4, s)
        | none => match Stream.eat s c!"*" with
          | some s => (5, s)
          | none => match Stream.eat s c!"?" with
            | some s => (6, s)
            | none => (0, s)) := by
    intro o
    cases o with
    | some k => exact .pure k
    | none =>
      refine Reads.of_eq ((reads_eat c!"+").bind fun a => Reads.ite a (.pure 4) ((reads_eat c!"*").bind fun a =>
        Reads.ite a (.pure 5) ((reads_eat c!"?").bind fun a => Reads.ite a (.pure 6) (.pure 0)))) fun s => ?_
      simp only
      cases h1 : Stream.eat s c!"+" with
      | some r => simp [eaten_some h1]
      | none =>
        simp only [eaten_none h1]
        cases h2 : Stream.eat s c!"*" with
        | some r => simp [eaten_some h2]
        | none =>
          simp only [eaten_none h2]
          cases h3 : Stream.eat s c!"?" with
          | some r => simp [eaten_some h3]
          | none => simp [eaten_none h3]
  refine Reads.of_eq (reads_separator.bind hk) fun s => ?_
  unfold Dtd.afterSpace separated
  cases h : Dtd.separator s with
  | some r => rfl
  | none =>
    simp only
    cases h1 : Stream.eat (Stream.skip s) c!"+" with
    | some r => rfl
    | none =>
      simp only
      cases h2 : Stream.eat (Stream.skip s) c!"*" with
      | some r => rfl
      | none => rfl

theorem reads_closeSep (chunk : Nat) : Reads (closeSep chunk) (Dtd.closeSep chunk) := by
  refine Reads.of_eq (reads_skip.bind fun _ => (reads_eat c!",").bind fun a => Reads.ite a (.pure 1) ((reads_eat c!"|").bind fun a =>
    Reads.ite a (.pure 2) (.pure chunk))) fun s => ?_
  unfold Dtd.closeSep
  cases h1 : Stream.eat (Stream.skip s) c!"," with
  | some r => simp [eaten_some h1]
  | none =>
    simp only [eaten_none h1]
    cases h2 : Stream.eat (Stream.skip s) c!"|" with
    | some r => simp [eaten_some h2]
    | none => simp [eaten_none h2]

/-! ### Lists of items -/

section
variable {ask : Bool} {s : List Char} {d : MDtd} {tmp : List Nat} {w : World}

theorem withList_any {l : MContent} (h : Any ask s d (l.blocks ++ tmp) w) :
    ∃ i w', withList l w = .ret { l with itemList := some i } w' ∧ Any ask s d (({ l with itemList := some i } : MContent).blocks ++ tmp) w' := by
  unfold withList
  rw [bind_use (h.mem_tmp (by simp [MContent.blocks]))]
  cases hi : l.itemList with
  | some i =>
    refine ⟨i, w, ?_, ?_⟩
    · simp only
      rw [bind_use (h.mem_tmp (by simp [MContent.blocks, hi])), pure_eq, ← hi]
    · rw [← hi]
      exact h
  | none =>
    obtain ⟨i, w', e, h'⟩ := h.alloc
    refine ⟨i, w', ?_, h'.perm ?_⟩
    · simp only
      rw [bind_ret e]
      rfl
    · simp only [MContent.blocks, hi]
      blocks

theorem particleAdd_any {l : MContent} {name : Text} {chunk : Nat} (h : Any ask s d (name.id :: (l.blocks ++ tmp)) w)
    (hm : PartsMade l.parts) :
    ∃ l' w', particleAdd l name chunk w = .ret l' w' ∧ Any ask s d (l'.blocks ++ tmp) w' ∧ l'.Made ∧
      l'.val = { l.val with items := l.val.items ++ [.node (chunkTimes chunk) name.text] } ∧ l'.kind = l.kind ∧
      l'.parts.length = l.parts.length + 1 := by
  obtain ⟨i, w1, e1, h1⟩ := withList_any (l := l) (tmp := name.id :: tmp) (h.perm (by blocks))
  obtain ⟨n, w2, e2, h2⟩ := h1.alloc
  unfold particleAdd
  refine ⟨{ l with itemList := some i, parts := l.parts ++ [MPart.node n (chunkTimes chunk) name] }, w2, ?_, h2.perm ?_, ?_, ?_, rfl, by simp⟩
  · rw [bind_ret e1, bind_ret e2]
    rfl
  · simp only [MContent.blocks, partsBlocks_append, partsBlocks, MPart.blocks]
    blocks
  · refine ⟨by simp, ?_⟩
    simpa [partsMade_append, PartsMade, MPart.Made] using hm
  · simp [MContent.val, partsVal_append, partsVal, MPart.val]

/-! ### The state of the reading -/

/-- The blocks of the lists that are being read. -/
def MReading.blocks (r : MReading) : List Nat := r.cur.blocks ++ (r.stack.map fun p => p.2 :: p.1.blocks).flatten

def MReading.val (r : MReading) : Reading := ⟨r.cur.val, r.stack.map fun p => p.1.val, r.sort, r.closed⟩

structure MReading.Made (r : MReading) : Prop where
  cur   : r.cur.Made
  stack : ∀ p ∈ r.stack, p.1.itemList ≠ none ∧ PartsMade p.1.parts

theorem openList_any {r : MReading} (h : Any ask s d (r.blocks ++ tmp) w) (hm : r.Made) :
    ∃ r' w', openList r w = .ret r' w' ∧ Any ask s d (r'.blocks ++ tmp) w' ∧ r'.Made ∧
      r'.val = { r.val with cur := ⟨.undef, .one, []⟩, stack := r.val.cur :: r.val.stack } := by
  obtain ⟨c, w1, e1, h1⟩ := h.alloc
  obtain ⟨n, w2, e2, h2⟩ := h1.alloc
  obtain ⟨i, w3, e3, h3⟩ := withList_any (l := r.cur) (tmp := n :: c :: ((r.stack.map fun p => p.2 :: p.1.blocks).flatten ++ tmp)) (w := w2)
    (h2.perm (by unfold MReading.blocks; blocks))
  unfold openList
  refine ⟨{ r with cur := ⟨c, .undef, .one, none, []⟩, stack := ({ r.cur with itemList := some i }, n) :: r.stack }, w3, ?_, h3.perm ?_, ⟨?_, ?_⟩, ?_⟩
  · rw [bind_ret e1, bind_ret e2, bind_ret e3]
    rfl
  · simp only [MReading.blocks, List.map_cons, List.flatten_cons]
    simp only [MContent.blocks, partsBlocks]
    blocks
  · simp [MContent.Made, PartsMade]
  · intro p hp
    rcases List.mem_cons.1 hp with rfl | hp
    · exact ⟨by simp, hm.cur.2⟩
    · exact hm.stack p hp
  · simp [MReading.val, MContent.val, partsVal]

theorem closeLoop_any {ask : Bool} {d : MDtd} {tmp : List Nat} : ∀ {fuel : Nat} {r : MReading} {chunk : Nat} {s : List Char} {w : World},
    Any ask s d (r.blocks ++ tmp) w → r.Made →
    Follows (fun (b : Reading × Nat × List Char) (a : MReading × Nat) w' =>
      a.1.val = b.1 ∧ a.2 = b.2.1 ∧ a.1.Made ∧ Any ask b.2.2 d (a.1.blocks ++ tmp) w') (fun _ _ => False)
      (Dtd.closeLoop fuel r.val chunk s) (closeLoop fuel r chunk w)
  | 0, _, _, _, _, _, _ => trivial
  | fuel + 1, r, chunk, s, w, h, hm => by
    unfold closeLoop Dtd.closeLoop
    obtain ⟨w1, e1, h1⟩ := reads_skip h
    obtain ⟨w2, e2, h2⟩ := reads_repetition h1
    obtain ⟨w3, e3, h3⟩ := reads_closeSep chunk h2
    rw [bind_ret e1, bind_ret e2, bind_use (h2.mem_tmp (by simp [MReading.blocks, MContent.blocks])), bind_ret e3]
    simp only
    have hstack : r.val.stack = r.stack.map fun p => p.1.val := rfl
    obtain ⟨w4, e4, h4⟩ := reads_skip h3
    obtain ⟨w5, e5, h5⟩ := reads_eat c!")" h4
    cases hs : r.stack with
    | nil =>
      rw [hs] at hstack
      simp only [hstack, List.map_nil]
      rw [bind_ret e4, bind_ret e5]
      cases he : Stream.eat (Stream.skip (Dtd.closeSep chunk (Dtd.repetition (Stream.skip s)).2).2) c!")" with
      | none =>
        rw [eaten_none he] at h5
        exact ⟨rfl, rfl, ⟨hm.cur, fun p hp => (nomatch hp)⟩, h5.perm (by simp only [MReading.blocks, hs]; exact List.Perm.refl _)⟩
      | some s' =>
        rw [eaten_some he] at h5
        exact ⟨rfl, rfl, ⟨hm.cur, fun p hp => (nomatch hp)⟩, h5.perm (by simp only [MReading.blocks, hs]; exact List.Perm.refl _)⟩
    | cons p stack =>
      obtain ⟨parent, node⟩ := p
      rw [hs] at hstack
      simp only [hstack, List.map_cons]
      rw [bind_ret e4, bind_ret e5]
      have hp := hm.stack (parent, node) (by simp [hs])
      have hm' : ({ r with cur := { parent with parts := parent.parts ++ [MPart.list node r.cur.id r.cur.kind (Dtd.repetition (Stream.skip s)).1 r.cur.itemList r.cur.parts] }, stack := stack } : MReading).Made := by
        refine ⟨⟨?_, ?_⟩, fun q hq => hm.stack q (by simp [hs, hq])⟩
        · simp [hp.1]
        · simp only [partsMade_append]
          exact ⟨hp.2, ⟨hm.cur.1.1, hm.cur.2⟩, trivial⟩
      have hb : (r.blocks ++ tmp).Perm (({ r with cur := { parent with parts := parent.parts ++ [MPart.list node r.cur.id r.cur.kind (Dtd.repetition (Stream.skip s)).1 r.cur.itemList r.cur.parts] }, stack := stack } : MReading).blocks ++ tmp) := by
        simp only [MReading.blocks, hs, List.map_cons, List.flatten_cons, MContent.blocks, partsBlocks_append, partsBlocks, MPart.blocks]
        blocks
      have hv : ({ r with cur := { parent with parts := parent.parts ++ [MPart.list node r.cur.id r.cur.kind (Dtd.repetition (Stream.skip s)).1 r.cur.itemList r.cur.parts] }, stack := stack } : MReading).val =
          { r.val with cur := { parent.val with items := parent.val.items ++ [.list r.val.cur.kind (Dtd.repetition (Stream.skip s)).1 r.val.cur.items] }, stack := stack.map fun p => p.1.val } := by
        simp [MReading.val, MContent.val, partsVal_append, partsVal, MPart.val]
      cases he : Stream.eat (Stream.skip (Dtd.closeSep chunk (Dtd.repetition (Stream.skip s)).2).2) c!")" with
      | none =>
        rw [eaten_none he] at h5
        simp only [eaten_none he]
        exact ⟨hv, rfl, hm', h5.perm hb⟩
      | some s' =>
        rw [eaten_some he] at h5
        simp only [eaten_some he, if_true]
        have := closeLoop_any (fuel := fuel) (chunk := (Dtd.closeSep chunk (Dtd.repetition (Stream.skip s)).2).1) (h5.perm hb) hm'
        rw [hv] at this
        exact this

/-- What was read of a content model when it fails. -/
def LostSpec (ask : Bool) (tmp : List Nat) (w : World) : Prop := ∃ m : MReading, Dead ask (m.blocks ++ tmp) w

theorem reads_delimiter (chunk : Nat) : Reads (delimiter chunk) fun s => if chunk = 0 then Dtd.afterSpace s else (chunk, s) := by
  unfold delimiter
  split
  · exact reads_afterSpace
  · exact .pure chunk

/-- `afterTimes` over the text. -/
def separatedAfter (chunk : Nat) (s : List Char) : Option Nat × List Char :=
  if chunk = 4 || chunk = 5 || chunk = 6 then separated s else (some chunk, s)

theorem reads_afterTimes (chunk : Nat) : Reads (afterTimes chunk) (separatedAfter chunk) := by
  unfold afterTimes separatedAfter
  cases chunk = 4 || chunk = 5 || chunk = 6
  · exact .pure _
  · exact reads_separator

theorem specLoop_any {ask : Bool} {d : MDtd} {tmp : List Nat} {stack : Nat} : ∀ {fuel : Nat} {r : MReading} {s : List Char} {w : World},
    Any ask s d (stack :: (r.blocks ++ tmp)) w → r.Made →
    Follows (fun (b : Reading × List Char) (a : Option MReading) w' =>
      ∃ m, a = some m ∧ m.val = b.1 ∧ m.Made ∧ m.stack = [] ∧ Any ask b.2 d (stack :: (m.blocks ++ tmp)) w')
      (fun a w' => a = none ∧ LostSpec ask tmp w')
      (Dtd.specLoop fuel r.val s) (specLoop stack fuel r w)
  | 0, _, _, _, _, _ => trivial
  | fuel + 1, r, s, w, h, hm => by
    unfold specLoop Dtd.specLoop
    obtain ⟨w1, e1, h1⟩ := reads_skip h
    obtain ⟨w2, e2, h2⟩ := reads_eat c!"(" h1
    rw [bind_ret e1, bind_ret e2]
    cases he : Stream.eat (Stream.skip s) c!"(" with
    | some s' =>
      rw [eaten_some he] at h2
      simp only [eaten_some he, if_true]
      rw [bind_use (h2.mem_tmp (by simp))]
      obtain ⟨r', w3, e3, h3, hm3, hv3⟩ := openList_any (tmp := stack :: tmp) (h2.perm (by blocks)) hm
      rw [bind_ret e3]
      have := specLoop_any (fuel := fuel) (stack := stack) (tmp := tmp) (h3.perm (by blocks)) hm3
      rw [hv3] at this
      exact this
    | none =>
      rw [eaten_none he] at h2
      simp only [eaten_none he, Bool.false_eq_true, if_false]
      have hg := take_any h2 true delimiters (fun found => match found with
        | none => specFail stack
        | some (name, chunk) => do
          nullify
          let chunk ← delimiter chunk
          let l ← particleAdd r.cur name chunk
          let sep ← afterTimes chunk
          match sep with
          | none => specFail stack
          | some chunk =>
            match kindAfter l.kind chunk with
            | none => specFail stack
            | some kind => do
              let r := { r with cur := { l with kind := kind }, sort := sortAfter r name.text chunk l }
              if chunk = 3 then do
                let s ← getS
                let (r, chunk) ← closeLoop (s.rest.length + 1) r chunk
                use stack
                if chunk ≠ 3 || !r.stack.isEmpty then specLoop stack fuel r else pure (some r)
              else specLoop stack fuel r)
      cases hu : Stream.getUntil delimiters (Stream.skip s) with
      | none =>
        simp only [hu] at hg
        refine Eq.subst hg.symm ?_
        obtain ⟨w3, e3, h3⟩ := specFail_any (α := MReading) h2
        simp only
        rw [e3]
        exact ⟨rfl, r, h3⟩
      | some f =>
        simp only [hu] at hg
        obtain ⟨id, w3, e3, h3⟩ := hg
        refine Eq.subst e3.symm ?_
        simp only [if_true] at h3
        simp only
        obtain ⟨w4, e4, h4, _⟩ := nullify_at h3
        rw [bind_ret e4]
        obtain ⟨w5, e5, h5⟩ := reads_delimiter f.chunk h4.any
        rw [bind_ret e5]
        simp only at h5 ⊢
        generalize hcs : (if f.chunk = 0 then Dtd.afterSpace f.after else (f.chunk, f.after)) = cs at *
        obtain ⟨chunk0, s5⟩ := cs
        simp only at h5 ⊢
        obtain ⟨l, w6, e6, h6, hm6, hv6, hk6, hl6⟩ := particleAdd_any (l := r.cur) (name := ⟨id, toStr f.text⟩) (chunk := chunk0)
          (tmp := stack :: ((r.stack.map fun p => p.2 :: p.1.blocks).flatten ++ tmp)) (w := w5)
          (h5.perm (by unfold MReading.blocks; blocks)) hm.cur.2
        rw [bind_ret e6]
        obtain ⟨w7, e7, h7⟩ := reads_afterTimes chunk0 h6
        rw [bind_ret e7]
        have hlost : ∀ {s' : List Char} {w' : World}, Any ask s' d (l.blocks ++ (stack :: ((r.stack.map fun p => p.2 :: p.1.blocks).flatten ++ tmp))) w' →
            ∃ w'', (specFail stack : M (Option MReading)) w' = .ret none w'' ∧ LostSpec ask tmp w'' := by
          intro s' w' hx
          obtain ⟨w'', e'', h''⟩ := specFail_any (α := MReading) (stack := stack) (tmp := ({ r with cur := l } : MReading).blocks ++ tmp)
            (hx.perm (by unfold MReading.blocks; blocks))
          exact ⟨w'', e'', _, h''⟩
        have hfun : (if (chunk0 = 4 || chunk0 = 5 || chunk0 = 6) = true then Dtd.separator s5 else some (chunk0, s5)) =
            (separatedAfter chunk0 s5).1.map fun k => (k, (separatedAfter chunk0 s5).2) := by
          unfold separatedAfter separated
          split
          · cases Dtd.separator s5 <;> simp
          · simp
        rw [hfun]
        generalize separatedAfter chunk0 s5 = sp at *
        obtain ⟨o, s7⟩ := sp
        simp only at h7 ⊢
        cases o with
        | none =>
          obtain ⟨w8, e8, h8⟩ := hlost h7
          simp only [Option.map_none]
          rw [e8]
          exact ⟨rfl, h8⟩
        | some chunk =>
          simp only [Option.map_some]
          have hkv : r.val.cur.kind = l.kind := hk6.symm
          rw [hkv]
          cases hk : kindAfter l.kind chunk with
          | none =>
            obtain ⟨w8, e8, h8⟩ := hlost h7
            simp only
            rw [e8]
            exact ⟨rfl, h8⟩
          | some kind =>
            simp only
            obtain ⟨r', hr'⟩ : ∃ r' : MReading, r' = { r with cur := { l with kind := kind }, sort := sortAfter r (toStr f.text) chunk l } := ⟨_, rfl⟩
            have hvr : r'.val = { r.val with cur := { r.val.cur with kind := kind, items := r.val.cur.items ++ [.node (chunkTimes chunk0) (toStr f.text)] }, sort := Dtd.sortAfter r.val (toStr f.text) chunk (r.val.cur.items ++ [.node (chunkTimes chunk0) (toStr f.text)]) } := by
              rw [hr']
              have hi : partsVal l.parts = partsVal r.cur.parts ++ [.node (chunkTimes chunk0) (toStr f.text)] := congrArg Content.items hv6
              have ht : l.times = r.cur.times := congrArg Content.times hv6
              simp only [MReading.val, MContent.val, hi, ht]
              congr 1
              unfold sortAfter Dtd.sortAfter
              simp [MContent.val, partsVal_length, hl6]
            have hmr : r'.Made := by
              rw [hr']
              exact ⟨hm6, hm.stack⟩
            have h8 : Any ask s7 d (r'.blocks ++ (stack :: tmp)) w7 := h7.perm (by
              rw [hr']
              simp only [MReading.blocks, MContent.blocks]
              blocks)
            rw [← hr', ← hvr]
            by_cases hc : chunk = 3
            · rw [if_pos hc, if_pos hc]
              obtain ⟨st, est, hst⟩ := h8.getS
              rw [bind_ret est, hst]
              rcases (closeLoop_any (fuel := s7.length + 1) (chunk := chunk) h8 hmr).cases with
                ⟨⟨x1, x2, x3⟩, ⟨y1, y2⟩, w9, hX, hY, hv9, hc9, hm9, h9⟩ | ⟨_, _, _, _, hcl⟩ | ⟨hX, hY⟩ | ⟨hX, hY⟩
              · rw [bind_ret hY, hX]
                simp only at hv9 hc9 hm9 h9 ⊢
                rw [bind_use (h9.mem_tmp (by simp))]
                subst hv9 hc9
                have hie : y1.val.stack.isEmpty = y1.stack.isEmpty := by simp [MReading.val]
                rw [hie]
                by_cases hgo : (decide (y2 ≠ 3) || !y1.stack.isEmpty) = true
                · rw [if_pos hgo, if_pos hgo]
                  exact specLoop_any (fuel := fuel) (stack := stack) (tmp := tmp) (h9.perm (by blocks)) hm9
                · rw [if_neg hgo, if_neg hgo]
                  refine ⟨y1, rfl, rfl, hm9, ?_, h9.perm (by blocks)⟩
                  simp at hgo
                  exact hgo.2
              · exact hcl.elim
              · rw [bind_ub hY, hX]
                trivial
              · rw [bind_loop hY, hX]
                trivial
            · rw [if_neg hc, if_neg hc]
              exact specLoop_any (fuel := fuel) (stack := stack) (tmp := tmp) (h8.perm (by blocks)) hmr

end

end DtdMem
end Axl
