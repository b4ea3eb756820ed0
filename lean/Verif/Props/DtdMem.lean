/-
C62: the memory of `axl_dtd_parse` and `axl_dtd_free`.
-/
import Verif.Proofs.DtdMemWhole

namespace Axl
namespace DtdMem
open Spec.DtdMem

/-- **C62**, a text that is a DTD: `axl_dtd_parse` returns the DTD that the text says, stores no error, and the only
blocks that were not released are those of that DTD, each once; it never uses a block that was released. -/
theorem C62_parse (ask : Bool) {fuel : Nat} {text : List Char} {x : Dtd.Dtd} (h : Dtd.parse fuel text = .ok x) :
    ∃ w, parse fuel text (World.start ask) = .ret true w ∧ OnlyDtd w x ∧ NoError ask w := by
  have hf := parse_follows ask fuel text
  rcases hf.cases with ⟨b, a, w, hX, hY, rfl, hs, he, m, hm, hv, _, hp, hn⟩ | ⟨_, _, hX, _⟩ | ⟨hX, _⟩ | ⟨hX, _⟩ <;> rw [h] at hX <;> cases hX
  exact ⟨w, hY, ⟨hs, m, hm, hv, hp, hp.nodup_iff.1 hn⟩, he⟩

/-- **C62**, `axl_dtd_free`: it releases the DTD that `axl_dtd_parse` returned, each block once, and nothing is left. -/
theorem C62_free (ask : Bool) {fuel : Nat} {text : List Char} {x : Dtd.Dtd} (h : Dtd.parse fuel text = .ok x) :
    ∃ w w', parse fuel text (World.start ask) = .ret true w ∧ dtdFree w = .ret () w' ∧ AllReleased w' := by
  have hf := parse_follows ask fuel text
  rcases hf.cases with ⟨b, a, w, hX, hY, rfl, hs, he, m, hm, hv, hmade, hp, hn⟩ | ⟨_, _, hX, _⟩ | ⟨hX, _⟩ | ⟨hX, _⟩ <;> rw [h] at hX <;> cases hX
  obtain ⟨hh, e1, p1⟩ := dtdFree_run (tmp := []) hm hmade (by simpa using hp)
  exact ⟨w, _, hY, e1, hs, rfl, p1.eq_nil⟩

/-- **C62**, a text that is not a DTD: `axl_dtd_parse` returns NULL, stores one error with a negative code if the caller
asked for it, and releases all that it allocated unless the text `Loses`: an element declaration, after declarations that
are right, whose content model is wrong or whose name was declared.  Then exactly the blocks of that one element are
left, that nothing leads to. -/
theorem C62_error_partial (ask : Bool) {fuel : Nat} {text : List Char} (h : Dtd.parse fuel text = .error) :
    ∃ w, parse fuel text (World.start ask) = .ret false w ∧ OneError ask w ∧
      (¬ Loses fuel Dtd.Dtd.new text → AllReleased w) ∧ (Loses fuel Dtd.Dtd.new text → ∃ e : MElement, Lost w e.blocks ∧ w.heap.Nodup) := by
  have hf := parse_follows ask fuel text
  rcases hf.cases with ⟨_, _, _, hX, _⟩ | ⟨a, w, hX, hY, rfl, hw⟩ | ⟨hX, _⟩ | ⟨hX, _⟩
  · rw [h] at hX
    cases hX
  · rcases hw with ⟨hd, hl⟩ | ⟨⟨e, hd⟩, hl⟩
    · exact ⟨w, hY, hd.errors, fun _ => ⟨hd.stream, hd.dtd, hd.heap.eq_nil⟩, fun hx => absurd hx hl⟩
    · exact ⟨w, hY, hd.errors, fun hx => absurd hl hx, fun _ => ⟨e, ⟨hd.stream, hd.dtd, hd.heap⟩, hd.nodup⟩⟩
  · rw [h] at hX
    cases hX
  · rw [h] at hX
    cases hX

/-- **C62**, every text: the parse that follows the memory ends as the parser over texts does: memory is the cause of no
other undefined behaviour (a block used or released after it was released, a NULL stream or DTD). -/
theorem C62_safe (ask : Bool) (fuel : Nat) (text : List Char) : parse fuel text (World.start ask) = .ub ↔ Dtd.parse fuel text = .ub := by
  rcases (parse_follows ask fuel text).cases with ⟨_, _, _, hX, hY, _⟩ | ⟨_, _, hX, hY, _⟩ | ⟨hX, hY⟩ | ⟨hX, hY⟩ <;> simp [hX, hY]

/-- A text that loses memory leaves blocks that nothing leads to. -/
theorem lost_of {fuel : Nat} {text : List Char} (h : Dtd.parse fuel text = .error) (hl : Loses fuel Dtd.Dtd.new text) (ask : Bool) :
    ∃ w, parse fuel text (World.start ask) = .ret false w ∧ w.dtd = none ∧ w.stream = none ∧ w.heap ≠ [] := by
  obtain ⟨w, hw, _, _, h2⟩ := C62_error_partial ask h
  obtain ⟨e, ⟨hs, hd, hp⟩, _⟩ := h2 hl
  refine ⟨w, hw, hd, hs, fun h0 => ?_⟩
  rw [h0] at hp
  exact absurd hp.symm.eq_nil (by simp [MElement.blocks])

/-- A content model that is wrong: `<!ELEMENT a (b|c,d)>`. -/
theorem loses_model : Loses 40 Dtd.Dtd.new c!"<!ELEMENT a (b|c,d)>" :=
  .here (by decide) (s1 := c!"<!ELEMENT a (b|c,d)>") rfl rfl rfl ⟨_, _, rfl, rfl, by decide, .inl rfl⟩

/-- An element declared twice. -/
theorem loses_twice : Loses 40 Dtd.Dtd.new c!"<!ELEMENT a EMPTY><!ELEMENT a EMPTY>" :=
  .after (by decide) (s1 := c!"<!ELEMENT a EMPTY><!ELEMENT a EMPTY>") rfl (d2 := { Dtd.Dtd.new with elements := [⟨c!"a", .empty⟩] })
    (s2 := c!"<!ELEMENT a EMPTY>") rfl
    (.here (by decide) (s1 := c!"<!ELEMENT a EMPTY>") rfl rfl rfl ⟨_, _, rfl, rfl, by decide, .inr ⟨_, rfl, rfl⟩⟩)

/-- **C62**: not of the code.  `<!ELEMENT a (b|c,d)>` is an error, and the element is never released: its structure, its
name, its content model and the items already read. -/
theorem C62_not_wrong_model : ∃ fuel text, ∀ ask, ∃ w, parse fuel text (World.start ask) = .ret false w ∧ w.dtd = none ∧ w.stream = none ∧ w.heap ≠ [] :=
  ⟨40, c!"<!ELEMENT a (b|c,d)>", lost_of rfl loses_model⟩

/-- **C62**: not of the code.  An element declared twice is an error, and the second one is never released. -/
theorem C62_not_twice :
    ∀ ask, ∃ w, parse 40 c!"<!ELEMENT a EMPTY><!ELEMENT a EMPTY>" (World.start ask) = .ret false w ∧ w.dtd = none ∧ w.stream = none ∧ w.heap ≠ [] :=
  lost_of rfl loses_twice

/-! A text that is a DTD, and wrong texts that lose nothing. -/

def sample : List Char :=
  c!"<!-- x --><!ELEMENT a (b+, (c | d)*)> <!ELEMENT b EMPTY> <!ATTLIST a i ID #REQUIRED k (u|v) \"u\"> <!ENTITY % e 'b|c'>"

example : ∃ w w', parse 40 sample (World.start true) = .ret true w ∧ dtdFree w = .ret () w' ∧ AllReleased w' :=
  C62_free true (x := _) rfl

/-- An attribute of a wrong type, after an element. -/
example : ∃ w, parse 40 c!"<!ELEMENT a EMPTY><!ATTLIST a b WRONG #IMPLIED>" (World.start true) = .ret false w ∧ AllReleased w := by
  obtain ⟨w, hw, _, h1, _⟩ := C62_error_partial true (fuel := 40) (text := c!"<!ELEMENT a EMPTY><!ATTLIST a b WRONG #IMPLIED>") rfl
  refine ⟨w, hw, h1 ?_⟩
  intro hl
  cases hl with
  | here _ hc hp he _ =>
    cases hc
    cases he
  | after _ hc hd hl =>
    cases hc
    cases hd
    cases hl with
    | here _ hc hp he _ =>
      cases hc
      cases hp
    | after _ hc hd hl =>
      cases hc
      cases hd

/-- An entity that is wrong, at the first declaration. -/
example : ∃ w, parse 40 c!"<!ENTITY e \"x\"" (World.start false) = .ret false w ∧ AllReleased w ∧ w.errors = none := by
  obtain ⟨w, hw, he, h1, _⟩ := C62_error_partial false (fuel := 40) (text := c!"<!ENTITY e \"x\"") rfl
  refine ⟨w, hw, h1 ?_, he⟩
  intro hl
  cases hl with
  | here _ hc hp he _ =>
    cases hc
    cases hp
  | after _ hc hd hl =>
    cases hc
    cases hd

end DtdMem
end Axl
