/-
What a user of axlList expects: a sequence of elements.  Nothing here refers to the model.
-/
namespace Axl.Spec.Seq
variable {α : Type}

/-- Result of adding `x` to the sequence under the list's comparison `eq`
(`eq stored x = -1`: x goes before the stored element, `1`: after it, `0`: x is already stored). -/
inductive AddOutcome (eq : α → α → Int) (x : α) : List α → List α → Prop
  | empty : AddOutcome eq x [] [x]
  | alreadyStored {xs : List α} {y : α} : y ∈ xs → eq y x = 0 → AddOutcome eq x xs xs
  | before {l r : List α} {y : α} : (∀ z ∈ l, eq z x ≠ -1 ∧ eq z x ≠ 0) → eq y x = -1 →
      AddOutcome eq x (l ++ y :: r) (l ++ x :: y :: r)
  | after {l r : List α} {y : α} : (∀ z ∈ r, eq z x ≠ 1 ∧ eq z x ≠ 0) → eq y x = 1 →
      AddOutcome eq x (l ++ y :: r) (l ++ y :: x :: r)
  /-- Only for comparisons that answer something else than -1, 0 or 1. -/
  | noPlace {xs : List α} : xs ≠ [] → (∀ z ∈ xs, eq z x ≠ -1 ∧ eq z x ≠ 0 ∧ eq z x ≠ 1) →
      AddOutcome eq x xs xs

/-- Operations of the list API.  `destroy = true`: the `remove` variant, `false`: `unlink`. -/
inductive Op (α : Type) where
  | add (x : α)
  | append (x : α)
  | prepend (x : α)
  | addAt (x : α) (position : Int)
  | takeFirst (destroy : Bool)
  | takeLast (destroy : Bool)
  | takeAt (position : Int) (destroy : Bool)
  | take (x : α) (destroy : Bool)

/-- The abstract list: its elements, and the bookkeeping of what happened to elements. -/
structure State (α : Type) where
  elems     : List α := []
  /-- elements that were stored, oldest first -/
  entered   : List α := []
  /-- elements taken out by `remove` operations -/
  destroyed : List α := []
  /-- elements taken out by `unlink` operations -/
  unlinked  : List α := []

/-- `x` is stored, the sequence becomes `xs`. -/
def State.enter (s : State α) (x : α) (xs : List α) : State α :=
  { s with elems := xs, entered := s.entered ++ [x] }

/-- `o` (if any) is taken out, the sequence becomes `xs`. -/
def State.leave (s : State α) (o : Option α) (destroy : Bool) (xs : List α) : State α :=
  match o with
  | none => s
  | some x =>
    if destroy then { s with elems := xs, destroyed := s.destroyed ++ [x] }
    else { s with elems := xs, unlinked := s.unlinked ++ [x] }

/-- One operation. -/
inductive Step (eq : α → α → Int) : State α → Op α → State α → Prop
  | added (s : State α) {x : α} {xs : List α} :
      AddOutcome eq x s.elems xs → xs ≠ s.elems → Step eq s (.add x) (s.enter x xs)
  | notAdded (s : State α) {x : α} :
      AddOutcome eq x s.elems s.elems → Step eq s (.add x) s
  | append (s : State α) (x : α) : Step eq s (.append x) (s.enter x (s.elems ++ [x]))
  | prepend (s : State α) (x : α) : Step eq s (.prepend x) (s.enter x (x :: s.elems))
  /-- positions below 0 count as 0, positions beyond the end as the end -/
  | addAt (s : State α) (x : α) (p : Int) :
      Step eq s (.addAt x p) (s.enter x (s.elems.take p.toNat ++ x :: s.elems.drop p.toNat))
  | takeFirst (s : State α) (d : Bool) :
      Step eq s (.takeFirst d) (s.leave s.elems.head? d s.elems.tail)
  | takeLast (s : State α) (d : Bool) :
      Step eq s (.takeLast d) (s.leave s.elems.getLast? d s.elems.dropLast)
  | takeAt (s : State α) (p : Nat) (d : Bool) :
      Step eq s (.takeAt p d) (s.leave s.elems[p]? d (s.elems.eraseIdx p))
  | takeAtNeg (s : State α) (p : Int) (d : Bool) : p < 0 → Step eq s (.takeAt p d) s
  /-- the first stored element equal to `x` -/
  | take (s : State α) (x : α) (d : Bool) :
      Step eq s (.take x d) (s.leave (s.elems.find? (fun y => eq y x == 0)) d
        (s.elems.eraseP (fun y => eq y x == 0)))

/-- A history of operations, oldest first. -/
inductive Steps (eq : α → α → Int) : State α → List (Op α) → State α → Prop
  | nil (s : State α) : Steps eq s [] s
  | cons {s s' s'' : State α} {op : Op α} {ops : List (Op α)} :
      Step eq s op s' → Steps eq s' ops s'' → Steps eq s (op :: ops) s''

/-- A comparison that orders elements: its answers are -1, 0 or 1 and they are consistent. -/
structure IsOrder (eq : α → α → Int) : Prop where
  range : ∀ a b, eq a b = -1 ∨ eq a b = 0 ∨ eq a b = 1
  refl : ∀ a, eq a a = 0
  anti : ∀ a b, eq a b = -(eq b a)
  trans : ∀ a b c, eq a b = 1 → eq b c = 1 → eq a c = 1
  congr : ∀ a b c, eq a b = 0 → eq a c = eq b c

/-- A cursor over a sequence: outside (`none`) or on a position. -/
structure CursorState (α : Type) where
  elems : List α
  pos   : Option Nat
  /-- elements taken out by `remove` through the cursor -/
  destroyed : List α := []

inductive CursorOp where
  | first | last | next | previous
  /-- `axl_list_cursor_remove` (`destroy = true`) or `axl_list_cursor_unlink` -/
  | take (destroy : Bool)

/-- The element under the cursor. -/
def CursorState.item (c : CursorState α) : Option α := c.pos.bind fun i => c.elems[i]?

/-- Effect of a cursor operation. -/
def CursorState.step (c : CursorState α) : CursorOp → CursorState α
  | .first => { c with pos := if c.elems = [] then none else some 0 }
  | .last => { c with pos := if c.elems = [] then none else some (c.elems.length - 1) }
  | .next => { c with pos := c.pos.bind fun i => if i + 1 < c.elems.length then some (i + 1) else none }
  | .previous => { c with pos := c.pos.bind fun i => if i = 0 then none else some (i - 1) }
  | .take d =>
    match c.pos with
    | none => c
    | some i =>
      { elems := c.elems.eraseIdx i
        destroyed := c.destroyed ++ (if d then c.elems[i]?.toList else [])
        -- the cursor moves to the element after the one taken out, else to the one before it
        pos := if i + 1 < c.elems.length then some i else if i = 0 then none else some (i - 1) }

end Axl.Spec.Seq
