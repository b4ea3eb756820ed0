/-
What a user of axlHash expects: a finite map.  Nothing here refers to the model.
A data pointer is `Option _` (`none` is NULL).
-/
namespace Axl.Spec.Map
variable {κ δ φ : Type}

/-- A pair with the destroy functions given when it was inserted. -/
structure Entry (κ δ φ : Type) where
  key         : κ
  keyDestroy  : Option φ
  data        : Option δ
  dataDestroy : Option φ
deriving DecidableEq

inductive Op (κ δ φ : Type) where
  | insert (e : Entry κ δ φ)
  /-- destroys the pair -/
  | remove (k : κ)
  /-- forgets the pair without destroying it -/
  | delete (k : κ)
  /-- gives the pair to the caller -/
  | removeDeferred (k : κ)

/-- A key comparison that is an equivalence and agrees with the hash function. -/
structure Consistent (hash : κ → Nat) (eq : κ → κ → Bool) : Prop where
  refl  : ∀ a, eq a a = true
  symm  : ∀ a b, eq a b = true → eq b a = true
  trans : ∀ a b c, eq a b = true → eq b c = true → eq a c = true
  hash  : ∀ a b, eq a b = true → hash a = hash b

/-- The pair a key is associated with after a history (newest operation first): the last pair
inserted with an equal key, if no equal key was removed since. -/
def present (eq : κ → κ → Bool) : List (Op κ δ φ) → κ → Option (Entry κ δ φ)
  | [], _ => none
  | .insert e :: past, k => if eq e.key k then some e else present eq past k
  | .remove k' :: past, k => if eq k' k then none else present eq past k
  | .delete k' :: past, k => if eq k' k then none else present eq past k
  | .removeDeferred k' :: past, k => if eq k' k then none else present eq past k

/-- `es` lists every pair present after the history, once. -/
structure Lists (eq : κ → κ → Bool) (past : List (Op κ δ φ)) (es : List (Entry κ δ φ)) : Prop where
  mem  : ∀ e, e ∈ es ↔ present eq past e.key = some e
  once : es.Pairwise fun a b => eq a.key b.key = false

/-- Every pair inserted along a history. -/
def entered : List (Op κ δ φ) → List (Entry κ δ φ)
  | [] => []
  | .insert e :: past => e :: entered past
  | _ :: past => entered past

/-- The pairs taken out without being destroyed. -/
def takenOut (eq : κ → κ → Bool) : List (Op κ δ φ) → List (Entry κ δ φ)
  | [] => []
  | .delete k :: past => (present eq past k).toList ++ takenOut eq past
  | .removeDeferred k :: past => (present eq past k).toList ++ takenOut eq past
  | _ :: past => takenOut eq past

/-- The destroy calls one pair deserves: key and data, each if it is not NULL and has a function. -/
def Entry.keyCall (isNull : κ → Bool) (e : Entry κ δ φ) : Option (φ × κ) := do
  let f ← e.keyDestroy
  if isNull e.key then none else some (f, e.key)
def Entry.dataCall (e : Entry κ δ φ) : Option (φ × δ) := do let f ← e.dataDestroy; let d ← e.data; some (f, d)

end Axl.Spec.Map
