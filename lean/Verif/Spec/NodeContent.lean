/-
What the content functions of a node should do: a node holds a sequence of texts, CDATA sections,
comments and other items.
-/
import Verif.Spec.Escape
import Verif.Spec.Str

namespace Axl.Spec.NodeContent
open Spec.Escape Spec.Str

/-- The text with the five special characters replaced by their entities. -/
def escaped (s : List Char) : List Char :=
  s.flatMap (fun c => match entities.find? (fun e => e.2 == c) with
    | some e => e.1
    | none => [c])

/-- What a node holds. -/
inductive Piece where
  | text (s : List Char)
  | cdata (s : List Char)
  | comment (s : List Char)
  | other
deriving DecidableEq, Repr

/-- The string of the texts and CDATA sections. -/
def Piece.text? : Piece → Option (List Char)
  | .text s => some s
  | .cdata s => some s
  | _ => none

/-- The string of anything that has one. -/
def Piece.string? : Piece → Option (List Char)
  | .text s => some s
  | .cdata s => some s
  | .comment s => some s
  | .other => none

/-- What is asked of a node. -/
inductive Req where
  | addText (s : List Char)
  /-- a text given as it is to be written -/
  | addEncoded (s : List Char)
  | addCdata (s : List Char)
  | addCdataEncoded (s : List Char)
  | addComment (s : List Char)
  | addOther
  | isEmpty
  | content
  | copy
  | trim
  | trans
  | piece (i : Nat)
deriving Repr

/-- What a node answers: nothing, yes or no, no text, or a text. -/
inductive Reply where
  | done
  | bool (b : Bool)
  | noText
  | text (s : List Char)
deriving DecidableEq, Repr

/-- The first text or section is replaced by its trimmed form, `t` (empty if there is none). -/
inductive TrimFirst : List Piece → List Char → List Piece → Prop
  | none {ps} : (∀ p ∈ ps, p.text? = .none) → TrimFirst ps [] ps
  | text {before s t after} : (∀ p ∈ before, p.text? = .none) → Trimmed s t →
      TrimFirst (before ++ .text s :: after) t (before ++ .text t :: after)
  | cdata {before s t after} : (∀ p ∈ before, p.text? = .none) → Trimmed s t →
      TrimFirst (before ++ .cdata s :: after) t (before ++ .cdata t :: after)

/-- What a request does to the pieces of a node, and what it answers. -/
inductive Step (ps : List Piece) : Req → List Piece → Reply → Prop
  | addText {s} : Step ps (.addText s) (ps ++ [.text (escaped s)]) .done
  | addEncoded {s} : Step ps (.addEncoded s) (ps ++ [.text s]) .done
  | addCdata {s} : Step ps (.addCdata s) (ps ++ [.cdata (escaped s)]) .done
  | addCdataEncoded {s} : Step ps (.addCdataEncoded s) (ps ++ [.cdata s]) .done
  | addComment {s} : Step ps (.addComment s) (ps ++ [.comment s]) .done
  | addOther : Step ps .addOther (ps ++ [.other]) .done
  | isEmpty : Step ps .isEmpty ps (.bool (ps.filterMap Piece.text?).isEmpty)
  | content : Step ps .content ps (.text ((ps.filterMap Piece.text?).headD []))
  | copy : Step ps .copy ps (.text ((ps.filterMap Piece.text?).headD []))
  | trim {t qs} : TrimFirst ps t qs → Step ps .trim qs (.text t)
  | transNone : ps.filterMap Piece.text? = [] → Step ps .trans ps .noText
  | trans {out} : ps.filterMap Piece.text? ≠ [] → Decodes (ps.filterMap Piece.text?).flatten out →
      Step ps .trans ps (.text out)
  | pieceNone {i} : ps[i]?.bind Piece.string? = none → Step ps (.piece i) ps .noText
  | piece {i s} : ps[i]?.bind Piece.string? = some s → Step ps (.piece i) ps (.text s)

/-- Requests one after the other. -/
inductive Run : List Piece → List Req → List Piece → List Reply → Prop
  | nil {ps} : Run ps [] ps []
  | cons {ps qs rs r req reqs replies} : Step ps req qs r → Run qs reqs rs replies →
      Run ps (req :: reqs) rs (r :: replies)

/-- The lists have the same length and their elements are related one by one. -/
inductive All₂ {α β : Type} (R : α → β → Prop) : List α → List β → Prop
  | nil : All₂ R [] []
  | cons {a b as bs} : R a b → All₂ R as bs → All₂ R (a :: as) (b :: bs)

end Axl.Spec.NodeContent
