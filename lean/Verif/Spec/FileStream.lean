/-
What a stream over a file has to give: the bytes not consumed, whatever the reads.
-/
import Verif.Model.FileStream

namespace Axl
namespace Spec
namespace FileStream
open Axl.FileStream

variable {α : Type}

/-- The bytes that the file has still to give. -/
def unread : Option (Source α) → List α
  | none => []
  | some src => src.rest

/-- The bytes that a reader has not consumed: those of the buffer and those of the file. -/
def pending (s : FS α) : List α := s.data.drop s.index ++ unread s.fd

/-- The same when what comes from the file is decoded, with `g` the bytes for each one of the source. -/
def pendingDecoded (g : α → List α) (s : FS α) : List α :=
  s.data.drop s.index ++ (s.temp ++ unread s.fd).flatMap g

/-- A stream that decodes nothing, as `axl_stream_new` gives and the reading functions leave it; if it checks what it
reads, the check accepts whatever part of the file is read. -/
structure Plain (s : FS α) : Prop where
  decoder : s.decoder = none
  check   : ∀ bytes, bytes <:+: unread s.fd → accepts s bytes = true
  expand  : s.expand = false
  index   : s.index ≤ s.data.length
  size    : s.data.length ≤ s.bufSize
  room    : 0 < s.bufSize

/-- A decoder that writes the bytes `g` of each byte of the source while they fit. -/
def Decodes (f : Decoder α) (g : α → List α) : Prop :=
  ∀ source room, ∃ taken rest, source = taken ++ rest ∧ f source room = some (taken.flatMap g, rest) ∧
    (taken.flatMap g).length ≤ room ∧
    ∀ v ∈ rest.head?, room < (taken.flatMap g).length + max 1 (g v).length

/-- A stream that decodes. -/
structure Decoding (f : Decoder α) (g : α → List α) (s : FS α) : Prop where
  decoder : s.decoder = some f
  decodes : Decodes f g
  bytes   : ∀ v, 1 ≤ (g v).length
  index   : s.index ≤ s.data.length
  size    : s.data.length ≤ s.bufSize
  room    : 0 < s.bufSize
  temp    : 0 < s.tempSize
  closed  : s.fd = none → s.temp = []

/-- What any reader gets: it takes bytes from the buffer and asks for more, in any order.  `Reads s out s'`: from
`s` it got `out` and left `s'`.  A refill with the buffer consumed while an expansion is asked for is
left out (see `C40_expansion`), and so is one where the variable not initialised has the value 2. -/
inductive Reads : FS α → List α → FS α → Prop where
  | done (s) : Reads s [] s
  | take {s s' : FS α} {out} (k : Nat) (h : s.index + k ≤ s.data.length)
      (next : Reads { s with index := s.index + k } out s') : Reads s ((s.data.drop s.index).take k ++ out) s'
  | refill {s s1 s' : FS α} {out more} {junk : Nat} (hj : junk ≠ 2) (he : s.expand = true → s.index = 0)
      (h : prebuffer junk s = .ok (more, s1)) (next : Reads s1 out s') : Reads s out s'

/-- A reader of a long text: it asks for more until there is no more, and then takes all.  `junk n`: what the
variable not initialised has in each call. -/
def gather (junk : Nat → Nat) : Nat → FS α → Res (List α)
  | 0, _ => .loop
  | n + 1, s => do
    let (more, s') ← prebuffer (junk n) s
    if more then gather junk n s' else .ok (s'.data.drop s'.index)

/-- A stream opened over a file, when a header of some bytes was read from the buffer. -/
def opened (content : List α) (sizes : List Nat) (bufSize header : Nat) : FS α :=
  { new ⟨content, sizes⟩ bufSize with index := header }

end FileStream
end Spec
end Axl
