/-
What a user of the containers expects when the system has no more memory: the call that could not get it does nothing.  Each
operation comes with the answers of the system to the allocations that it makes, `true` if memory is given.
-/
import Verif.Model.Oom
import Verif.Spec.ListApi
import Verif.Spec.Stack
import Verif.Spec.HashMemApi

namespace Axl
open Spec

namespace Spec.Oom
variable {α : Type}

/-- The operations that store an element. -/
def adds : Seq.Op α → Bool
  | .add _ | .append _ | .prepend _ | .addAt _ _ => true
  | _ => false

/-- A history of a list, oldest first: each operation takes its effect, or it stores an element, memory was refused while it
ran, and it changes nothing. -/
inductive Steps (eq : α → α → Int) : Seq.State α → List (Seq.Op α × List Bool) → Seq.State α → Prop
  | nil (s : Seq.State α) : Steps eq s [] s
  | done {s s' s'' : Seq.State α} {op : Seq.Op α} {a : List Bool} {ops : List (Seq.Op α × List Bool)} :
      Seq.Step eq s op s' → Steps eq s' ops s'' → Steps eq s ((op, a) :: ops) s''
  | refused {s s' : Seq.State α} {op : Seq.Op α} {a : List Bool} {ops : List (Seq.Op α × List Bool)} :
      adds op = true → false ∈ a → Steps eq s ops s' → Steps eq s ((op, a) :: ops) s'

/-- A call to store each of the elements, with its answers. -/
def storing : List α → List (List Bool) → List (Seq.Op α × List Bool)
  | [], _ => []
  | x :: xs, as => (.add x, as.headD []) :: storing xs as.tail

/-- A history of a stack: each operation takes its effect, or it is a push, memory was refused while it ran, and it changes
nothing. -/
inductive StackSteps : List α → List (Stack.Op α × List Bool) → List α → Prop
  | nil (s : List α) : StackSteps s [] s
  | done {s s' : List α} {op : Stack.Op α} {a : List Bool} {ops : List (Stack.Op α × List Bool)} :
      StackSteps (Stack.step s op) ops s' → StackSteps s ((op, a) :: ops) s'
  | refused {s s' : List α} {x : Option α} {a : List Bool} {ops : List (Stack.Op α × List Bool)} :
      false ∈ a → StackSteps s ops s' → StackSteps s ((.push x, a) :: ops) s'

/-- A history of a binary stack, in the same way. -/
inductive BStackSteps : List Bool → List (Stack.BOp × List Bool) → List Bool → Prop
  | nil (s : List Bool) : BStackSteps s [] s
  | done {s s' : List Bool} {op : Stack.BOp} {a : List Bool} {ops : List (Stack.BOp × List Bool)} :
      BStackSteps (Stack.bstep s op) ops s' → BStackSteps s ((op, a) :: ops) s'
  | refused {s s' : List Bool} {b : Bool} {a : List Bool} {ops : List (Stack.BOp × List Bool)} :
      false ∈ a → BStackSteps s ops s' → BStackSteps s ((.push b, a) :: ops) s'

end Spec.Oom

/-! ### The calls -/

namespace AxlList
variable {α : Type}

/-- The API call for each operation. -/
def execOom (l : AxlList α) (a : Answers) : Seq.Op α → Option (AxlList α)
  | .add x => l.addOom a x
  | .append x => l.appendOom a x
  | .prepend x => l.prependOom a x
  | .addAt x p => l.addAtOom a x p
  | .takeFirst d => l.removeFirst d
  | .takeLast d => l.removeLast d
  | .takeAt p d => l.removeAt p d
  | .take x d => l.remove x d

/-- A sequence of API calls. -/
def runOom (l : AxlList α) : List (Seq.Op α × Answers) → Option (AxlList α)
  | [] => some l
  | (op, a) :: ops => do let l ← l.execOom a op; l.runOom ops

end AxlList

namespace AxlStack
variable {α : Type}

/-- A sequence of API calls. -/
def runOom (s : AxlStack α) : List (Stack.Op α × Answers) → Option (AxlStack α)
  | [] => some s
  | (.push x, a) :: ops => do let s ← s.pushOom a x; s.runOom ops
  | (.pop, _) :: ops => do let (_, s) ← s.pop; s.runOom ops

end AxlStack

namespace BinaryStack

/-- A sequence of API calls. -/
def runOom (b : BinaryStack) : List (Stack.BOp × Answers) → Option BinaryStack
  | [] => some b
  | (.push x, a) :: ops => do let b ← b.pushOom a x; b.runOom ops
  | (.pushTheSame, _) :: ops => do let b ← b.pushTheSame; b.runOom ops
  | (.pop, _) :: ops => do let (_, b) ← b.pop; b.runOom ops

end BinaryStack
end Axl
