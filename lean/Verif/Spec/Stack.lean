/-
Plain stacks: what a user of axlStack and axlBinaryStack expects.  The head is the top.
-/
namespace Axl.Spec.Stack
variable {α : Type}

inductive Op (α : Type) where
  | push (x : Option α)   -- `none`: NULL, which is not stored
  | pop

def step (s : List α) : Op α → List α
  | .push (some x) => x :: s
  | .push none => s
  | .pop => s.tail

/-- Elements visited from the top until the function asks to stop, and whether it never did. -/
def visit (stop : α → Bool) : List α → Bool × List α
  | [] => (true, [])
  | x :: s => if stop x then (false, [x]) else let r := visit stop s; (r.1, x :: r.2)

inductive BOp where
  | push (b : Bool)
  | pushTheSame
  | pop

def bstep (s : List Bool) : BOp → List Bool
  | .push b => b :: s
  | .pushTheSame => match s with | [] => [] | b :: t => b :: b :: t
  | .pop => s.tail

end Axl.Spec.Stack
