/-! # Specification: results of code which may fail -/

namespace Verif

/-- `misuse`: an object is not used as documented; what happens is not specified. `E`: errors, without details which are not specified -/
inductive Answer (E α : Type) where
  | ok (a : α)
  | err (e : E)
  | misuse
deriving DecidableEq

namespace Answer
variable {E α β : Type}

protected def bind : Answer E α → (α → Answer E β) → Answer E β
  | .ok a, f => f a
  | .err e, _ => .err e
  | .misuse, _ => .misuse

instance : Monad (Answer E) where
  pure := Answer.ok
  bind := Answer.bind

end Answer
end Verif
