import Verif.Model.Writer
/-!
# Specification: the failures of the underlying `Write` and the reported errors
-/

namespace Verif.WReason
open Writer

/-- The failing calls of `Write::write` -/
def writeFailures (es : List WriteEvent) : List WErr := es.filterMap fun
  | .error c => some (.io c)
  | .accept 0 => some .writeZero
  | _ => none

/-- The failing calls of `Write::flush` -/
def flushFailures (es : List (Option Nat)) : List WErr := es.filterMap fun
  | some c => some (.io c)
  | none => none

/-- `zs` consists of the elements of `xs` and of `ys`, each in their order -/
inductive Merge {α : Type} : (xs ys zs : List α) → Prop
  | nil : Merge [] [] []
  | left {x : α} {xs ys zs : List α} : Merge xs ys zs → Merge (x :: xs) ys (x :: zs)
  | right {y : α} {xs ys zs : List α} : Merge xs ys zs → Merge xs (y :: ys) (y :: zs)

/-- The error of the underlying `Write` which a result reports. (That there was an error before is not the report of a further error.) -/
def ioError {α : Type} : Except WErr α → List WErr
  | .error (.io c) => [.io c]
  | .error .writeZero => [.writeZero]
  | _ => []

/-- The errors of the underlying `Write` which a call reports, with those of the methods of a string value writer -/
def ioErrors : Except WErr WOut → List WErr
  | .ok (.string rs finish) => rs.flatMap ioError ++ match finish with
    | some r => ioError r
    | none => []
  | .ok .unit => []
  | .error e => ioError (.error e : Except WErr WOut)

end Verif.WReason
