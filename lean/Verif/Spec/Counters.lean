import Verif.Model.Run
/-!
# Specification: size of counters
-/

namespace Verif.Counters
open Reader

/-- bytes which are at least needed for a piece of a path: the bracket; and for every previous item of an array one byte for the value and the comma behind it -/
def needed : PathPiece → Nat
  | .arrayItem i => max 1 (2 * i)
  | .objectMember _ => 1

/-- the counters of a position in an input are bounded by the number of bytes -/
structure Bounded (bytes : Bytes) (P : Position) : Prop where
  offset : P.dataPos ≤ bytes.length
  line : P.line ≤ P.dataPos
  column : P.column ≤ P.dataPos
  path : ∀ p, P.path = some p → (p.map needed).sum ≤ P.dataPos

end Verif.Counters
