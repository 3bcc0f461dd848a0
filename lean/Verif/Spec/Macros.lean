import Verif.Model.Macros
/-!
# Specification: notation of paths in `json_path!` and `multi_json_path!`
-/

namespace Verif.MacroSpec
open SimpleReader (MultiPiece)
open Macros (Tok)

/-- The table in the documentation of `multi_json_path!`, simple.rs 245–253 -/
def multiTokens : MultiPiece → List Tok
  | .arrayItem n => [.expr (.int n)]
  | .objectMember t => [.expr (.str t)]
  | .optionalObjectMember t => [.question, .expr (.str t)]
  | .allArrayItems true => [.arrayStar]
  | .allArrayItems false => [.arrayPlus]
  | .allObjectMembers true => [.objectStar]
  | .allObjectMembers false => [.objectPlus]

def tokens : PathPiece → List Tok
  | .arrayItem n => [.expr (.int n)]
  | .objectMember t => [.expr (.str t)]

/-- Pieces separated by commas; behind the last one a comma is optional -/
inductive Listed {α : Type} (toks : α → List Tok) : List α → List Tok → Prop
  | nil : Listed toks [] []
  | last (p : α) : Listed toks [p] (toks p)
  | more (p : α) {ps : List α} {ts : List Tok} : Listed toks ps ts → Listed toks (p :: ps) (toks p ++ .comma :: ts)

/-- the same path -/
def toMulti : PathPiece → MultiPiece
  | .arrayItem n => .arrayItem n
  | .objectMember t => .objectMember t

end Verif.MacroSpec
