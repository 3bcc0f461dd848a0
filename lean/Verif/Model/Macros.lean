import Verif.Model.SimpleReader
/-!
# Model: the macros `json_path!` and `multi_json_path!`

A macro gets a sequence of tokens. Simplification: an expression is one token; so it is not modelled where an expression ends, and tokens which the compiler would
consider as part of the expression in front of them (for example `?`) do not occur behind it. The result `none` means that compiling fails, because no rule
matches or because of the type of an expression.
-/

namespace Verif.Macros
open SimpleReader (MultiPiece)

/-- reader/mod.rs 45–63, reader/simple.rs 106–143. The expressions for which there is a conversion: a `u32`, or a `String` or `&str` -/
inductive Arg where
  | int (n : Nat)
  | str (t : Text)
deriving Repr, DecidableEq

/-- reader/simple.rs 153–222. Tokens. `arrayStar`: `[*]`, `arrayPlus`: `[+]`, `objectStar`: `{*}`, `objectPlus`: `{+}` -/
inductive Tok where
  | expr (a : Arg)
  | comma
  | question
  | arrayStar
  | arrayPlus
  | objectStar
  | objectPlus
deriving Repr, DecidableEq

/-- reader/mod.rs 45–63: `JsonPathPiece::from` -/
def pieceFrom : Arg → PathPiece
  | .int n => .arrayItem n
  | .str t => .objectMember t

/-- reader/mod.rs 113–125. The pattern `$($piece:expr),+ $(,)?`: an expression, and then any number of times a comma and an expression, and then possibly a comma -/
def exprList : List Tok → Option (List Arg)
  | [.expr a] => some [a]
  | [.expr a, .comma] => some [a]
  | .expr a :: .comma :: ts => (exprList ts).map (a :: ·)
  | _ => none

/-- reader/mod.rs 113–125: `json_path!` -/
def jsonPath : List Tok → Option (List PathPiece)
  | [] => some []
  | ts => (exprList ts).map fun as => as.map pieceFrom

/-- simple.rs 106–124: `MultiJsonPathPiece::from` -/
def multiFrom : Arg → MultiPiece
  | .int n => .arrayItem n
  | .str t => .objectMember t

/-- simple.rs 181–192 and 129–142: `OptionalObjectMember(into_string(expr))`; there is no such conversion for integers -/
def optionalFrom : Arg → Option MultiPiece
  | .int _ => none
  | .str t => some (.optionalObjectMember t)

/-- simple.rs 153–225: `__multi_json_path_impl!`. The first argument is the list of the pieces up to now, `comma`: behind it is a comma. The pattern
`[$($pieces:expr,)*]` matches if the list is empty or ends with a comma, the pattern `[$($pieces:expr),+]` if it is not empty and does not end with a comma. -/
def multiPathImpl (pieces : List MultiPiece) (comma : Bool) : List Tok → Option (List MultiPiece)
  | .arrayStar :: rest => if pieces.isEmpty || comma then multiPathImpl (pieces ++ [.allArrayItems true]) false rest else none
  | .arrayPlus :: rest => if pieces.isEmpty || comma then multiPathImpl (pieces ++ [.allArrayItems false]) false rest else none
  | .objectStar :: rest => if pieces.isEmpty || comma then multiPathImpl (pieces ++ [.allObjectMembers true]) false rest else none
  | .objectPlus :: rest => if pieces.isEmpty || comma then multiPathImpl (pieces ++ [.allObjectMembers false]) false rest else none
  | .question :: .expr a :: .comma :: rest => if pieces.isEmpty || comma then
      match optionalFrom a with
      | some p => multiPathImpl (pieces ++ [p]) true rest
      | none => none
    else none
  | [.question, .expr a] => if pieces.isEmpty || comma then
      match optionalFrom a with
      | some p => multiPathImpl (pieces ++ [p]) true []
      | none => none
    else none
  | .expr a :: .comma :: rest => if pieces.isEmpty || comma then multiPathImpl (pieces ++ [multiFrom a]) true rest else none
  | [.expr a] => if pieces.isEmpty || comma then multiPathImpl (pieces ++ [multiFrom a]) true [] else none
  | .comma :: rest => if !pieces.isEmpty && !comma then multiPathImpl pieces true rest else none
  | [] => some pieces
  | _ => none
termination_by ts => ts.length

/-- simple.rs 235–239: `multi_json_path!` -/
def multiJsonPath (ts : List Tok) : Option (List MultiPiece) := multiPathImpl [] false ts

end Verif.Macros
