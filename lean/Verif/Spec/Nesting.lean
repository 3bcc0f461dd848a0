import Verif.Model.Source
/-!
# Specification: nesting depth of arbitrary bytes

The largest number of open brackets (arrays and objects) at the same time, where brackets in strings and comments do not count. The bytes do not have to be a JSON document.
-/

namespace Verif.Nesting

/-- Where are we: between tokens or in a number or literal; in a string; behind a backslash in a string; behind a slash; in a line comment; in a block comment; behind an asterisk in a
block comment -/
inductive Lex where
  | plain | string | escape | slash | line | block | star
deriving Repr, DecidableEq

/-- `depth`: number of open brackets, `max`: the largest number so far -/
structure Scan where
  lex : Lex
  depth : Nat
  max : Nat
deriving Repr, DecidableEq

def Scan.next (s : Scan) (b : UInt8) : Scan := match s.lex with
  | .plain =>
    if b = 0x22 then { s with lex := .string }
    else if b = 0x2F then { s with lex := .slash }
    else if b = 0x5B ∨ b = 0x7B then { s with depth := s.depth + 1, max := Nat.max s.max (s.depth + 1) }
    else if b = 0x5D ∨ b = 0x7D then { s with depth := s.depth - 1 }
    else s
  | .string => if b = 0x5C then { s with lex := .escape } else if b = 0x22 then { s with lex := .plain } else s
  | .escape => { s with lex := .string }
  | .slash => if b = 0x2F then { s with lex := .line } else if b = 0x2A then { s with lex := .block } else { s with lex := .plain }
  | .line => if b = 0x0A ∨ b = 0x0D then { s with lex := .plain } else s
  | .block => if b = 0x2A then { s with lex := .star } else s
  | .star => if b = 0x2F then { s with lex := .plain } else if b = 0x2A then s else { s with lex := .block }

def scan (bs : Bytes) : Scan := bs.foldl Scan.next ⟨.plain, 0, 0⟩

/-- The nesting depth -/
def nesting (bs : Bytes) : Nat := (scan bs).max

/-- `[1,{"a]":[]}` and `[/*[*/[` -/
example : nesting [0x5B, 0x31, 0x2C, 0x7B, 0x22, 0x61, 0x5D, 0x22, 0x3A, 0x5B, 0x5D, 0x7D] = 3 ∧ nesting [0x5B, 0x2F, 0x2A, 0x5B, 0x2A, 0x2F, 0x5B] = 2 := by decide

end Verif.Nesting
