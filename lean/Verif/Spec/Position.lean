import Verif.Model.Source
/-!
# Specification: positions in a document
-/

namespace Verif.Position

/-- Number of line breaks: LF, CR, and CR LF which counts once -/
def lineBreaks : Bytes → Nat
  | 0x0D :: 0x0A :: bs => lineBreaks bs + 1
  | 0x0D :: bs => lineBreaks bs + 1
  | 0x0A :: bs => lineBreaks bs + 1
  | _ :: bs => lineBreaks bs
  | [] => 0

/-- The bytes behind the last line break -/
def lastLine (bs : Bytes) : Bytes := (bs.reverse.takeWhile fun b => b != 0x0A && b != 0x0D).reverse

/-- Number of characters of UTF-8 encoded text: all bytes except for continuation bytes (`0b10xxxxxx`) -/
def charCount (bs : Bytes) : Nat := bs.countP fun b => b &&& 0xC0 != 0x80

end Verif.Position
