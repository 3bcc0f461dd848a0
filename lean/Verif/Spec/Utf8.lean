/-!
# Specification: text and its UTF-8 encoding

The encoding of a single character is `String.utf8EncodeChar` of Lean's core library.
`Char` consists of exactly the Unicode scalar values (no surrogates, at most U+10FFFF).
-/

namespace Verif

/-- A text, i.e. a Rust `str`/`String` -/
abbrev Text := List Char

/-- Bytes, i.e. a Rust `[u8]`/`Vec<u8>` -/
abbrev Bytes := List UInt8

/-- UTF-8 encoding of a text -/
def enc (cs : Text) : Bytes := cs.flatMap String.utf8EncodeChar

/-- Byte sequences which are valid UTF-8 -/
def ValidUtf8 (bs : Bytes) : Prop := ∃ cs, bs = enc cs

@[simp] theorem enc_nil : enc [] = [] := rfl
@[simp] theorem enc_cons (c : Char) (cs : Text) : enc (c :: cs) = String.utf8EncodeChar c ++ enc cs := rfl
@[simp] theorem enc_append (a b : Text) : enc (a ++ b) = enc a ++ enc b := by
  simp [enc, List.flatMap_append]

end Verif
