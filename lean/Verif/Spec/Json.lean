import Verif.Spec.Utf8
import Verif.Spec.Number
/-!
# Specification: JSON documents (RFC 8259) with the documented extensions

A document is described by its concrete syntax tree (`Cst`), which determines its bytes (`Cst.bytes`) and the JSON value it
denotes (`Cst.value`). `Cst.Ok cfg` are the side conditions of the grammar; `cfg` says which of the two syntax extensions
(comments, trailing commas) are enabled. Without extensions this is the grammar of RFC 8259:

```
JSON-text = ws value ws
array     = ws [ ws [ value *( ws , ws value ) ] ws ]
object    = ws { ws [ member *( ws , ws member ) ] ws }       member = string ws : ws value
string    = " *char "
```
-/

namespace Verif.Json

/-- JSON value. Numbers are represented by their text. -/
inductive JVal where
  | null
  | bool (b : Bool)
  | num (text : Text)
  | str (s : Text)
  | arr (vs : List JVal)
  | obj (ms : List (Text × JVal))

mutual
def JVal.decEq : (a b : JVal) → Decidable (a = b)
  | .null, .null => isTrue rfl
  | .bool a, .bool b => decidable_of_iff (a = b) (by simp)
  | .num a, .num b => decidable_of_iff (a = b) (by simp)
  | .str a, .str b => decidable_of_iff (a = b) (by simp)
  | .arr a, .arr b => @decidable_of_iff _ (a = b) (by simp) (JVal.decEqList a b)
  | .obj a, .obj b => @decidable_of_iff _ (a = b) (by simp) (JVal.decEqMembers a b)
  | .null, .bool _ | .null, .num _ | .null, .str _ | .null, .arr _ | .null, .obj _ => isFalse nofun
  | .bool _, .null | .bool _, .num _ | .bool _, .str _ | .bool _, .arr _ | .bool _, .obj _ => isFalse nofun
  | .num _, .null | .num _, .bool _ | .num _, .str _ | .num _, .arr _ | .num _, .obj _ => isFalse nofun
  | .str _, .null | .str _, .bool _ | .str _, .num _ | .str _, .arr _ | .str _, .obj _ => isFalse nofun
  | .arr _, .null | .arr _, .bool _ | .arr _, .num _ | .arr _, .str _ | .arr _, .obj _ => isFalse nofun
  | .obj _, .null | .obj _, .bool _ | .obj _, .num _ | .obj _, .str _ | .obj _, .arr _ => isFalse nofun
def JVal.decEqList : (a b : List JVal) → Decidable (a = b)
  | [], [] => isTrue rfl
  | [], _ :: _ => isFalse nofun
  | _ :: _, [] => isFalse nofun
  | x :: xs, y :: ys => @decidable_of_iff _ (x = y ∧ xs = ys) (by simp) (@instDecidableAnd _ _ (JVal.decEq x y) (JVal.decEqList xs ys))
def JVal.decEqMembers : (a b : List (Text × JVal)) → Decidable (a = b)
  | [], [] => isTrue rfl
  | [], _ :: _ => isFalse nofun
  | _ :: _, [] => isFalse nofun
  | (n, x) :: xs, (m, y) :: ys => @decidable_of_iff _ (n = m ∧ x = y ∧ xs = ys) (by simp [and_assoc])
      (@instDecidableAnd _ _ inferInstance (@instDecidableAnd _ _ (JVal.decEq x y) (JVal.decEqMembers xs ys)))
end
instance : DecidableEq JVal := JVal.decEq

/-- Enabled syntax extensions -/
structure Cfg where
  comments : Bool
  trailingComma : Bool

/-- RFC 8259 without extensions -/
def Cfg.rfc : Cfg := ⟨false, false⟩

/-! ## Whitespace and comments -/

/-- `space b`: one of space, tab, line feed, carriage return.
`line cs nl`: `//`, the text `cs` and a line break.
`block cs`: `/*`, the text `cs` and `*/`. -/
inductive WsItem where
  | space (b : UInt8)
  | line (cs : Text) (nl : UInt8)
  | block (cs : Text)

/-- Neither comment may contain control characters (U+0000–U+001F) other than tab and, for block comments, line breaks -/
def LineCommentChar (c : Char) : Prop := 0x20 ≤ c.toNat ∨ c = '\t'
def BlockCommentChar (c : Char) : Prop := LineCommentChar c ∨ c = '\n' ∨ c = '\r'

def WsItem.bytes : WsItem → Bytes
  | .space b => [b]
  | .line cs nl => [0x2F, 0x2F] ++ enc cs ++ [nl]
  | .block cs => [0x2F, 0x2A] ++ enc cs ++ [0x2A, 0x2F]

def WsItem.Ok (comments : Bool) : WsItem → Prop
  | .space b => b = 0x20 ∨ b = 0x09 ∨ b = 0x0A ∨ b = 0x0D
  | .line cs nl => comments = true ∧ (∀ c ∈ cs, LineCommentChar c) ∧ (nl = 0x0A ∨ nl = 0x0D)
  | .block cs => comments = true ∧ (∀ c ∈ cs, BlockCommentChar c) ∧ ¬ ['*', '/'] <:+: cs

abbrev Ws := List WsItem

def Ws.bytes (w : Ws) : Bytes := w.flatMap WsItem.bytes
def Ws.Ok (comments : Bool) (w : Ws) : Prop := ∀ i ∈ w, i.Ok comments

/-- Whitespace at the end of the input, where a line comment can be ended by the end of the input -/
structure TrailWs where
  ws : Ws
  openComment : Option Text

def TrailWs.bytes (t : TrailWs) : Bytes :=
  t.ws.bytes ++ match t.openComment with
    | none => []
    | some cs => [0x2F, 0x2F] ++ enc cs

def TrailWs.Ok (comments : Bool) (t : TrailWs) : Prop :=
  t.ws.Ok comments ∧ ∀ cs, t.openComment = some cs → comments = true ∧ ∀ c ∈ cs, LineCommentChar c

/-! ## Strings -/

/-- Value of a hexadecimal digit -/
def hexVal (b : UInt8) : Option Nat :=
  if 0x30 ≤ b.toNat ∧ b.toNat ≤ 0x39 then some (b.toNat - 0x30)
  else if 0x41 ≤ b.toNat ∧ b.toNat ≤ 0x46 then some (b.toNat - 0x41 + 10)
  else if 0x61 ≤ b.toNat ∧ b.toNat ≤ 0x66 then some (b.toNat - 0x61 + 10)
  else none

/-- Four hexadecimal digits -/
structure Hex4 where
  d1 : UInt8
  d2 : UInt8
  d3 : UInt8
  d4 : UInt8

def Hex4.bytes (h : Hex4) : Bytes := [h.d1, h.d2, h.d3, h.d4]

/-- `h.Is n`: the digits denote the number `n` -/
def Hex4.Is (h : Hex4) (n : Nat) : Prop :=
  ∃ a b c d, hexVal h.d1 = some a ∧ hexVal h.d2 = some b ∧ hexVal h.d3 = some c ∧ hexVal h.d4 = some d ∧
    n = ((a * 16 + b) * 16 + c) * 16 + d

/-- The two-character escape sequences and the characters they denote -/
def shortEscape : UInt8 → Option Char
  | 0x22 => some '"'
  | 0x5C => some '\\'
  | 0x2F => some '/'
  | 0x62 => some (Char.ofNat 8)
  | 0x66 => some (Char.ofNat 12)
  | 0x6E => some '\n'
  | 0x72 => some '\r'
  | 0x74 => some '\t'
  | _ => none

/-- One character of a string literal: unescaped, `\x`, `\uXXXX`, or a surrogate pair `\uXXXX\uXXXX` -/
inductive StrItem where
  | char (c : Char)
  | short (b : UInt8)
  | unicode (h : Hex4)
  | pair (hi lo : Hex4)

def StrItem.bytes : StrItem → Bytes
  | .char c => String.utf8EncodeChar c
  | .short b => [0x5C, b]
  | .unicode h => [0x5C, 0x75] ++ h.bytes
  | .pair hi lo => [0x5C, 0x75] ++ hi.bytes ++ [0x5C, 0x75] ++ lo.bytes

/-- `i.Is c`: the item is well formed and denotes the character `c` -/
inductive StrItem.Is : StrItem → Char → Prop
  | char (c : Char) : 0x20 ≤ c.toNat → c ≠ '"' → c ≠ '\\' → Is (.char c) c
  | short (b : UInt8) (c : Char) : shortEscape b = some c → Is (.short b) c
  | unicode (h : Hex4) (c : Char) : h.Is c.toNat → Is (.unicode h) c
  | pair (hi lo : Hex4) (a b : Nat) (c : Char) : hi.Is a → lo.Is b → 0xD800 ≤ a → a < 0xDC00 → 0xDC00 ≤ b → b < 0xE000 →
      c.toNat = 0x10000 + (a - 0xD800) * 0x400 + (b - 0xDC00) → Is (.pair hi lo) c

/-- The characters between the quotes of a string literal -/
structure Str where
  items : List StrItem
  text : Text

/-- the items denote the characters -/
inductive ItemsAre : List StrItem → Text → Prop
  | nil : ItemsAre [] []
  | cons {i : StrItem} {c : Char} {is : List StrItem} {cs : Text} : i.Is c → ItemsAre is cs → ItemsAre (i :: is) (c :: cs)

def Str.Ok (s : Str) : Prop := ItemsAre s.items s.text

/-- bytes between the quotes -/
def Str.body (s : Str) : Bytes := s.items.flatMap StrItem.bytes

/-- string literal -/
def Str.bytes (s : Str) : Bytes := 0x22 :: (s.body ++ [0x22])

/-! ## Values -/

/-- What precedes an element of an array or object, or the closing bracket: whitespace, or whitespace, a comma and whitespace -/
inductive Sep where
  | plain (w : Ws)
  | comma (w1 w2 : Ws)

def Sep.bytes : Sep → Bytes
  | .plain w => w.bytes
  | .comma w1 w2 => w1.bytes ++ 0x2C :: w2.bytes

mutual
/-- Concrete syntax tree of a value -/
inductive Cst where
  | null
  | bool (b : Bool)
  | num (bs : Bytes)
  | str (s : Str)
  | arr (is : Items)
  | obj (ms : Members)
/-- The items of an array, up to and including the closing bracket -/
inductive Items where
  | nil (close : Sep)
  | cons (sep : Sep) (v : Cst) (rest : Items)
/-- The members of an object, up to and including the closing bracket -/
inductive Members where
  | nil (close : Sep)
  | cons (sep : Sep) (name : Str) (w1 w2 : Ws) (v : Cst) (rest : Members)
end

mutual
def Cst.bytes : Cst → Bytes
  | .null => [0x6E, 0x75, 0x6C, 0x6C]
  | .bool true => [0x74, 0x72, 0x75, 0x65]
  | .bool false => [0x66, 0x61, 0x6C, 0x73, 0x65]
  | .num bs => bs
  | .str s => s.bytes
  | .arr is => 0x5B :: is.bytes
  | .obj ms => 0x7B :: ms.bytes
def Items.bytes : Items → Bytes
  | .nil close => close.bytes ++ [0x5D]
  | .cons sep v rest => sep.bytes ++ (v.bytes ++ rest.bytes)
def Members.bytes : Members → Bytes
  | .nil close => close.bytes ++ [0x7D]
  | .cons sep name w1 w2 v rest => sep.bytes ++ (name.bytes ++ (w1.bytes ++ (0x3A :: (w2.bytes ++ (v.bytes ++ rest.bytes)))))
end

/-- The text of ASCII bytes -/
def asciiText (bs : Bytes) : Text := bs.map fun b => Char.ofNat b.toNat

mutual
/-- The value which is denoted -/
def Cst.value : Cst → JVal
  | .null => .null
  | .bool b => .bool b
  | .num bs => .num (asciiText bs)
  | .str s => .str s.text
  | .arr is => .arr is.values
  | .obj ms => .obj ms.values
def Items.values : Items → List JVal
  | .nil _ => []
  | .cons _ v rest => v.value :: rest.values
def Members.values : Members → List (Text × JVal)
  | .nil _ => []
  | .cons _ name _ _ v rest => (name.text, v.value) :: rest.values
end

/-- Separator in front of an element: no comma in front of the first one -/
def Sep.Ok (cfg : Cfg) (first : Bool) : Sep → Prop
  | .plain w => first = true ∧ w.Ok cfg.comments
  | .comma w1 w2 => first = false ∧ w1.Ok cfg.comments ∧ w2.Ok cfg.comments

/-- Separator in front of the closing bracket: a comma only behind an element, and only if trailing commas are enabled -/
def Sep.OkEnd (cfg : Cfg) (first : Bool) : Sep → Prop
  | .plain w => w.Ok cfg.comments
  | .comma w1 w2 => first = false ∧ cfg.trailingComma = true ∧ w1.Ok cfg.comments ∧ w2.Ok cfg.comments

mutual
/-- Side conditions of the grammar -/
def Cst.Ok (cfg : Cfg) : Cst → Prop
  | .null => True
  | .bool _ => True
  | .num bs => IsNumber bs
  | .str s => s.Ok
  | .arr is => is.Ok cfg true
  | .obj ms => ms.Ok cfg true
/-- `first`: the next item is the first one of the array -/
def Items.Ok (cfg : Cfg) (first : Bool) : Items → Prop
  | .nil close => close.OkEnd cfg first
  | .cons sep v rest => sep.Ok cfg first ∧ v.Ok cfg ∧ rest.Ok cfg false
def Members.Ok (cfg : Cfg) (first : Bool) : Members → Prop
  | .nil close => close.OkEnd cfg first
  | .cons sep name w1 w2 v rest => sep.Ok cfg first ∧ name.Ok ∧ w1.Ok cfg.comments ∧ w2.Ok cfg.comments ∧ v.Ok cfg ∧
      rest.Ok cfg false
end

mutual
/-- Nesting depth -/
def Cst.depth : Cst → Nat
  | .arr is => is.depth + 1
  | .obj ms => ms.depth + 1
  | _ => 0
def Items.depth : Items → Nat
  | .nil _ => 0
  | .cons _ v rest => max v.depth rest.depth
def Members.depth : Members → Nat
  | .nil _ => 0
  | .cons _ _ _ _ v rest => max v.depth rest.depth
end

mutual
/-- the bytes in front of the first bracket which opens more than `n` levels -/
def Cst.deepAt : Nat → Cst → Option Bytes
  | 0, .arr _ => some []
  | 0, .obj _ => some []
  | n + 1, .arr is => (is.deepAt n).map (0x5B :: ·)
  | n + 1, .obj ms => (ms.deepAt n).map (0x7B :: ·)
  | _, .null => none
  | _, .bool _ => none
  | _, .num _ => none
  | _, .str _ => none
def Items.deepAt : Nat → Items → Option Bytes
  | _, .nil _ => none
  | n, .cons sep v rest => match v.deepAt n with
    | some p => some (sep.bytes ++ p)
    | none => (rest.deepAt n).map fun p => sep.bytes ++ (v.bytes ++ p)
def Members.deepAt : Nat → Members → Option Bytes
  | _, .nil _ => none
  | n, .cons sep name w1 w2 v rest => match v.deepAt n with
    | some p => some (sep.bytes ++ (name.bytes ++ (w1.bytes ++ (0x3A :: (w2.bytes ++ p)))))
    | none => (rest.deepAt n).map fun p => sep.bytes ++ (name.bytes ++ (w1.bytes ++ (0x3A :: (w2.bytes ++ (v.bytes ++ p)))))
end

mutual
/-- all numbers satisfy the condition -/
def Cst.Nums (P : Bytes → Prop) : Cst → Prop
  | .num bs => P bs
  | .arr is => is.Nums P
  | .obj ms => ms.Nums P
  | _ => True
def Items.Nums (P : Bytes → Prop) : Items → Prop
  | .nil _ => True
  | .cons _ v rest => v.Nums P ∧ rest.Nums P
def Members.Nums (P : Bytes → Prop) : Members → Prop
  | .nil _ => True
  | .cons _ _ _ _ v rest => v.Nums P ∧ rest.Nums P
end

/-- The value satisfies the limits for the nesting depth and for numbers (`restrict`: the number restriction is enabled) -/
def Cst.Within (maxDepth : Option Nat) (restrict : Bool) (v : Cst) : Prop :=
  (∀ n, maxDepth = some n → v.depth ≤ n) ∧ v.Nums fun bs => ¬ (restrict = true ∧ UnsupportedNumber bs)

/-- A JSON document with one top-level value -/
structure Doc where
  ws : Ws
  value : Cst
  tail : TrailWs

def Doc.bytes (d : Doc) : Bytes := d.ws.bytes ++ (d.value.bytes ++ d.tail.bytes)
def Doc.Ok (cfg : Cfg) (d : Doc) : Prop := d.ws.Ok cfg.comments ∧ d.value.Ok cfg ∧ d.tail.Ok cfg.comments

/-- The bytes are a JSON document which denotes `v` -/
def IsDoc (cfg : Cfg) (bs : Bytes) (v : JVal) : Prop := ∃ d : Doc, d.Ok cfg ∧ d.bytes = bs ∧ d.value.value = v

/-! ## Multiple top-level values -/

/-- numbers and the literals `null`, `true`, `false` -/
def Cst.isBare : Cst → Bool
  | .null => true
  | .bool _ => true
  | .num _ => true
  | _ => false

/-- A sequence of top-level values, each with the whitespace in front of it -/
inductive Tops where
  | nil (tail : TrailWs)
  | cons (w : Ws) (v : Cst) (rest : Tops)

def Tops.bytes : Tops → Bytes
  | .nil t => t.bytes
  | .cons w v rest => w.bytes ++ (v.bytes ++ rest.bytes)

/-- `bare`: the previous value is a number or literal; then there has to be whitespace in front of the next value -/
def Tops.Ok (cfg : Cfg) (bare : Bool) : Tops → Prop
  | .nil t => t.Ok cfg.comments
  | .cons w v rest => w.Ok cfg.comments ∧ (bare = true → w ≠ []) ∧ v.Ok cfg ∧ rest.Ok cfg v.isBare

def Tops.Within (maxDepth : Option Nat) (restrict : Bool) : Tops → Prop
  | .nil _ => True
  | .cons _ v rest => v.Within maxDepth restrict ∧ rest.Within maxDepth restrict

def Tops.values : Tops → List JVal
  | .nil _ => []
  | .cons _ v rest => v.value :: rest.values

/-- The bytes are a sequence of values (`multi`: more than one value is enabled) which denote `vs`; at most followed by whitespace -/
def IsTops (cfg : Cfg) (multi : Bool) (bs : Bytes) (vs : List JVal) : Prop :=
  (multi = true ∨ vs.length ≤ 1) ∧ ∃ t : Tops, t.Ok cfg false ∧ t.bytes = bs ∧ t.values = vs

end Verif.Json
