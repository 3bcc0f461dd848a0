import Verif.Spec.Json
import Verif.Model.Writer
/-!
# Specification: what a sequence of writer calls writes

`Written` describes what has been written so far as JSON values: the complete top-level values, and the open arrays and objects with their complete
elements. `Step` says which calls are allowed and what they add; it does not mention bytes. `Written.bytes` are the bytes which represent it: values are
rendered as concrete syntax trees of the JSON grammar (`cst`), whose layout depends on the settings.

From the model only the types of the settings and of the calls are used.
-/

namespace Verif.WSpec
open Json
open Writer (WSettings WOp SvOp FinNum FpNum)

/-! ## Values -/

/-- An open array or object. `pending`: the name of a member whose value has not been written yet -/
inductive Frame where
  | arr (vs : List JVal)
  | obj (ms : List (Text × JVal)) (pending : Option Text)

/-- What has been written: complete top-level values, open arrays and objects (innermost first), and the text of an unfinished string value -/
structure Written where
  tops : List JVal
  frames : List Frame
  str : Option Text

def Written.empty : Written := ⟨[], [], none⟩

/-- add a complete value -/
def Written.add (w : Written) (v : JVal) : Written := match w.frames with
  | [] => { w with tops := w.tops ++ [v] }
  | .arr vs :: fs => { w with frames := .arr (vs ++ [v]) :: fs }
  | .obj ms (some n) :: fs => { w with frames := .obj (ms ++ [(n, v)]) none :: fs }
  | .obj ms none :: fs => { w with frames := .obj ms none :: fs }

/-- A value can be written: not where a name is expected, not while a string value is not finished, and multiple top-level values only if there is a separator -/
def Written.CanAdd (st : WSettings) (w : Written) : Prop := w.str = none ∧ match w.frames with
  | [] => w.tops = [] ∨ st.separator ≠ none
  | .arr _ :: _ => True
  | .obj _ (some _) :: _ => True
  | .obj _ none :: _ => False

/-- The bytes given to a string value writer -/
def SvOp.data : SvOp → Bytes
  | .write bs => bs
  | .writeStr t => enc t
  | .flush => []

def svData (ops : List SvOp) : Bytes := ops.flatMap SvOp.data

/-- The calls of the string value writer together write `text`: the bytes are the UTF-8 encoding of the text, and `write_str` is only called between two characters -/
def SvWrites (ops : List SvOp) (text : Text) : Prop :=
  svData ops = enc text ∧ ∀ pre t post, ops = pre ++ .writeStr t :: post → ∃ u, svData pre = enc u

/-- Value of decimal digits -/
def decValue (ds : Text) : Nat := ds.foldl (fun n c => n * 10 + (c.toNat - 0x30)) 0

/-- canonical decimal representation of a natural number -/
def IsDecimal (ds : Text) (n : Nat) : Prop :=
  (∀ c ∈ ds, 0x30 ≤ c.toNat ∧ c.toNat ≤ 0x39) ∧ decValue ds = n ∧ (ds = ['0'] ∨ ∃ c cs, ds = c :: cs ∧ c ≠ '0')

/-- canonical decimal representation of an integer -/
def IsInteger (t : Text) (i : Int) : Prop :=
  (0 ≤ i ∧ IsDecimal t i.natAbs) ∨ (i < 0 ∧ ∃ ds, t = '-' :: ds ∧ IsDecimal ds i.natAbs)

/-- The call writes this complete value. Trusted: for a finite `f32` or `f64` the standard library returns a text which is a JSON number. -/
inductive Denotes : WOp → JVal → Prop
  | string (t : Text) : Denotes (.stringValue t) (.str t)
  | bool (b : Bool) : Denotes (.boolValue b) (.bool b)
  | null : Denotes .nullValue .null
  | int (ty : Writer.IntTy) (i : Int) (t : Text) : IsInteger t i → Denotes (.numberValue (.int ty i)) (.num t)
  | transferred (t : Text) : IsNumber (enc t) → Denotes (.numberValue (.transferred t)) (.num t)
  | float (t : Text) : IsNumber (enc t) → Denotes (.fpNumberValue ⟨true, t⟩) (.num t)
  | number (t : Text) : IsNumber (enc t) → Denotes (.numberValueFromString t) (.num t)
  | stringWriter (ops : List SvOp) (t : Text) : SvWrites ops t → Denotes (.stringValueWriter ops true) (.str t)

/-- The call is rejected because the number is not valid -/
inductive Rejected : WOp → Prop
  | float (t : Text) : Rejected (.fpNumberValue ⟨false, t⟩)
  | number (t : Text) : ¬ IsNumber (enc t) → Rejected (.numberValueFromString t)

/-- The call starts a string value which is not finished, either because the caller does not, or because it is not possible (invalid UTF-8); `t` is its
beginning, the complete characters written so far -/
inductive Unfinished : WOp → Text → Prop
  | notCalled (ops : List SvOp) (t : Text) : enc t <+: svData ops → Unfinished (.stringValueWriter ops false) t
  | invalid (ops : List SvOp) (t : Text) : enc t <+: svData ops → (¬ ∃ u, SvWrites ops u) → Unfinished (.stringValueWriter ops true) t

/-- Allowed calls -/
inductive Step (st : WSettings) : Written → WOp → Written → Prop
  | value {w : Written} {op : WOp} {v : JVal} : w.CanAdd st → Denotes op v → Step st w op (w.add v)
  | rejected {w : Written} {op : WOp} : Rejected op → Step st w op w
  | unfinished {w : Written} {op : WOp} {t : Text} : w.CanAdd st → Unfinished op t → Step st w op { w with str := some t }
  | beginArray {w : Written} : w.CanAdd st → Step st w .beginArray { w with frames := .arr [] :: w.frames }
  | beginObject {w : Written} : w.CanAdd st → Step st w .beginObject { w with frames := .obj [] none :: w.frames }
  | endArray {tops : List JVal} {vs : List JVal} {fs : List Frame} : Step st ⟨tops, .arr vs :: fs, none⟩ .endArray (Written.add ⟨tops, fs, none⟩ (.arr vs))
  | endObject {tops : List JVal} {ms : List (Text × JVal)} {fs : List Frame} :
      Step st ⟨tops, .obj ms none :: fs, none⟩ .endObject (Written.add ⟨tops, fs, none⟩ (.obj ms))
  | name {tops : List JVal} {ms : List (Text × JVal)} {fs : List Frame} {n : Text} :
      Step st ⟨tops, .obj ms none :: fs, none⟩ (.name n) ⟨tops, .obj ms (some n) :: fs, none⟩
  | finish {tops : List JVal} : tops ≠ [] → Step st ⟨tops, [], none⟩ .finishDocument ⟨tops, [], none⟩

/-- Sequence of allowed calls -/
inductive Steps (st : WSettings) : Written → List WOp → Written → Prop
  | nil {w : Written} : Steps st w [] w
  | cons {w w' w'' : Written} {op : WOp} {ops : List WOp} : Step st w op w' → Steps st w' ops w'' → Steps st w (op :: ops) w''

/-! ## Layout -/

/-- The character has to be escaped -/
def mustEscape (st : WSettings) (c : Char) : Prop :=
  c = '"' ∨ c = '\\' ∨ c.toNat < 0x20 ∨ (st.escapeAllNonAscii = true ∧ 0x80 ≤ c.toNat) ∨
    (st.escapeAllControlChars = true ∧ (c.toNat < 0x20 ∨ 0x7F ≤ c.toNat ∧ c.toNat ≤ 0x9F))

instance (st : WSettings) (c : Char) : Decidable (mustEscape st c) := by unfold mustEscape; infer_instance

/-- upper case hexadecimal digit -/
def hexDigit (n : Nat) : UInt8 := UInt8.ofNat (if n < 10 then 0x30 + n else 0x37 + n)

def hex4 (n : Nat) : Hex4 := ⟨hexDigit (n / 4096 % 16), hexDigit (n / 256 % 16), hexDigit (n / 16 % 16), hexDigit (n % 16)⟩

/-- escape sequence for a character -/
def escape (c : Char) : StrItem :=
  if c = '"' then .short 0x22
  else if c = '\\' then .short 0x5C
  else if c.toNat = 8 then .short 0x62
  else if c.toNat = 12 then .short 0x66
  else if c = '\n' then .short 0x6E
  else if c = '\r' then .short 0x72
  else if c = '\t' then .short 0x74
  else if c.toNat < 0x10000 then .unicode (hex4 c.toNat)
  else .pair (hex4 (0xD800 + (c.toNat - 0x10000) / 0x400)) (hex4 (0xDC00 + (c.toNat - 0x10000) % 0x400))

def item (st : WSettings) (c : Char) : StrItem := if mustEscape st c then escape c else .char c

/-- string literal -/
def strLit (st : WSettings) (t : Text) : Str := ⟨t.map (item st), t⟩

/-- line break and indentation, if pretty printing is enabled -/
def gap (st : WSettings) (n : Nat) : Ws := if st.prettyPrint then .space 0x0A :: List.replicate (2 * n) (.space 0x20) else []

/-- in front of an element of a container which is nested `n` levels deep -/
def sep (st : WSettings) (n : Nat) (first : Bool) : Sep := if first then .plain (gap st (n + 1)) else .comma [] (gap st (n + 1))

/-- in front of the closing bracket -/
def close (st : WSettings) (n : Nat) (first : Bool) : Sep := .plain (if first then [] else gap st n)

/-- behind the colon -/
def colonWs (st : WSettings) : Ws := if st.prettyPrint then [.space 0x20] else []

mutual
/-- layout of a value which is nested `n` levels deep -/
def cst (st : WSettings) (n : Nat) : JVal → Cst
  | .null => .null
  | .bool b => .bool b
  | .num t => .num (enc t)
  | .str t => .str (strLit st t)
  | .arr vs => .arr (items st n true vs)
  | .obj ms => .obj (members st n true ms)
def items (st : WSettings) (n : Nat) (first : Bool) : List JVal → Items
  | [] => .nil (close st n first)
  | v :: vs => .cons (sep st n first) (cst st (n + 1) v) (items st n false vs)
def members (st : WSettings) (n : Nat) (first : Bool) : List (Text × JVal) → Members
  | [] => .nil (close st n first)
  | (name, v) :: ms => .cons (sep st n first) (strLit st name) [] (colonWs st) (cst st (n + 1) v) (members st n false ms)
end

/-! ## Bytes of what has been written -/

/-- elements without the closing bracket -/
def openItems (st : WSettings) (n : Nat) (first : Bool) : List JVal → Bytes
  | [] => []
  | v :: vs => (sep st n first).bytes ++ ((cst st (n + 1) v).bytes ++ openItems st n false vs)

def openMembers (st : WSettings) (n : Nat) (first : Bool) : List (Text × JVal) → Bytes
  | [] => []
  | (name, v) :: ms => (sep st n first).bytes ++ ((strLit st name).bytes ++ (0x3A :: ((colonWs st).bytes ++ ((cst st (n + 1) v).bytes ++ openMembers st n false ms))))

/-- open container which is nested `n` levels deep -/
def Frame.bytes (st : WSettings) (n : Nat) : Frame → Bytes
  | .arr vs => 0x5B :: openItems st n true vs
  | .obj ms none => 0x7B :: openMembers st n true ms
  | .obj ms (some name) => 0x7B :: (openMembers st n true ms ++ ((sep st n ms.isEmpty).bytes ++ ((strLit st name).bytes ++ (0x3A :: (colonWs st).bytes))))

/-- the separator between top-level values -/
def topSep (st : WSettings) : Bytes := enc (st.separator.getD [])

/-- in front of the next value -/
def lead (st : WSettings) (tops : List JVal) : List Frame → Bytes
  | [] => if tops.isEmpty then [] else topSep st
  | .arr vs :: fs => (sep st fs.length vs.isEmpty).bytes
  | .obj _ _ :: _ => []

def topsBytes (st : WSettings) : List JVal → Bytes
  | [] => []
  | v :: vs => (cst st 0 v).bytes ++ vs.flatMap fun v => topSep st ++ (cst st 0 v).bytes

def framesBytes (st : WSettings) (tops : List JVal) : List Frame → Bytes
  | [] => topsBytes st tops
  | f :: fs => framesBytes st tops fs ++ (lead st tops fs ++ f.bytes st fs.length)

/-- the bytes which represent what has been written -/
def Written.bytes (st : WSettings) (w : Written) : Bytes :=
  framesBytes st w.tops w.frames ++ match w.str with
    | none => []
    | some t => lead st w.tops w.frames ++ (0x22 :: (strLit st t).body)

/-! ## Documents -/

/-- JSON documents with a separator in between; more than one only if there is a separator -/
inductive Documents (sep : Option Text) : List JVal → Bytes → Prop
  | one {v : JVal} {bs : Bytes} : IsDoc .rfc bs v → Documents sep [v] bs
  | more {v : JVal} {bs : Bytes} {vs : List JVal} {bs' : Bytes} {s : Text} : sep = some s → IsDoc .rfc bs v → Documents sep vs bs' → Documents sep (v :: vs) (bs ++ (enc s ++ bs'))

mutual
/-- the calls which write a value -/
def calls : JVal → List WOp
  | .null => [.nullValue]
  | .bool b => [.boolValue b]
  | .num t => [.numberValueFromString t]
  | .str t => [.stringValue t]
  | .arr vs => .beginArray :: (callsItems vs ++ [.endArray])
  | .obj ms => .beginObject :: (callsMembers ms ++ [.endObject])
def callsItems : List JVal → List WOp
  | [] => []
  | v :: vs => calls v ++ callsItems vs
def callsMembers : List (Text × JVal) → List WOp
  | [] => []
  | (n, v) :: ms => .name n :: (calls v ++ callsMembers ms)
end

mutual
/-- nesting depth -/
def depth : JVal → Nat
  | .arr vs => depthItems vs + 1
  | .obj ms => depthMembers ms + 1
  | _ => 0
def depthItems : List JVal → Nat
  | [] => 0
  | v :: vs => max (depth v) (depthItems vs)
def depthMembers : List (Text × JVal) → Nat
  | [] => 0
  | (_, v) :: ms => max (depth v) (depthMembers ms)
end

mutual
/-- all numbers satisfy the condition -/
def Numbers (P : Bytes → Prop) : JVal → Prop
  | .num t => P (enc t)
  | .arr vs => NumbersItems P vs
  | .obj ms => NumbersMembers P ms
  | _ => True
def NumbersItems (P : Bytes → Prop) : List JVal → Prop
  | [] => True
  | v :: vs => Numbers P v ∧ NumbersItems P vs
def NumbersMembers (P : Bytes → Prop) : List (Text × JVal) → Prop
  | [] => True
  | (_, v) :: ms => Numbers P v ∧ NumbersMembers P ms
end

/-- the value satisfies the limits of a reader -/
def Within (maxDepth : Option Nat) (restrict : Bool) (v : JVal) : Prop :=
  (∀ n, maxDepth = some n → depth v ≤ n) ∧ Numbers (fun bs => ¬ (restrict = true ∧ UnsupportedNumber bs)) v

mutual
/-- without whitespace -/
def stripWs : Cst → Cst
  | .arr is => .arr (stripItems is)
  | .obj ms => .obj (stripMembers ms)
  | v => v
def stripSep : Sep → Sep
  | .plain _ => .plain []
  | .comma _ _ => .comma [] []
def stripItems : Items → Items
  | .nil s => .nil (stripSep s)
  | .cons s v rest => .cons (stripSep s) (stripWs v) (stripItems rest)
def stripMembers : Members → Members
  | .nil s => .nil (stripSep s)
  | .cons s name _ _ v rest => .cons (stripSep s) name [] [] (stripWs v) (stripMembers rest)
end

end Verif.WSpec
