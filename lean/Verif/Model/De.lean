import Verif.Model.Calls
import Verif.Model.Writer
/-!
# Model of the Serde `Deserializer`, src/serde/de.rs

Implementations of `Deserialize`, `DeserializeSeed` and `Visitor` are arbitrary code, which the deserializer calls and which calls the deserializer. Here they are
trees (`De`, `Vis`, …): at each node the code calls a method of the object it has been given, and continues depending on the result. `V` is the type of all values they
create. Every execution of Rust code which ends is the execution of such a tree. Borrowed data is not distinguished from owned data, names of types, fields and variants
given to the deserializer are omitted because it ignores them.

The trait `Deserializer` passes `self` by value, so an implementation of `Deserialize` can call at most one method of it.
-/

namespace Verif.De
open Reader
open Writer (IntTy)

/-- Used at serde/de.rs 241–251 and 921–938. `serde::de::Unexpected`, as far as used -/
inductive Unexp where
  | seq | map | unit | unitVariant
  | other (t : ValueType)
  | str (t : Text)
deriving Repr, DecidableEq

/-- serde/de.rs 31–73: `DeserializerError`. Rust's `Custom` are here `custom` (created by the implementation of `Deserialize` or `Visitor`), `invalidType` and
`invalidLength`. The message of `InvalidNumber` is omitted. -/
inductive DErr where
  | custom (msg : Text)
  | invalidType (u : Unexp)
  | invalidLength (len expected : Nat)
  | maxNestingDepthExceeded (n : Nat)
  | reader (e : RErr)
  | invalidNumber
deriving Repr, DecidableEq

/-- serde/de.rs 354–760: The methods of `Deserializer` -/
inductive Method where
  | any | bool | int (t : IntTy) | f32 | f64 | char | str | string | bytes | byteBuf | option | unit | unitStruct | newtypeStruct
  | seq | tuple (len : Nat) | tupleStruct (len : Nat) | map | struct | enum | identifier | ignoredAny
deriving Repr, DecidableEq

/-- Called at serde/de.rs 374–760 and 864–938. The methods of `Visitor` which are given a value. `f32 t` and `f64 t`: the number is the result of `from_str` for the text `t`. -/
inductive Prim where
  | bool (b : Bool)
  | int (t : IntTy) (i : Int)
  | f32 (t : Text)
  | f64 (t : Text)
  | str (t : Text)
  | string (t : Text)
  | bytes (bs : Bytes)
  | byteBuf (bs : Bytes)
  | none
  | unit
deriving Repr, DecidableEq

mutual
/-- Model only, given to serde/de.rs 771, 804, 823, 953, 976. An implementation of `Deserialize` or `DeserializeSeed`. `ret`: it does not use the deserializer. `call`: it calls a method with a visitor, and is given the result. -/
inductive De (V : Type) where
  | ret (r : Except DErr V)
  | call (m : Method) (v : Vis V) (k : Except DErr V → Except DErr V)
/-- Model only, given to serde/de.rs 354–760. An implementation of `Visitor`; `some` and `newtype` are `visit_some` and `visit_newtype_struct`, which are given the deserializer -/
inductive Vis (V : Type) where
  | mk (prim : Prim → Except DErr V) (some newtype : De V) (seq : SeqC V) (map : MapC V) (enum : EnumC V)
/-- Model only: user of serde/de.rs 763–794. Usage of `SeqAccess` by `visit_seq` -/
inductive SeqC (V : Type) where
  | ret (r : Except DErr V)
  | next (seed : De V) (k : Except DErr (Option V) → SeqC V)
/-- Model only: user of serde/de.rs 797–832. Usage of `MapAccess` by `visit_map` -/
inductive MapC (V : Type) where
  | ret (r : Except DErr V)
  | key (seed : De V) (k : Except DErr (Option V) → MapC V)
  | value (seed : De V) (k : Except DErr V → MapC V)
/-- Model only: user of serde/de.rs 942–964 and 1008–1025. Usage of `EnumAccess` by `visit_enum` -/
inductive EnumC (V : Type) where
  | ret (r : Except DErr V)
  | variant (seed : De V) (onError : DErr → Except DErr V) (k : V → VarC V)
/-- Model only: user of serde/de.rs 967–1005 and 1028–1066. Usage of `VariantAccess` by `visit_enum` -/
inductive VarC (V : Type) where
  | ret (r : Except DErr V)
  | unit (k : Except DErr Unit → Except DErr V)
  | newtype (seed : De V) (k : Except DErr V → Except DErr V)
  | tuple (len : Nat) (v : Vis V) (k : Except DErr V → Except DErr V)
  | struct (v : Vis V) (k : Except DErr V → Except DErr V)
end

/-! ## Numbers -/

/-- Standard library, used at reader/mod.rs 1162–1165 and serde/de.rs 391–400 and 843–860. `from_str` of the integer types (standard library): an optional sign (for unsigned types only `+`), at least one digit, and the number is in the range of the type -/
def digitsValue : Nat → Text → Option Nat
  | acc, [] => some acc
  | acc, c :: cs => if '0' ≤ c ∧ c ≤ '9' then digitsValue (acc * 10 + (c.toNat - 0x30)) cs else none

/-- Standard library: the digits of `from_str`, see `digitsValue` -/
def parseDigits : Text → Option Nat
  | [] => none
  | t => digitsValue 0 t

/-- Standard library: the check of the range of `from_str`, see `digitsValue` -/
def inRange (ty : IntTy) (i : Int) : Option Int := if ty.min ≤ i ∧ i ≤ ty.max then some i else none

/-- Standard library: `from_str` of the integer types, see `digitsValue` -/
def parseInt (ty : IntTy) : Text → Option Int
  | '+' :: t => (parseDigits t).bind fun n => inRange ty n
  | '-' :: t => if ty.signed then (parseDigits t).bind fun n => inRange ty (-(n : Int)) else none
  | t => (parseDigits t).bind fun n => inRange ty n

/-! ## Map keys and variant names

They do not use the reader. -/

/-- Model only: the result of a method, given to the caller -/
def Vis.prim {V : Type} : Vis V → Prim → Except DErr V
  | .mk prim _ _ _ _ _ => prim

mutual
/-- Used at serde/de.rs 909 and 962. `serde::de::value::StrDeserializer` (not part of Struson): `deserialize_enum` calls `visit_enum`, all other methods call `visit_str` -/
def strDe {V : Type} (t : Text) : De V → Except DErr V
  | .ret r => r
  | .call m v k => k (strMethod t m v)
/-- The methods of `StrDeserializer`, see `strDe` -/
def strMethod {V : Type} (t : Text) : Method → Vis V → Except DErr V
  | .enum, .mk _ _ _ _ _ enum => strEnum t enum
  | _, .mk prim _ _ _ _ _ => prim (.str t)
/-- `visit_enum` with a `StrDeserializer`, see `strDe` -/
def strEnum {V : Type} (t : Text) : EnumC V → Except DErr V
  | .ret r => r
  | .variant seed onError k => match strDe t seed with
    | .ok v => strVariant (k v)
    | .error e => onError e
/-- See `strDe`. `serde::de::value::private::UnitOnly` (not part of Struson) -/
def strVariant {V : Type} : VarC V → Except DErr V
  | .ret r => r
  | .unit k => k (.ok ())
  | .newtype _ k => k (.error (.invalidType .unitVariant))
  | .tuple _ _ k => k (.error (.invalidType .unitVariant))
  | .struct _ k => k (.error (.invalidType .unitVariant))
end

/-- serde/de.rs 841–859: `deserialize_number_key!` -/
def numberKey {α : Type} (key : Text) (parse : Text → Option α) : Except DErr α :=
  if Writer.isValid key then
    match parse key with
    | some n => .ok n
    | none => .error .invalidNumber
  else .error .invalidNumber

mutual
/-- serde/de.rs 835–938: `MapKeyDeserializer` -/
def keyDe {V : Type} (key : Text) : De V → Except DErr V
  | .ret r => r
  | .call m v k => k (keyMethod key m v)
/-- serde/de.rs 864–938: the methods of `MapKeyDeserializer` -/
def keyMethod {V : Type} (key : Text) : Method → Vis V → Except DErr V
  | .int ty, .mk prim _ _ _ _ _ => match numberKey key (parseInt ty) with
    | .ok i => prim (.int ty i)
    | .error e => .error e
  | .f32, .mk prim _ _ _ _ _ => match numberKey key some with
    | .ok t => prim (.f32 t)
    | .error e => .error e
  | .f64, .mk prim _ _ _ _ _ => match numberKey key some with
    | .ok t => prim (.f64 t)
    | .error e => .error e
  | .option, .mk _ opt _ _ _ _ => keyDe key opt
  | .newtypeStruct, .mk _ _ newtype _ _ _ => keyDe key newtype
  | .enum, .mk _ _ _ _ _ enum => strEnum key enum
  | .bytes, .mk prim _ _ _ _ _ => prim (.bytes (enc key))
  | .byteBuf, .mk prim _ _ _ _ _ => prim (.bytes (enc key))
  | .bool, .mk prim _ _ _ _ _ =>
    if key = ['t', 'r', 'u', 'e'] then prim (.bool true)
    else if key = ['f', 'a', 'l', 's', 'e'] then prim (.bool false)
    else .error (.invalidType (.str key))
  | _, .mk prim _ _ _ _ _ => prim (.str key)
end

/-! ## Deserializer -/

/-- serde/de.rs 173–183: Methods of `JsonReaderDeserializer`; the state is the field `depth` -/
abbrev D := CT Op OpRes DErr Nat

/-- serde/de.rs 48: method of the reader, errors are converted to `DeserializerError::ReaderError` (`#[from]`) -/
def onReader (op : Op) : D Out := do
  match ← CT.call op with
  | .ok o => pure o
  | .error e => CT.fail (.reader e)

/-- Model only. Excluded by the types of the methods of `JsonReader` -/
def wrongOut {α : Type} : D α := CT.fail (.reader .outOfFuel)

/-- Model only: method of the reader without result -/
def unitCall (op : Op) : D Unit := do
  let _ ← onReader op
/-- Model only: method of the reader which returns a `bool` -/
def boolCall (op : Op) : D Bool := do
  match ← onReader op with
  | .bool b => pure b
  | _ => wrongOut
/-- Model only: method of the reader which returns a string -/
def textCall (op : Op) : D Text := do
  match ← onReader op with
  | .text t => pure t
  | _ => wrongOut
/-- Model only: `peek` of the reader -/
def peek : D ValueType := do
  match ← onReader .peek with
  | .type t => pure t
  | _ => wrongOut

/-- serde/de.rs 241–251: `map_to_unexpected` -/
def mapToUnexpected : ValueType → Unexp
  | .array => .seq
  | .object => .map
  | .null => .unit
  | t => .other t

/-- serde/de.rs 253–261: `err_unexpected_type` -/
def errUnexpectedType {α : Type} (peeked : ValueType) : D α := CT.fail (.invalidType (mapToUnexpected peeked))

/-- serde/de.rs 263–276: `check_nesting!`. All errors inside of `body` are returned with `?` or `return`, so `depth` is not decremented then. -/
def checkNesting {α : Type} (max : Nat) (body : D α) : D α := do
  let depth ← CT.get
  if depth ≥ max then CT.fail (.maxNestingDepthExceeded max)
  else do
    CT.modify (· + 1)
    let result ← body
    CT.modify (· - 1)
    pure result

/-- reader/mod.rs 1162–1165: `next_number`, and `??` -/
def nextInt (ty : IntTy) : D Int := do
  let t ← textCall .nextNumberAsStr
  match parseInt ty t with
  | some i => pure i
  | none => CT.fail .invalidNumber

/-- Model only: visitor given to serde/de.rs 354–760. The visitor with its methods as code which uses the deserializer. `seq expected len` is `visit_seq` with a new `SeqAccess`; its result includes the field `len`.
`map expects`: the result includes `expects_entry_value`. `enum` is `visit_enum` with a `VariantAccess`, `unitEnum` with a `UnitVariantAccess`; their results
include `consumed_variant_value`. -/
structure Visitor (V : Type) where
  prim : Prim → Except DErr V
  some : D V
  newtype : D V
  seq : Option Nat → Nat → D (V × Nat)
  map : Bool → D (V × Bool)
  enum : D (V × Bool)
  unitEnum : D (V × Bool)

variable {V : Type} (max : Nat)

/-- serde/de.rs 279–307: `deserialize_seq_with_length` -/
def deserializeSeqWithLength (v : Visitor V) (expectedLen : Option Nat) : D V :=
  checkNesting max do
    unitCall .beginArray
    let (result, len) ← v.seq expectedLen 0
    match expectedLen with
    | some expected => if len < expected then CT.fail (.invalidLength len expected) else pure ()
    | none => pure ()
    unitCall .endArray
    pure result

/-- serde/de.rs 599–601: `deserialize_seq` -/
def deserializeSeq (v : Visitor V) : D V := deserializeSeqWithLength max v none

/-- serde/de.rs 607–613: `deserialize_tuple`; 620–627: `deserialize_tuple_struct` -/
def deserializeTuple (len : Nat) (v : Visitor V) : D V := deserializeSeqWithLength max v (some len)

/-- serde/de.rs 642–661: `deserialize_map` -/
def deserializeMap (v : Visitor V) : D V :=
  checkNesting max do
    unitCall .beginObject
    let (result, expectsEntryValue) ← v.map false
    if expectsEntryValue then CT.panic .trailingValue
    else do
      unitCall .endObject
      pure result

/-- serde/de.rs 483–490: `deserialize_string` -/
def deserializeString (v : Visitor V) : D V := do
  let t ← textCall .nextString
  CT.ofExcept (v.prim (.string t))

/-- serde/de.rs 479–481: `deserialize_str`; 469–471: `deserialize_char`; 748–750: `deserialize_identifier` -/
def deserializeStr (v : Visitor V) : D V := do
  let t ← textCall .nextStr
  CT.ofExcept (v.prim (.str t))

/-- serde/de.rs 407–409: `deserialize_bool` -/
def deserializeBool (v : Visitor V) : D V := do
  let b ← boolCall .nextBool
  CT.ofExcept (v.prim (.bool b))

/-- serde/de.rs 418–460: the methods for integers -/
def deserializeInt (ty : IntTy) (v : Visitor V) : D V := do
  let i ← nextInt ty
  CT.ofExcept (v.prim (.int ty i))

/-- serde/de.rs 458–464: the methods for `f32` and `f64`. `from_str` accepts all JSON numbers (standard library, trusted). -/
def deserializeF32 (v : Visitor V) : D V := do
  let t ← textCall .nextNumberAsStr
  CT.ofExcept (v.prim (.f32 t))
/-- serde/de.rs 462–464 -/
def deserializeF64 (v : Visitor V) : D V := do
  let t ← textCall .nextNumberAsStr
  CT.ofExcept (v.prim (.f64 t))

/-- serde/de.rs 387–403: the number case of `deserialize_any`. The text is a JSON number, so it is not empty. -/
def visitNumber (v : Visitor V) (t : Text) : D V :=
  if t.any fun c => c == '.' || c == 'e' || c == 'E' then CT.ofExcept (v.prim (.f64 t))
  else if t.head? = some '-' then
    match parseInt .i64 t with
    | some i => CT.ofExcept (v.prim (.int .i64 i))
    | none => match parseInt .i128 t with
      | some i => CT.ofExcept (v.prim (.int .i128 i))
      | none => CT.fail .invalidNumber
  else
    match parseInt .u64 t with
    | some i => CT.ofExcept (v.prim (.int .u64 i))
    | none => match parseInt .u128 t with
      | some i => CT.ofExcept (v.prim (.int .u128 i))
      | none => CT.fail .invalidNumber

/-- serde/de.rs 374–405: `deserialize_any` -/
def deserializeAny (v : Visitor V) : D V := do
  match ← peek with
  | .array => deserializeSeq max v
  | .object => deserializeMap max v
  | .string => deserializeString v
  | .boolean => deserializeBool v
  | .null => do
    unitCall .nextNull
    CT.ofExcept (v.prim .unit)
  | .number => do
    let t ← textCall .nextNumberAsStr
    visitNumber v t

/-- serde/de.rs 506–515: `deserialize_bytes` -/
def deserializeBytes (v : Visitor V) : D V := do
  match ← peek with
  | .string => do
    let t ← textCall .nextStr
    CT.ofExcept (v.prim (.bytes (enc t)))
  | .array => deserializeSeq max v
  | peeked => errUnexpectedType peeked

/-- serde/de.rs 530–545: `deserialize_byte_buf` -/
def deserializeByteBuf (v : Visitor V) : D V := do
  match ← peek with
  | .string => do
    let t ← textCall .nextString
    CT.ofExcept (v.prim (.byteBuf (enc t)))
  | .array => deserializeSeq max v
  | peeked => errUnexpectedType peeked

/-- serde/de.rs 551–559: `deserialize_option` -/
def deserializeOption (v : Visitor V) : D V := do
  match ← peek with
  | .null => do
    unitCall .nextNull
    CT.ofExcept (v.prim .none)
  | _ => v.some

/-- serde/de.rs 565–568: `deserialize_unit`; 574–580: `deserialize_unit_struct` -/
def deserializeUnit (v : Visitor V) : D V := do
  unitCall .nextNull
  CT.ofExcept (v.prim .unit)

/-- serde/de.rs 670–682: `deserialize_struct` -/
def deserializeStruct (v : Visitor V) : D V := do
  match ← peek with
  | .array => deserializeSeq max v
  | .object => deserializeMap max v
  | peeked => errUnexpectedType peeked

/-- serde/de.rs 701–743: `deserialize_enum` -/
def deserializeEnum (v : Visitor V) : D V := do
  match ← peek with
  | .object => checkNesting max do
    unitCall .beginObject
    let (result, consumed) ← v.enum
    if !consumed then CT.panic .variantValue
    else do
      unitCall .endObject
      pure result
  | .string => do
    let (result, consumed) ← v.unitEnum
    if !consumed then CT.panic .variantValue
    else pure result
  | peeked => errUnexpectedType peeked

/-- serde/de.rs 756–759: `deserialize_ignored_any` -/
def deserializeIgnoredAny (v : Visitor V) : D V := do
  unitCall .skipValue
  CT.ofExcept (v.prim .unit)

/-- serde/de.rs 354–760: the methods of `JsonReaderDeserializer`; `deserialize_newtype_struct` is at 586–592 -/
def method (m : Method) (v : Visitor V) : D V := match m with
  | .any => deserializeAny max v
  | .bool => deserializeBool v
  | .int t => deserializeInt t v
  | .f32 => deserializeF32 v
  | .f64 => deserializeF64 v
  | .char => deserializeStr v
  | .str => deserializeStr v
  | .string => deserializeString v
  | .bytes => deserializeBytes max v
  | .byteBuf => deserializeByteBuf max v
  | .option => deserializeOption v
  | .unit => deserializeUnit v
  | .unitStruct => deserializeUnit v
  | .newtypeStruct => v.newtype
  | .seq => deserializeSeq max v
  | .tuple len => deserializeTuple max len v
  | .tupleStruct len => deserializeTuple max len v
  | .map => deserializeMap max v
  | .struct => deserializeStruct max v
  | .enum => deserializeEnum max v
  | .identifier => deserializeStr v
  | .ignoredAny => deserializeIgnoredAny v

/-- serde/de.rs 771–793: `next_element_seed`; `seed` is the call of `seed.deserialize`. The result includes the new value of `len`. -/
def nextElementSeed (expectedLen : Option Nat) (len : Nat) (seed : D V) : D (Except DErr (Option V) × Nat) := do
  match ← CT.attempt (boolCall .hasNext) with
  | .error e => pure (.error e, len)
  | .ok false => pure (.ok none, len)
  | .ok true => match expectedLen with
    | some expected =>
      if len ≥ expected then pure (.error (.invalidLength (len + 1) expected), len)
      else do
        let r ← CT.attempt seed
        pure (r.map some, len + 1)
    | none => do
      let r ← CT.attempt seed
      pure (r.map some, len)

/-- serde/de.rs 804–821: `next_key_seed`; `seed key` is the call of `seed.deserialize` with the `MapKeyDeserializer`. The result includes the new value of
`expects_entry_value`. -/
def nextKeySeed (expectsEntryValue : Bool) (seed : Text → Except DErr V) : D (Except DErr (Option V) × Bool) := do
  if expectsEntryValue then CT.panic .keyWhenValueExpected
  else do
    match ← CT.attempt (boolCall .hasNext) with
    | .error e => pure (.error e, false)
    | .ok false => pure (.ok none, false)
    | .ok true => do
      match ← CT.attempt (textCall .nextName) with
      | .error e => pure (.error e, false)
      | .ok name => match seed name with
        | .error e => pure (.error e, false)
        | .ok key => pure (.ok (some key), true)

/-- serde/de.rs 823–832: `next_value_seed`. Afterwards `expects_entry_value` is `false`. -/
def nextValueSeed (expectsEntryValue : Bool) (seed : D V) : D (Except DErr V) := do
  if !expectsEntryValue then CT.panic .valueWhenKeyExpected
  else CT.attempt seed

/-- Used at serde/de.rs 973. `Deserialize::deserialize` of the type `()` (serde, not part of Struson): `deserialize_unit` with a visitor which accepts `visit_unit` -/
def deserializeUnitType : D Unit := unitCall .nextNull

mutual
/-- Model only: `deserialize` of the implementation, with a `JsonReaderDeserializer` -/
def deserialize : De V → D V
  | .ret r => CT.ofExcept r
  | .call m v k => do
    let r ← CT.attempt (method max m (visitor v))
    CT.ofExcept (k r)
/-- Model only: the methods of the visitor -/
def visitor : Vis V → Visitor V
  | .mk prim opt newtype seq map enum =>
    { prim, some := deserialize opt, newtype := deserialize newtype, seq := fun expected len => visitSeq expected len seq, map := fun expects => visitMap expects map,
      enum := visitEnum enum, unitEnum := visitUnitEnum enum }
/-- `visit_seq` with a `SeqAccess`, serde/de.rs 762–794 -/
def visitSeq (expectedLen : Option Nat) (len : Nat) : SeqC V → D (V × Nat)
  | .ret r => do
    let v ← CT.ofExcept r
    pure (v, len)
  | .next seed k => do
    let (r, len) ← nextElementSeed expectedLen len (deserialize seed)
    visitSeq expectedLen len (k r)
/-- `visit_map` with a `MapAccess`, serde/de.rs 796–833 -/
def visitMap (expectsEntryValue : Bool) : MapC V → D (V × Bool)
  | .ret r => do
    let v ← CT.ofExcept r
    pure (v, expectsEntryValue)
  | .key seed k => do
    let (r, expects) ← nextKeySeed expectsEntryValue fun key => keyDe key seed
    visitMap expects (k r)
  | .value seed k => do
    let r ← nextValueSeed expectsEntryValue (deserialize seed)
    visitMap false (k r)
/-- `visit_enum` with a `VariantAccess`, serde/de.rs 940–1004; the variant name: `variant_seed`, 953–964 -/
def visitEnum : EnumC V → D (V × Bool)
  | .ret r => do
    let v ← CT.ofExcept r
    pure (v, false)
  | .variant seed onError k => do
    match ← CT.attempt (textCall .nextName) with
    | .error e => do
      let v ← CT.ofExcept (onError e)
      pure (v, false)
    | .ok name => match strDe name seed with
      | .error e => do
        let v ← CT.ofExcept (onError e)
        pure (v, false)
      | .ok v => visitVariant (k v)
/-- serde/de.rs 970–1003: the methods of `VariantAccess` -/
def visitVariant : VarC V → D (V × Bool)
  | .ret r => do
    let v ← CT.ofExcept r
    pure (v, false)
  | .unit k => do
    let r ← CT.attempt deserializeUnitType
    let v ← CT.ofExcept (k r)
    pure (v, true)
  | .newtype seed k => do
    let r ← CT.attempt (deserialize seed)
    let v ← CT.ofExcept (k r)
    pure (v, true)
  | .tuple len v k => do
    let r ← CT.attempt (deserializeTuple max len (visitor v))
    let v ← CT.ofExcept (k r)
    pure (v, true)
  | .struct v k => do
    let r ← CT.attempt (deserializeStruct max (visitor v))
    let v ← CT.ofExcept (k r)
    pure (v, true)
/-- `visit_enum` with a `UnitVariantAccess`, serde/de.rs 1006–1066; the variant name: `variant_seed`, 1019–1025 -/
def visitUnitEnum : EnumC V → D (V × Bool)
  | .ret r => do
    let v ← CT.ofExcept r
    pure (v, false)
  | .variant seed onError k => do
    match ← CT.attempt (deserialize seed) with
    | .error e => do
      let v ← CT.ofExcept (onError e)
      pure (v, false)
    | .ok v => do
      let (r, consumed) := visitUnitVariant (k v)
      let v ← CT.ofExcept r
      pure (v, consumed)
/-- serde/de.rs 1031–1066: the methods of `UnitVariantAccess`, which do not use the reader -/
def visitUnitVariant : VarC V → Except DErr V × Bool
  | .ret r => (r, false)
  | .unit k => (k (.ok ()), true)
  | .newtype _ k => (k (.error (.invalidType .unitVariant)), false)
  | .tuple _ _ k => (k (.error (.invalidType .unitVariant)), false)
  | .struct _ k => (k (.error (.invalidType .unitVariant)), false)
end

/-- serde/de.rs 183: `DEFAULT_MAX_NESTING_DEPTH` -/
def defaultMaxNestingDepth : Nat := 128

/-- A new `JsonReaderDeserializer` (serde/de.rs 230–238: `new_with_custom_nesting_limit`) is given to the implementation -/
def run (d : De V) : Calls Op OpRes (Except DErr V) := ((deserialize max d).run 0).bind fun (r, _) => .ret r

/-- stream_reader.rs 2201–2214: `deserialize_next` -/
def deserializeNext (d : De V) : Calls Op OpRes (Except DErr V) := .call .peek fun
  | .error e => .ret (.error (.reader e))
  | .ok _ => run defaultMaxNestingDepth d

/-! ## A program which uses the deserializer -/

/-- Model only. Calls of the reader; results are ignored -/
def calls {α : Type} (ops : List Op) (t : Calls Op OpRes α) : Calls Op OpRes α := match ops with
  | [] => t
  | op :: ops => .call op fun _ => calls ops t

/-- Model only. Calls of the reader which return their results -/
def results {α : Type} (ops : List Op) (f : List (Except RErr Out) → α) : Calls Op OpRes α := match ops with
  | [] => .ret (f [])
  | op :: ops => .call op fun r => results ops fun rs => f (r :: rs)

/-- Model only: what is done with the result of the deserializer -/
def afterDe (post : List Op) : Except DErr V → Calls Op OpRes (Except DErr V × List (Except RErr Out))
  | .ok v => results post fun rs => (.ok v, rs)
  | .error e => .ret (.error e, [])

/-- Model only. Methods of a new reader are called, then the deserializer is used, and if it succeeds further methods of the reader are called -/
def execDe (N : Nat) (st : Settings) (sched : List ReadEvent) (pre : List Op) (t : Calls Op OpRes (Except DErr V)) (post : List Op) :
    Outcome Unit (Except DErr V × List (Except RErr Out)) :=
  ((calls pre (t.bind (afterDe post))).run handle (some (new (BufSrc.new N sched) st))).forget

end Verif.De
