import Verif.Model.Transfer
/-!
# Model of the Serde `Serializer`, src/serde/ser.rs

A value which implements `Serialize` is a value of the Serde data model (`SVal`): the call of the `Serializer` method it performs, with the values it passes
on. It returns to its caller every error it receives (as the documentation of `JsonWriterSerializer` demands). The names of types and the indices of variants
are omitted because all methods ignore them. The writer is a `JsonStreamWriter` (`Verif.Model.Writer`).

`usize` counters are natural numbers: `self.len + 1` does not overflow because `self.len` is at most the number of calls.
-/

namespace Verif.Ser
open Writer

/-- serde/ser.rs 16–63: `SerializerError`; `io` is the error of the writer -/
inductive SerErr where
  | custom (msg : Text)
  | io (e : WErr)
  | invalidNumber
  | incorrectElementsCount (expected actual : Nat)
  | mapKeyNotString
deriving Repr, DecidableEq

mutual
/-- Model only: user of ser.rs 202–555. Values of the Serde data model, i.e. how `Serialize::serialize` uses the `Serializer`. The first `Nat` of compound values is the announced number of elements.
`custom`: the implementation of `Serialize` fails with its own error. -/
inductive SVal where
  | bool (b : Bool)
  | int (t : IntTy) (i : Int)
  | float (f : FpNum)
  | char (c : Char)
  | str (t : Text)
  | bytes (bs : Bytes)
  | none
  | some (v : SVal)
  | unit
  | unitStruct
  | unitVariant (variant : Text)
  | newtypeStruct (v : SVal)
  | newtypeVariant (variant : Text) (v : SVal)
  | seq (len : Option Nat) (vs : List SVal)
  | tuple (len : Nat) (vs : List SVal)
  | tupleStruct (len : Nat) (vs : List SVal)
  | tupleVariant (variant : Text) (len : Nat) (vs : List SVal)
  | map (len : Option Nat) (ops : List MapOp)
  | struct (len : Nat) (fs : List (Text × SVal))
  | structVariant (variant : Text) (len : Nat) (fs : List (Text × SVal))
  | custom (msg : Text)
/-- Model only: user of ser.rs 718–768. Calls of `serialize_key` and `serialize_value` of `SerializeMap` (`serialize_entry` calls both of them) -/
inductive MapOp where
  | key (k : SVal)
  | value (v : SVal)
end

/-- Model only: a method of `JsonWriterSerializer`, ser.rs 125 -/
abbrev S := T SerErr Core

/-- Conversion of the errors of the writer: `#[from] IoError` (ser.rs 27) and `map_number_err` (ser.rs 143–148) -/
def convertErr : WErr → SerErr
  | .invalidNumber => .invalidNumber
  | e => .io e

/-- Model only: method of the writer -/
def onWriter {α : Type} (m : W α) : S α := ⟨fun c => (m.run c).bind fun
  | (.ok a, c') => .ret (.ok a, c')
  | (.error e, c') => .ret (.error (convertErr e), c')⟩

/-! ## Map keys -/

/-- ser.rs 865–884: `serialize_finite_number_key` and `serialize_fp_number_key` -/
def finiteNumberKey (n : FinNum) : S Unit := onWriter (n.useJsonNumber Writer.name)
/-- ser.rs 876–884: `serialize_fp_number_key` -/
def fpNumberKey (n : FpNum) : S Unit := onWriter (n.useJsonNumber Writer.name)

/-- ser.rs 887–889: `err_key_not_string` -/
def errKeyNotString : S Unit := T.fail .mapKeyNotString

/-- ser.rs 891–1058: `MapKeyStringSerializer` -/
def serializeKey : SVal → S Unit
  | .bool b => onWriter (Writer.name (if b then ['t', 'r', 'u', 'e'] else ['f', 'a', 'l', 's', 'e']))
  | .int t i => finiteNumberKey (.int t i)
  | .float f => fpNumberKey f
  | .char c => onWriter (Writer.name [c])
  | .str t => onWriter (Writer.name t)
  | .some v => serializeKey v
  | .unitVariant variant => onWriter (Writer.name variant)
  | .newtypeStruct v => serializeKey v
  | .bytes _ => errKeyNotString
  | .none => errKeyNotString
  | .unit => errKeyNotString
  | .unitStruct => errKeyNotString
  | .newtypeVariant _ _ => errKeyNotString
  | .seq _ _ => errKeyNotString
  | .tuple _ _ => errKeyNotString
  | .tupleStruct _ _ => errKeyNotString
  | .tupleVariant _ _ _ => errKeyNotString
  | .map _ _ => errKeyNotString
  | .struct _ _ => errKeyNotString
  | .structVariant _ _ _ => errKeyNotString
  | .custom msg => T.fail (.custom msg)

/-! ## Values -/

/-- ser.rs 319–321: the loop of `serialize_bytes` -/
def serializeByteLoop : Bytes → S Unit
  | [] => pure ()
  | b :: bs => do
    onWriter (numberValue (.int .u8 b.toNat))
    serializeByteLoop bs

/-- ser.rs 582–589 (sequences), 621–626, 658–663, 695–700 (tuples), 756–763 (maps), 800–805, 842–847 (structs): the check of `end` -/
def checkEnd (expected len : Nat) : S Unit := if len < expected then T.fail (.incorrectElementsCount expected len) else pure ()

mutual
/-- ser.rs 202–553: `JsonWriterSerializer` -/
def serialize : SVal → S Unit
  | .bool b => onWriter (boolValue b)
  | .int t i => onWriter (numberValue (.int t i))
  | .float f => onWriter (fpNumberValue f)
  | .char c => onWriter (stringValue [c])
  | .str t => onWriter (stringValue t)
  | .bytes bs => do
    onWriter beginArray
    serializeByteLoop bs
    onWriter endArray
  | .none => onWriter nullValue
  | .some v => serialize v
  | .unit => onWriter nullValue
  | .unitStruct => onWriter nullValue
  | .unitVariant variant => onWriter (stringValue variant)
  | .newtypeStruct v => serialize v
  | .newtypeVariant variant v => do
    onWriter beginObject
    onWriter (Writer.name variant)
    serialize v
    onWriter endObject
  | .seq len vs => do
    onWriter beginArray
    serializeSeq len 0 vs
  | .tuple len vs => do
    onWriter beginArray
    serializeElements len 0 vs
    onWriter endArray
  | .tupleStruct len vs => do
    onWriter beginArray
    serializeElements len 0 vs
    onWriter endArray
  | .tupleVariant variant len vs => do
    onWriter beginObject
    onWriter (Writer.name variant)
    onWriter beginArray
    serializeElements len 0 vs
    onWriter endArray
    onWriter endObject
  | .map len ops => do
    onWriter beginObject
    serializeMap len 0 false ops
  | .struct len fs => do
    onWriter beginObject
    serializeFields len 0 fs
    onWriter endObject
  | .structVariant variant len fs => do
    onWriter beginObject
    onWriter (Writer.name variant)
    onWriter beginObject
    serializeFields len 0 fs
    onWriter endObject
    onWriter endObject
  | .custom msg => T.fail (.custom msg)
/-- ser.rs 563–593: `serialize_element` of `SerializeSeq` for all elements, and `end` -/
def serializeSeq (expected : Option Nat) (len : Nat) : List SVal → S Unit
  | [] => do
    match expected with
    | .some expected => checkEnd expected len
    | .none => pure ()
    onWriter endArray
  | v :: vs =>
    match expected with
    | .some n =>
      if n ≤ len then T.fail (.incorrectElementsCount n (len + 1))
      else do
        serialize v
        serializeSeq expected (len + 1) vs
    | .none => do
      serialize v
      serializeSeq expected len vs
/-- ser.rs 603–630 (`SerializeTuple`), 640–667 (`SerializeTupleStruct`), 677–706 (`SerializeTupleVariant`): `serialize_element` or `serialize_field` for all elements,
and the check of `end` -/
def serializeElements (expected len : Nat) : List SVal → S Unit
  | [] => checkEnd expected len
  | v :: vs =>
    if expected ≤ len then T.fail (.incorrectElementsCount expected (len + 1))
    else do
      serialize v
      serializeElements expected (len + 1) vs
/-- ser.rs 718–767 (`SerializeMap`): all calls of `serialize_key` and `serialize_value`, and `end` -/
def serializeMap (expected : Option Nat) (len : Nat) (expectsEntryValue : Bool) : List MapOp → S Unit
  | [] =>
    if expectsEntryValue then T.usage .endMapWhenValueExpected
    else do
      match expected with
      | .some expected => checkEnd expected len
      | .none => pure ()
      onWriter endObject
  | .key k :: ops =>
    if expectsEntryValue then T.usage .keyWhenValueExpected
    else match expected with
      | .some n =>
        if n ≤ len then T.fail (.incorrectElementsCount n (len + 1))
        else do
          serializeKey k
          serializeMap expected (len + 1) true ops
      | .none => do
        serializeKey k
        serializeMap expected len true ops
  | .value v :: ops =>
    if !expectsEntryValue then T.usage .valueWhenKeyExpected
    else do
      serialize v
      serializeMap expected len false ops
/-- ser.rs 777–809 (`SerializeStruct`), 819–853 (`SerializeStructVariant`): `serialize_field` for all fields, and the check of `end` -/
def serializeFields (expected len : Nat) : List (Text × SVal) → S Unit
  | [] => checkEnd expected len
  | (key, v) :: fs =>
    if expected ≤ len then T.fail (.incorrectElementsCount expected (len + 1))
    else do
      onWriter (Writer.name key)
      serialize v
      serializeFields expected (len + 1) fs
end

/-- stream_writer.rs 505–518: `serialize_value` -/
def serializeValue (v : SVal) : S Unit := serialize v

/-! ## A program which uses the serializer -/

/-- Model only. Results of the writer calls in front of `serialize_value`, of `serialize_value` (`none`: not called because a previous call failed), and of the writer calls
afterwards -/
structure SerOut where
  pre : List (Except WErr WOut)
  ser : Option (Except SerErr Unit)
  post : List (Except WErr WOut)

/-- Model only: the caller of stream_writer.rs 506–518. Writer calls; if none of them failed `serialize_value`; and, if it did not fail, further writer calls -/
def serOps (wpre : List WOp) (v : SVal) (wpost : List WOp) : T Empty Core SerOut := do
  let pre ← wops wpre
  if pre.any Transfer.callFailed then pure ⟨pre, .none, []⟩
  else do
    match ← (⟨fun c => ((serializeValue v).run c).bind fun (r, c') => .ret (.ok r, c')⟩ : T Empty Core (Except SerErr Unit)) with
    | .error e => pure ⟨pre, some (.error e), []⟩
    | .ok () => do
      let post ← wops wpost
      pure ⟨pre, some (.ok ()), post⟩

/-- Model only. The calls with a new writer -/
def execSer (N : Nat) (st : WSettings) (sink : Sink) (wpre : List WOp) (v : SVal) (wpost : List WOp) : Except WPanic SerOut × Sink :=
  match ((serOps wpre v wpost).run (Core.new st)).run.run (BufSink.new N sink) with
  | .ok (.ok r, _) k => (.ok r, k.sink)
  | .ok (.error e, _) _ => nomatch e
  | .err p k => (.error p, k.sink)

end Verif.Ser
