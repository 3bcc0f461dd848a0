import Verif.Model.Calls
import Verif.Model.Ser
/-!
# Model of the Simple writer API, src/writer/simple.rs

The API is generic in the `JsonWriter`, so it is modelled as tree of calls of the methods of the writer (`Calls`, as for the code which is generic in the reader).
The closures given to the API are arbitrary programs: after each call they continue depending on its result, and finally they return a result.
-/

namespace Verif.SimpleWriter
open Writer
open Ser (SVal SerErr)

/-- Errors (`IoError`, `JsonNumberError`, `SerializerError`, and `Box<dyn Error>` of the closures). `previous e`: the error created by `error_from_stored` (simple.rs
239–245) for the stored error `e` (simplification: the code stores only kind and message of `e`). `closure`: an error created by a closure. -/
inductive SErr where
  | writer (e : WErr)
  | serializer (e : SerErr)
  | previous (e : SErr)
  | closure (msg : Text)
deriving Repr, DecidableEq

/-- writer/simple.rs 291–431: The methods of `JsonWriter` and of its `StringValueWriter` (`sv`, `finishValue`) -/
inductive WCall where
  | beginObject
  | endObject
  | beginArray
  | endArray
  | name (n : Text)
  | nullValue
  | boolValue (b : Bool)
  | stringValue (t : Text)
  | stringValueWriter
  | numberValueFromString (t : Text)
  | numberValue (n : FinNum)
  | fpNumberValue (n : FpNum)
  | serializeValue (v : SVal)
  | sv (o : SvOp)
  | finishValue
  | finishDocument

/-- writer/simple.rs 291–431. Results of the methods: the number of written bytes for `write` of the string value writer, otherwise `0` -/
abbrev WRes : WCall → Type := fun _ => Except SErr Nat

/-! ## Closures -/

mutual
/-- The methods of `ValueWriter`, simple.rs 23–177 -/
inductive ValOp where
  | null
  | bool (b : Bool)
  | string (t : Text)
  | stringWithWriter (f : StrC)
  | number (n : FinNum)
  | fpNumber (n : FpNum)
  | numberString (t : Text)
  | serialize (v : SVal)
  | array (f : ArrC)
  | object (f : ObjC)
/-- Model only, user of writer/simple.rs 942–970: Closure with a `StringValueWriter` -/
inductive StrC where
  | ret (r : Except SErr Unit)
  | op (o : SvOp) (k : Except SErr Nat → StrC)
/-- Model only, user of writer/simple.rs 603–664: Closure with an `ArrayWriter` -/
inductive ArrC where
  | ret (r : Except SErr Unit)
  | value (o : ValOp) (k : Except SErr Unit → ArrC)
/-- Model only, user of writer/simple.rs 680–850. Closure with an `ObjectWriter`. `memberValue`: the methods `write_null_member` to `write_object_member` -/
inductive ObjC where
  | ret (r : Except SErr Unit)
  | member (name : Text) (f : MemC) (k : Except SErr Unit → ObjC)
  | memberValue (name : Text) (o : ValOp) (k : Except SErr Unit → ObjC)
/-- Model only, user of writer/simple.rs 855–924: Closure with a `MemberValueWriter`, which is consumed by its methods -/
inductive MemC where
  | ret (r : Except SErr Unit)
  | value (o : ValOp) (k : Except SErr Unit → Except SErr Unit)
end

/-! ## `ErrorSafeJsonWriter` -/

/-- Code which uses an `ErrorSafeJsonWriter` (simple.rs 282–287); the state is its field `error` -/
abbrev X := CT WCall WRes SErr (Option SErr)

/-- simple.rs 250–272: `use_delegate!`, and 398–411: `use_delegate` of `ErrorSafeStringValueWriter`; also `finish_value` (427–437) -/
def useDelegate (c : WCall) : X Nat := do
  match ← CT.get with
  | some e => CT.fail (.previous e)
  | none => do
    match ← CT.call c with
    | .ok n => pure n
    | .error e => do
      CT.modify fun _ => some e
      CT.fail e

/-- writer/simple.rs 291–431: a method without result -/
def call (c : WCall) : X Unit := do
  let _ ← useDelegate c

/-- simple.rs 382–388: `finish_document`, which consumes `self` and therefore does not store the error -/
def finishDocument : X Unit := do
  match ← CT.get with
  | some e => CT.fail (.previous e)
  | none => do
    match ← CT.call .finishDocument with
    | .ok _ => pure ()
    | .error e => CT.fail e

/-! ## The API -/

/-- closure with a `StringValueWriter`, simple.rs 942–970 -/
def str : StrC → X Unit
  | .ret r => CT.ofExcept r
  | .op o k => do
    let r ← CT.attempt (useDelegate (.sv o))
    str (k r)

/-- simple.rs 201–218: `write_string_with_writer` -/
def writeStringWithWriter (f : StrC) : X Unit := do
  call .stringValueWriter
  str f
  match ← CT.get with
  | some e => CT.fail (.previous e)
  | none => call .finishValue

mutual
/-- Methods of `ArrayWriter`, simple.rs 607–663, which are the same for `MemberValueWriter`, 859–922, except for `wrote_value`; `write_array`: 179–188,
`write_object`: 190–199 -/
def value : ValOp → X Unit
  | .null => call .nullValue
  | .bool b => call (.boolValue b)
  | .string t => call (.stringValue t)
  | .stringWithWriter f => writeStringWithWriter f
  | .number n => call (.numberValue n)
  | .fpNumber n => call (.fpNumberValue n)
  | .numberString t => call (.numberValueFromString t)
  | .serialize v => call (.serializeValue v)
  | .array f => do
    call .beginArray
    arr f
    call .endArray
  | .object f => do
    call .beginObject
    obj f
    call .endObject
/-- Model only: closure with an `ArrayWriter` -/
def arr : ArrC → X Unit
  | .ret r => CT.ofExcept r
  | .value o k => do
    let r ← CT.attempt (value o)
    arr (k r)
/-- closure with an `ObjectWriter`. `write_member`: simple.rs 729–748, the other methods: 751–849 -/
def obj : ObjC → X Unit
  | .ret r => CT.ofExcept r
  | .member name f k => do
    let r ← CT.attempt (do
      call (.name name)
      let wroteValue ← mem f
      if !wroteValue then call .nullValue else pure ())
    obj (k r)
  | .memberValue name o k => do
    let r ← CT.attempt (do
      call (.name name)
      value o)
    obj (k r)
/-- closure with a `MemberValueWriter`, simple.rs 855–922; the result is `wrote_value` -/
def mem : MemC → X Bool
  | .ret r => do
    CT.ofExcept r
    pure false
  | .value o k => do
    let r ← CT.attempt (value o)
    CT.ofExcept (k r)
    pure true
end

/-- Methods of `SimpleJsonWriter`, simple.rs 518–597 -/
def write (o : ValOp) : X Unit := do
  value o
  finishDocument

/-- A new `SimpleJsonWriter` (simple.rs 497–504: `from_json_writer`) and a call of a method -/
def run (o : ValOp) : Calls WCall WRes (Except SErr Unit) := ((write o).run none).bind fun (r, _) => .ret r

/-! ## Execution with a `JsonStreamWriter` -/

/-- Model only: conversion of errors -/
def onWriter {α : Type} (m : W α) : T SErr Core α := ⟨fun c => (m.run c).bind fun
  | (.ok a, c') => .ret (.ok a, c')
  | (.error e, c') => .ret (.error (.writer e), c')⟩

/-- Model only: as `onWriter` -/
def onSerializer {α : Type} (m : Ser.S α) : T SErr Core α := ⟨fun c => (m.run c).bind fun
  | (.ok a, c') => .ret (.ok a, c')
  | (.error e, c') => .ret (.error (.serializer e), c')⟩

/-- Model only: method without result -/
def unit (m : W Unit) : T SErr Core Nat := do
  onWriter m
  pure 0

/-- Model only. The methods of a `JsonStreamWriter`, see `Verif.Model.Writer` and `Verif.Model.Ser` -/
def perform : WCall → T SErr Core Nat
  | .beginObject => unit Writer.beginObject
  | .endObject => unit Writer.endObject
  | .beginArray => unit Writer.beginArray
  | .endArray => unit Writer.endArray
  | .name n => unit (Writer.name n)
  | .nullValue => unit Writer.nullValue
  | .boolValue b => unit (Writer.boolValue b)
  | .stringValue t => unit (Writer.stringValue t)
  | .stringValueWriter => unit Writer.stringValueWriter
  | .numberValueFromString t => unit (Writer.numberValueFromString t)
  | .numberValue n => unit (Writer.numberValue n)
  | .fpNumberValue n => unit (Writer.fpNumberValue n)
  | .serializeValue v => do
    onSerializer (Ser.serializeValue v)
    pure 0
  | .sv o => onWriter (svOp o)
  | .finishValue => unit svFinishValue
  | .finishDocument => unit Writer.finishDocument

/-- Model only: the result of a method as value -/
def catchErr {ε α : Type} (m : T ε Core α) : T Empty Core (Except ε α) := ⟨fun c => (m.run c).bind fun (r, c') => .ret (.ok r, c')⟩

/-- Model only. Execution of a tree of calls. The Simple writer API has no panics of its own (the tree does not contain `panic`). -/
def exec {α : Type} : Calls WCall WRes α → T Empty Core α
  | .ret a => pure a
  | .panic _ => T.internal .index
  | .call c k => do
    let r ← catchErr (perform c)
    exec (k r)

/-- writer/simple.rs 497. The API with a new writer: the result, or the panic, and the underlying `Write` -/
def execSimple (N : Nat) (st : WSettings) (sink : Sink) (o : ValOp) : Except WPanic (Except SErr Unit) × Sink :=
  match ((exec (run o)).run (Core.new st)).run.run (BufSink.new N sink) with
  | .ok (.ok r, _) k => (.ok r, k.sink)
  | .ok (.error e, _) _ => nomatch e
  | .err p k => (.error p, k.sink)

end Verif.SimpleWriter
