import Verif.Model.Ser
/-!
# Model of the Serde `Serializer` for arbitrary implementations of `Serialize`, src/serde/ser.rs

In `Verif/Model/Ser.lean` an implementation of `Serialize` is a value of the Serde data model. Here it is an arbitrary program (`Impl`): it calls the methods of the
`Serializer` and of the compound serializers (`SerializeSeq`, …) in any order which the types permit, gets the result of every call, decides with it how to continue, and
returns own errors.

The types permit the following. `Serialize::serialize<S>` consumes the serializer, so that exactly one of its methods is called, or none. Its result has the type
`Result<S::Ok, S::Error>`, and a value of the unknown type `S::Ok` can only be obtained from this method respectively from `end` of the compound serializer. So an
implementation cannot be successful if this method failed, or without calling `end`; but it can ignore errors of `serialize_element`, `serialize_field`, `serialize_key` and
`serialize_value`, and it can return an error although there was none.

`SerializeMap::serialize_entry` (serde) calls `serialize_key` and then `serialize_value`; `SerializeStruct::skip_field` (serde) does nothing. `collect_seq`, `collect_map`,
`collect_str` (serde) call the other methods.

Simplification: values which share mutable state (e.g. `RefCell`) are not modelled: how an implementation continues depends on the results of its own calls, but not on
what nested implementations have noticed in addition.
-/

namespace Verif.Ser
open Writer

/-- ser.rs 218–372: The methods of `Serializer` without compound serializer and without nested value -/
inductive Scalar where
  | bool (b : Bool)
  | int (t : IntTy) (i : Int)
  | float (f : FpNum)
  | char (c : Char)
  | str (t : Text)
  | bytes (bs : Bytes)
  | none
  | unit
  | unitStruct
  | unitVariant (variant : Text)

/-- Model only. The result of the implementation after the last call. After success: the `S::Ok` is returned, or it is dropped and an own error is returned. After an error: the same
or another error. -/
structure Ret where
  ok : Option SerErr
  error : SerErr → SerErr

/-- Model only: the result is returned to the caller -/
def Ret.pass : Ret := ⟨.none, id⟩

mutual
/-- Model only: user of ser.rs 202–555. An implementation of `Serialize`. `fail`: without using the serializer. `err`: its result if the method which should return a compound serializer fails. -/
inductive Impl where
  | fail (e : SerErr)
  | scalar (s : Scalar) (r : Ret)
  | some (v : Impl) (r : Ret)
  | newtypeStruct (v : Impl) (r : Ret)
  | newtypeVariant (variant : Text) (v : Impl) (r : Ret)
  | seq (len : Option Nat) (err : SerErr → SerErr) (body : SeqImpl)
  | tuple (len : Nat) (err : SerErr → SerErr) (body : SeqImpl)
  | tupleStruct (len : Nat) (err : SerErr → SerErr) (body : SeqImpl)
  | tupleVariant (variant : Text) (len : Nat) (err : SerErr → SerErr) (body : SeqImpl)
  | map (len : Option Nat) (err : SerErr → SerErr) (body : MapImpl)
  | struct (len : Nat) (err : SerErr → SerErr) (body : StructImpl)
  | structVariant (variant : Text) (len : Nat) (err : SerErr → SerErr) (body : StructImpl)
/-- Model only: user of ser.rs 557–708. Usage of `SerializeSeq`, `SerializeTuple`, `SerializeTupleStruct` and `SerializeTupleVariant`. `fin`: the call of `end`. `drop`: an error is returned without calling `end`. -/
inductive SeqImpl where
  | elem (v : Impl) (k : Except SerErr Unit → SeqImpl)
  | fin (r : Ret)
  | drop (e : SerErr)
/-- Model only: user of ser.rs 711–768. Usage of `SerializeMap` -/
inductive MapImpl where
  | key (v : Impl) (k : Except SerErr Unit → MapImpl)
  | value (v : Impl) (k : Except SerErr Unit → MapImpl)
  | fin (r : Ret)
  | drop (e : SerErr)
/-- Model only: user of ser.rs 771–858. Usage of `SerializeStruct` and `SerializeStructVariant` -/
inductive StructImpl where
  | field (name : Text) (v : Impl) (k : Except SerErr Unit → StructImpl)
  | fin (r : Ret)
  | drop (e : SerErr)
end

/-- Model only: the result `r` of the last call, as result of the implementation -/
def Ret.after (r : Ret) (m : S Unit) : S Unit := do
  match ← T.attempt m with
  | .error e => T.fail (r.error e)
  | .ok () => match r.ok with
    | .some e => T.fail e
    | .none => pure ()

/-- Model only: a compound value: `m` is the method of the serializer, `k` the usage of the compound serializer -/
def compound (m : S Unit) (err : SerErr → SerErr) (k : S Unit) : S Unit := do
  match ← T.attempt m with
  | .error e => T.fail (err e)
  | .ok () => k

/-- ser.rs 220–366: methods of `JsonWriterSerializer` -/
def serializeScalar : Scalar → S Unit
  | .bool b => onWriter (boolValue b)
  | .int t i => onWriter (numberValue (.int t i))
  | .float f => onWriter (fpNumberValue f)
  | .char c => onWriter (stringValue [c])
  | .str t => onWriter (stringValue t)
  | .bytes bs => do
    onWriter beginArray
    serializeByteLoop bs
    onWriter endArray
  | .none => onWriter nullValue
  | .unit => onWriter nullValue
  | .unitStruct => onWriter nullValue
  | .unitVariant variant => onWriter (stringValue variant)

/-- ser.rs 901–1004: methods of `MapKeyStringSerializer` -/
def serializeScalarKey : Scalar → S Unit
  | .bool b => onWriter (Writer.name (if b then ['t', 'r', 'u', 'e'] else ['f', 'a', 'l', 's', 'e']))
  | .int t i => finiteNumberKey (.int t i)
  | .float f => fpNumberKey f
  | .char c => onWriter (Writer.name [c])
  | .str t => onWriter (Writer.name t)
  | .unitVariant variant => onWriter (Writer.name variant)
  | .bytes _ => errKeyNotString
  | .none => errKeyNotString
  | .unit => errKeyNotString
  | .unitStruct => errKeyNotString

/-- ser.rs 891–1058: `MapKeyStringSerializer`; there are no compound serializers (`Impossible`) -/
def serializeKeyI : Impl → S Unit
  | .fail e => T.fail e
  | .scalar s r => r.after (serializeScalarKey s)
  | .some v r => r.after (serializeKeyI v)
  | .newtypeStruct v r => r.after (serializeKeyI v)
  | .newtypeVariant _ _ r => r.after errKeyNotString
  | .seq _ err _ => compound errKeyNotString err (pure ())
  | .tuple _ err _ => compound errKeyNotString err (pure ())
  | .tupleStruct _ err _ => compound errKeyNotString err (pure ())
  | .tupleVariant _ _ err _ => compound errKeyNotString err (pure ())
  | .map _ err _ => compound errKeyNotString err (pure ())
  | .struct _ err _ => compound errKeyNotString err (pure ())
  | .structVariant _ _ err _ => compound errKeyNotString err (pure ())

/-- ser.rs 582–589, 756–763: the check of `end` of `SerializeSeq` and `SerializeMap` -/
def checkEndOpt (expected : Option Nat) (len : Nat) : S Unit := match expected with
  | .some expected => checkEnd expected len
  | .none => pure ()

mutual
/-- ser.rs 202–553: `JsonWriterSerializer` -/
def serializeI : Impl → S Unit
  | .fail e => T.fail e
  | .scalar s r => r.after (serializeScalar s)
  | .some v r => r.after (serializeI v)
  | .newtypeStruct v r => r.after (serializeI v)
  | .newtypeVariant variant v r => r.after do
    onWriter beginObject
    onWriter (Writer.name variant)
    serializeI v
    onWriter endObject
  | .seq len err body => compound (onWriter beginArray) err (seqI len 0 body)
  | .tuple len err body => compound (onWriter beginArray) err (tupleI (onWriter endArray) len 0 body)
  | .tupleStruct len err body => compound (onWriter beginArray) err (tupleI (onWriter endArray) len 0 body)
  | .tupleVariant variant len err body => compound (do
      onWriter beginObject
      onWriter (Writer.name variant)
      onWriter beginArray) err (tupleI (do
        onWriter endArray
        onWriter endObject) len 0 body)
  | .map len err body => compound (onWriter beginObject) err (mapI len 0 false body)
  | .struct len err body => compound (onWriter beginObject) err (structI (onWriter endObject) len 0 body)
  | .structVariant variant len err body => compound (do
      onWriter beginObject
      onWriter (Writer.name variant)
      onWriter beginObject) err (structI (do
        onWriter endObject
        onWriter endObject) len 0 body)
/-- ser.rs 563–593: `SerializeSeq` -/
def seqI (expected : Option Nat) (len : Nat) : SeqImpl → S Unit
  | .elem v k => match expected with
    | .some n =>
      if n ≤ len then seqI expected len (k (.error (.incorrectElementsCount n (len + 1))))
      else do
        let r ← T.attempt (serializeI v)
        seqI expected (len + 1) (k r)
    | .none => do
      let r ← T.attempt (serializeI v)
      seqI expected len (k r)
  | .fin r => r.after do
    checkEndOpt expected len
    onWriter endArray
  | .drop e => T.fail e
/-- ser.rs 603–630 (`SerializeTuple`), 640–667 (`SerializeTupleStruct`), 677–706 (`SerializeTupleVariant`); `close`: the calls of the writer in `end` -/
def tupleI (close : S Unit) (expected len : Nat) : SeqImpl → S Unit
  | .elem v k =>
    if expected ≤ len then tupleI close expected len (k (.error (.incorrectElementsCount expected (len + 1))))
    else do
      let r ← T.attempt (serializeI v)
      tupleI close expected (len + 1) (k r)
  | .fin r => r.after do
    checkEnd expected len
    close
  | .drop e => T.fail e
/-- ser.rs 718–767: `SerializeMap` -/
def mapI (expected : Option Nat) (len : Nat) (expectsEntryValue : Bool) : MapImpl → S Unit
  | .key v k =>
    if expectsEntryValue then T.usage .keyWhenValueExpected
    else match expected with
      | .some n =>
        if n ≤ len then mapI expected len false (k (.error (.incorrectElementsCount n (len + 1))))
        else do
          let r ← T.attempt (serializeKeyI v)
          mapI expected (len + 1) true (k r)
      | .none => do
        let r ← T.attempt (serializeKeyI v)
        mapI expected len true (k r)
  | .value v k =>
    if !expectsEntryValue then T.usage .valueWhenKeyExpected
    else do
      let r ← T.attempt (serializeI v)
      mapI expected len false (k r)
  | .fin r =>
    if expectsEntryValue then T.usage .endMapWhenValueExpected
    else r.after do
      checkEndOpt expected len
      onWriter endObject
  | .drop e => T.fail e
/-- ser.rs 777–809 (`SerializeStruct`), 819–853 (`SerializeStructVariant`); `close`: the calls of the writer in `end` -/
def structI (close : S Unit) (expected len : Nat) : StructImpl → S Unit
  | .field name v k =>
    if expected ≤ len then structI close expected len (k (.error (.incorrectElementsCount expected (len + 1))))
    else do
      let r ← T.attempt (do
        onWriter (Writer.name name)
        serializeI v)
      structI close expected (len + 1) (k r)
  | .fin r => r.after do
    checkEnd expected len
    close
  | .drop e => T.fail e
end

/-! ## Programs -/

/-- Model only: the caller of stream_writer.rs 506–518. Writer calls; if none of them failed `m`; and, if it did not fail, further writer calls (for `m = serialize v` this is `serOps`) -/
def progOps (wpre : List WOp) (m : S Unit) (wpost : List WOp) : T Empty Core SerOut := do
  let pre ← wops wpre
  if pre.any Transfer.callFailed then pure ⟨pre, .none, []⟩
  else do
    match ← (⟨fun c => (m.run c).bind fun (r, c') => .ret (.ok r, c')⟩ : T Empty Core (Except SerErr Unit)) with
    | .error e => pure ⟨pre, some (.error e), []⟩
    | .ok () => do
      let post ← wops wpost
      pure ⟨pre, some (.ok ()), post⟩

/-- Model only. The calls with a new writer -/
def execProg (N : Nat) (st : WSettings) (sink : Sink) (m : T Empty Core SerOut) : Except WPanic SerOut × Sink :=
  match (m.run (Core.new st)).run.run (BufSink.new N sink) with
  | .ok (.ok r, _) k => (.ok r, k.sink)
  | .ok (.error e, _) _ => nomatch e
  | .err p k => (.error p, k.sink)

/-- Writer calls; if none of them failed `serialize_value` (stream_writer.rs 505–518) for an arbitrary implementation of `Serialize`; and, if it did not fail, further
writer calls -/
def execImpl (N : Nat) (st : WSettings) (sink : Sink) (wpre : List WOp) (i : Impl) (wpost : List WOp) : Except WPanic SerOut × Sink :=
  execProg N st sink (progOps wpre (serializeI i) wpost)

/-- Model only. As `progOps`, but the caller continues whatever the results are -/
def progOpsAll (wpre : List WOp) (m : S Unit) (wpost : List WOp) : T Empty Core SerOut := do
  let pre ← wopsAll wpre
  let r ← (⟨fun c => (m.run c).bind fun (r, c') => .ret (.ok r, c')⟩ : T Empty Core (Except SerErr Unit))
  let post ← wopsAll wpost
  pure ⟨pre, some r, post⟩

/-- Model only. As `execImpl`, but the caller continues whatever the results are -/
def execImplAll (N : Nat) (st : WSettings) (sink : Sink) (wpre : List WOp) (i : Impl) (wpost : List WOp) : Except WPanic SerOut × Sink :=
  execProg N st sink (progOpsAll wpre (serializeI i) wpost)

end Verif.Ser
