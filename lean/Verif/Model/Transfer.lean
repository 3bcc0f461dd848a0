import Verif.Model.Run
import Verif.Model.Writer
/-!
# Model of `transfer_to`, src/reader/stream_reader.rs 2248–2337

`transfer_to` is generic in the writer; the model is about a `JsonStreamWriter` (`Verif.Model.Writer`). The state are the fields of the reader and those of the
writer.
-/

namespace Verif.Transfer
open Reader Writer

/-- reader/mod.rs 637–646: `TransferError`. A panic of the reader is the error `reader (.panic p)`, see `RErr`; a panic of the writer is a panic of `T`. -/
inductive TErr where
  | reader (e : RErr)
  | writer (e : WErr)
deriving Repr, DecidableEq

section
variable {σ : Type} [ByteSource σ] {α : Type}

/-- Model only: code which uses a reader and a writer -/
abbrev X (σ : Type) := T TErr (RState σ × Core)

/-- stream_reader.rs 2248–2335: method of the reader (`self`), errors are converted to `TransferError::ReaderError` -/
def onReader (m : R σ α) : X σ α := ⟨fun (s, c) => match m.run s with
  | .ok a s' => .ret (.ok a, (s', c))
  | .err e s' => .ret (.error (.reader e), (s', c))⟩

/-- stream_reader.rs 2248–2335: method of the writer, errors are converted to `TransferError::WriterError` -/
def onWriter (m : W α) : X σ α := ⟨fun (s, c) => (m.run c).bind fun
  | (.ok a, c') => .ret (.ok a, (s, c'))
  | (.error e, c') => .ret (.error (.writer e), (s, c'))⟩

/-- stream_reader.rs 2286: size of `buf` -/
def transferBufSize : Nat := 64

/-- stream_reader.rs 2288–2302: reads characters of the string while there is enough space in `buf`; `out` is the filled part of `buf` (its length is `read_count`).
The result are `reached_end` and the filled part. Each iteration adds at least one byte or ends the loop, so `transferBufSize` is sufficient fuel. -/
def transferFill : Nat → Bytes → R σ (Bool × Bytes)
  | 0, _ => M.fail .outOfFuel
  | fuel + 1, out =>
    if transferBufSize - out.length ≥ Utf8.maxBytesPerChar then do
      let (reachedEnd, bytes) ← readStringBytes
      if transferBufSize < out.length + bytes.length then internalPanic .index
      else if reachedEnd then pure (true, out ++ bytes)
      else transferFill fuel (out ++ bytes)
    else pure (false, out)

/-- stream_reader.rs 2288–2306: one iteration of the loop reading the string, except for the call of `write_str` -/
def transferPiece : R σ (Bool × Text) := do
  let (reachedEnd, bytes) ← transferFill transferBufSize []
  match Utf8.toStrUnchecked bytes with
  | some t => pure (reachedEnd, t)
  | none => internalPanic .invalidUtf8

/-- stream_reader.rs 2287–2311: the loop reading the string -/
def transferStringLoop : Nat → X σ Unit
  | 0 => onReader (M.fail .outOfFuel)
  | fuel + 1 => do
    let (reachedEnd, t) ← onReader transferPiece
    onWriter (svWriteStr t)
    if reachedEnd then pure () else transferStringLoop fuel

/-- stream_reader.rs 2281–2314: transfer of a string -/
def transferString : X σ Unit := do
  let _ ← onReader (startExpectedValueType .string false)
  onWriter stringValueWriter
  let (s, _) ← T.get
  transferStringLoop (fuel s)
  onWriter svFinishValue
  onReader onValueEnd

/-- stream_reader.rs 2270–2328: transfer of a value, except that for an array or object only the start is transferred; returns the change of `depth` -/
def transferStart : X σ Nat := do
  match ← onReader peek with
  | .array => do
    onReader beginArray
    onWriter Writer.beginArray
    pure 1
  | .object => do
    onReader beginObject
    onWriter Writer.beginObject
    pure 1
  | .string => do
    transferString
    pure 0
  | .number => do
    let number ← onReader nextNumberAsStr
    onWriter (numberValue (.transferred number))
    pure 0
  | .boolean => do
    let b ← onReader nextBool
    onWriter (boolValue b)
    pure 0
  | .null => do
    onReader nextNull
    onWriter nullValue
    pure 0

/-- stream_reader.rs 2256–2262: end the current array or object -/
def transferEnd : X σ Unit := do
  let (s, _) ← T.get
  if isInArray s then do
    onReader endArray
    onWriter Writer.endArray
  else do
    onReader endObject
    onWriter Writer.endObject

/-- stream_reader.rs 2265–2268: transfer of the name of a member, if expected -/
def transferName : X σ Unit := do
  let (s, _) ← T.get
  if s.expectsMemberName then do
    let name ← onReader nextName
    onWriter (Writer.name name)
  else pure ()

/-- stream_reader.rs 2254–2334: the loop of `transfer_to` -/
def transferLoop : Nat → Nat → X σ Unit
  | 0, _ => onReader (M.fail .outOfFuel)
  | fuel + 1, depth => do
    let atEnd ← onReader (atContainerEnd depth)
    let depth ← (if atEnd then do
      transferEnd
      pure (depth - 1)
    else do
      transferName
      let d ← transferStart
      pure (depth + d))
    if depth == 0 then pure () else transferLoop fuel depth

/-- stream_reader.rs 2248–2337: `transfer_to` -/
def transferTo : X σ Unit := do
  let (s, _) ← T.get
  if s.expectsMemberName then onReader (usagePanic .valueWhenExpectingName)
  else transferLoop (fuel s) 0

end

/-! ## A program which uses `transfer_to` -/

/-- Model only: state of a reader after method calls, `none` if it must not be used any further, see `runOps` -/
def stateAfter {σ : Type} [ByteSource σ] : List Op → RState σ → Option (RState σ)
  | [], s => some s
  | op :: ops, s => match (runOp op).run s with
    | .ok _ s' => if op = .consumeTrailingWhitespace then none else stateAfter ops s'
    | .err e s' => if e.fatal || op = .consumeTrailingWhitespace then none else stateAfter ops s'

/-- Model only. Results of the writer calls in front of `transfer_to`, of `transfer_to` (`none`: not called), and of the writer calls afterwards, and the reader afterwards -/
structure TOut (σ : Type) where
  pre : List (Except WErr WOut)
  transfer : Option (Except TErr Unit)
  post : List (Except WErr WOut)
  reader : RState σ

/-- Model only: a call failed: IO error, or an error for a string value written in pieces (after both of them the writer must not be used any further). The writer may be used
after a number was rejected. -/
def callFailed : Except WErr WOut → Bool
  | .error e => e.isIo
  | .ok .unit => false
  | .ok (.string rs finish) => rs.any (fun r => match r with | .error _ => true | .ok _ => false) || (match finish with | some (.error _) => true | _ => false)

/-- Model only: `transfer_to`, its result and the reader afterwards -/
def transferCall {σ : Type} [ByteSource σ] (s : RState σ) : T Empty Core (Except TErr Unit × RState σ) :=
  ⟨fun c => (transferTo.run (s, c)).bind fun (r, (s', c')) => .ret (.ok (r, s'), c')⟩

/-- Model only. Writer calls; if none of them failed `transfer_to`; and, if it did not fail, further writer calls -/
def transferOps {σ : Type} [ByteSource σ] (wpre wpost : List WOp) (s : RState σ) : T Empty Core (TOut σ) := do
  let pre ← wops wpre
  if pre.any callFailed then pure ⟨pre, none, [], s⟩
  else do
    let (r, s') ← transferCall s
    match r with
    | .error e => pure ⟨pre, some (.error e), [], s'⟩
    | .ok () => do
      let post ← wops wpost
      pure ⟨pre, some (.ok ()), post, s'⟩

/-- Model only. Results of `runTransfer`; `reader`: the results of the reader calls after `transfer_to` -/
structure TransferRun where
  pre : List (Except WErr WOut)
  transfer : Option (Except TErr Unit)
  post : List (Except WErr WOut)
  reader : List (Except RErr Out)

/-- Model only: the reader must not be used any further, see `RErr.fatal` -/
def stopsReader : Option (Except TErr Unit) → Bool
  | some (.error (.reader e)) => e.fatal
  | _ => false

/-- Model only. A new reader with buffer size `N` and a new writer with buffer size `M`, calls of both of them, then `transfer_to`, then again calls of both. The result is
`none` if the reader calls in front of `transfer_to` fail. Otherwise it is the panic of the writer or the results of the calls, and the underlying `Write`. -/
def runTransfer (N : Nat) (st : Settings) (sched : List ReadEvent) (pre post : List Op) (M : Nat) (wst : WSettings) (sink : Sink) (wpre wpost : List WOp) :
    Option (Except WPanic TransferRun × Sink) :=
  match stateAfter pre (new (BufSrc.new N sched) st) with
  | none => none
  | some s => match ((transferOps wpre wpost s).run (Core.new wst)).run.run (BufSink.new M sink) with
    | .ok (.ok t, _) k => some (.ok ⟨t.pre, t.transfer, t.post, if stopsReader t.transfer then [] else runOps post t.reader⟩, k.sink)
    | .ok (.error e, _) _ => nomatch e
    | .err p k => some (.error p, k.sink)

/-! ## A program which continues after errors -/

/-- Model only. A call of a method of the reader. `transfer`: `transfer_to` with a writer in an arbitrary state (so whatever happened before with this writer) -/
inductive RCall where
  | op (op : Op)
  | transfer (writer : Core) (write : BufSink)

/-- Model only. Result of a call; `writerPanic`: a method of the writer panicked -/
inductive RCallResult where
  | op (r : Except RErr Out)
  | transfer (r : Except TErr Unit)
  | writerPanic (p : WPanic)
deriving Repr, DecidableEq

/-- Model only: the error of the reader, if any -/
def RCallResult.readerError : RCallResult → Option RErr
  | .op (.error e) => some e
  | .transfer (.error (.reader e)) => some e
  | _ => none

/-- Model only. The reader cannot be used any further, because of a panic or because `consume_trailing_whitespace` consumed it -/
def RCallResult.ends (r : RCallResult) (c : RCall) : Bool :=
  match r, c with
  | .writerPanic _, _ => true
  | _, .op .consumeTrailingWhitespace => true
  | r, _ => match r.readerError with
    | some e => e.isPanic
    | none => false

/-- Model only: a call, and the reader afterwards -/
def runCall {σ : Type} [ByteSource σ] (c : RCall) (s : RState σ) : RCallResult × RState σ :=
  match c with
  | .op op => match (runOp op).run s with
    | .ok o s' => (.op (.ok o), s')
    | .err e s' => (.op (.error e), s')
  | .transfer core k => match (transferTo.run (s, core)).run.run k with
    | .ok (r, s', _) _ => (.transfer r, s')
    | .err p _ => (.writerPanic p, s)

/-- Results of calls by a caller who ignores the documentation (reader/mod.rs 724–727) and continues using the reader also after syntax and IO
errors -/
def runAll {σ : Type} [ByteSource σ] : List RCall → RState σ → List RCallResult
  | [], _ => []
  | c :: cs, s =>
    let (r, s') := runCall c s
    r :: if r.ends c then [] else runAll cs s'

/-- stream_reader.rs 384–410: `JsonStreamReader::new_custom` with a `Read` which behaves as described by the schedule, then calls, continuing after errors;
`dbg`: whether debug assertions are enabled -/
def runReaderAll (dbg : Bool) (N : Nat) (settings : Settings) (sched : List ReadEvent) (calls : List RCall) : List RCallResult :=
  runAll calls (new (BufSrc.newD N dbg sched) settings)

end Verif.Transfer
