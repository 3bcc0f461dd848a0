import Verif.Prelude
import Verif.Spec.Utf8
/-!
# Model of the low level byte writing of `JsonStreamWriter`, and the computation monad of the writer model

The code of the writer uses the underlying `Write` only through the two methods `write_bytes` and `flush`. In the model these are the effects of the
monad `T`: a modelled method is a function from the state to a `Tree`, which either is finished, or calls `write_bytes` or `flush` and continues
depending on the result of that call. `Tree.run` executes the effects with the model of the two methods (`writeBytes`, `flush`), which write to the buffer
of `JsonStreamWriter` and to a `Sink` (the underlying `Write`).
-/

namespace Verif.Writer

/-- stream_writer.rs 205–551. Panics which are caused by incorrect usage: all the `panic!("Incorrect writer usage: ..")` of stream_writer.rs, and the `panic!("Incorrect usage: ..")` of
`SerializeMap`, serde/ser.rs -/
inductive WUsage where
  | valueStringWriterActive      -- 252
  | valueWhenNameExpected        -- 255
  | multipleTopLevel             -- 261
  | nameNotExpected              -- 409
  | nameStringWriterActive       -- 412
  | endObjectNotInObject         -- 428
  | endObjectStringWriterActive  -- 431
  | endObjectValueExpected       -- 434
  | endArrayNotInArray           -- 453
  | endArrayStringWriterActive   -- 456
  | finishStringWriterActive     -- 522
  | finishNameExpected           -- 525
  | finishNothingWritten         -- 529
  | finishNotFinished            -- 532
  | keyWhenValueExpected         -- ser.rs 724
  | valueWhenKeyExpected         -- ser.rs 745
  | endMapWhenValueExpected      -- ser.rs 753
deriving Repr, DecidableEq

/-- stream_writer.rs. Panics which indicate a bug of the library itself -/
inductive WInternal where
  | debugAssert   -- failing `debug_assert!`
  | index         -- slice index out of range, arithmetic underflow
  | unreachable   -- `unreachable!`
  | outOfFuel     -- model only: a loop does not end
deriving Repr, DecidableEq

/-- Model only: all panics -/
inductive WPanic where
  | usage (p : WUsage)
  | internal (p : WInternal)
deriving Repr, DecidableEq

/-- Errors returned by the writer: `std::io::Error` and `JsonNumberError` (writer/mod.rs 709–718).
`io`: error of the underlying `Write`, with an opaque code. `writeZero`: `Write::write` returned `Ok(0)`.
`invalidUtf8`, `incompleteUtf8`: `ErrorKind::InvalidData` of the string value writer. `previous`: a previous error of the string value writer. -/
inductive WErr where
  | io (code : Nat)
  | writeZero
  | invalidUtf8
  | incompleteUtf8
  | previous (e : WErr)
  | invalidNumber
deriving Repr, DecidableEq

/-- Model only: error of the underlying `Write` -/
def WErr.isIo : WErr → Bool
  | .io _ => true
  | .writeZero => true
  | _ => false

/-! ## The underlying `Write` -/

/-- Model only. Result of one `Write::write` call: `accept n` writes at most `n` of the given bytes, and returns how many were written -/
inductive WriteEvent where
  | accept (n : Nat)
  | interrupted
  | error (code : Nat)
deriving Repr, DecidableEq

/-- Model only, the field `writer`, stream_writer.rs 132. The underlying `Write`: the bytes it has received, and the results of the next calls. When there are no more events, then everything is accepted.
Since the events are arbitrary, this covers every (also stateful) behavior which follows the contract of `Write`. -/
structure Sink where
  received : Bytes
  writes : List WriteEvent
  flushes : List (Option Nat)
deriving Repr, DecidableEq

/-- Standard library, used at stream_writer.rs 187 and 197: `std::io::Write::write_all`: calls `write` until all is written; retries on `ErrorKind::Interrupted`, fails with `ErrorKind::WriteZero` if nothing
is written. The recursion is on the events. -/
def writeAll (data : Bytes) (received : Bytes) : List WriteEvent → Except WErr Unit × Bytes × List WriteEvent
  | [] => (.ok (), received ++ data, [])
  | e :: es =>
    if data.isEmpty then (.ok (), received, e :: es)
    else match e with
      | .interrupted => writeAll data received es
      | .error c => (.error (.io c), received, es)
      | .accept n =>
        if n = 0 then (.error .writeZero, received, es)
        else writeAll (data.drop n) (received ++ data.take n) es

/-- Standard library: `write_all`, see `writeAll` -/
def Sink.writeAll (data : Bytes) (s : Sink) : Except WErr Unit × Sink :=
  let (r, received, es) := Writer.writeAll data s.received s.writes
  (r, { s with received := received, writes := es })

/-- Standard library, used at stream_writer.rs 199: `std::io::Write::flush` -/
def Sink.flush (s : Sink) : Except WErr Unit × Sink := match s.flushes with
  | [] => (.ok (), s)
  | none :: es => (.ok (), { s with flushes := es })
  | some c :: es => (.error (.io c), { s with flushes := es })

/-! ## The buffer of `JsonStreamWriter` -/

/-- The fields `writer`, `buf` and `buf_write_pos` of `JsonStreamWriter`, stream_writer.rs 131–137. The size of the buffer (`WRITER_BUF_SIZE` = 1024,
stream_writer.rs 118) is the length of `buf`. -/
structure BufSink where
  sink : Sink
  buf : Bytes
  pos : Nat
deriving Repr, DecidableEq

/-- `new_custom`, stream_writer.rs 160–173 -/
def BufSink.new (N : Nat) (sink : Sink) : BufSink := ⟨sink, List.replicate N 0, 0⟩

/-- Standard library: overwrite the part of `buf` starting at `pos`: `buf[pos..(pos + bs.len())].copy_from_slice(bs)`; the callers ensure that there is enough space -/
def overwrite (buf : Bytes) (pos : Nat) (bs : Bytes) : Bytes := buf.take pos ++ bs ++ buf.drop (pos + bs.length)

/-- stream_writer.rs 176–200: Failure of `write_bytes` or `flush` -/
inductive SinkErr where
  | err (e : WErr)
  | panic (p : WPanic)
deriving Repr, DecidableEq

/-- stream_writer.rs 187 and 197: `writer.write_all(..)?` -/
def sinkWriteAll (data : Bytes) : M SinkErr BufSink Unit := ⟨fun k =>
  match k.sink.writeAll data with
  | (.ok (), s) => .ok () { k with sink := s }
  | (.error e, s) => .err (.err e) { k with sink := s }⟩

/-- stream_writer.rs 199: `writer.flush()` -/
def sinkFlush : M SinkErr BufSink Unit := ⟨fun k =>
  match k.sink.flush with
  | (.ok (), s) => .ok () { k with sink := s }
  | (.error e, s) => .err (.err e) { k with sink := s }⟩

/-- stream_writer.rs 178–190: the loop of `write_bytes`; `bytes` are the bytes from `pos` on. The number of iterations is limited by `fuel`; that it is
sufficient is proven. -/
def writeBytesLoop : Nat → Bytes → M SinkErr BufSink Unit
  | 0, _ => M.fail (.panic (.internal .outOfFuel))
  | fuel + 1, bytes => do
    if bytes.isEmpty then pure ()
    else do
      let k ← M.get
      let copied := min (k.buf.length - k.pos) bytes.length
      M.modify fun k => { k with buf := overwrite k.buf k.pos (bytes.take copied), pos := k.pos + copied }
      let k ← M.get
      if k.buf.length ≤ k.pos then do
        sinkWriteAll k.buf
        M.modify fun k => { k with pos := 0 }
        writeBytesLoop fuel (bytes.drop copied)
      else writeBytesLoop fuel (bytes.drop copied)

/-- stream_writer.rs 176–193: `write_bytes`. In every iteration at least one byte is copied, except for the first one if the buffer is full. -/
def writeBytes (bytes : Bytes) : M SinkErr BufSink Unit := writeBytesLoop (bytes.length + 2) bytes

/-- stream_writer.rs 195–200: `flush` -/
def flush : M SinkErr BufSink Unit := do
  let k ← M.get
  sinkWriteAll (k.buf.take k.pos)
  M.modify fun k => { k with pos := 0 }
  sinkFlush

/-! ## Computations which use the two methods -/

/-- Model only. A computation which is finished, panics, or calls `write_bytes` or `flush` and continues with their result -/
inductive Tree (β : Type) where
  | ret (b : β)
  | panic (p : WPanic)
  | emit (bs : Bytes) (k : Except WErr Unit → Tree β)
  | flush (k : Except WErr Unit → Tree β)

/-- Model only: sequential composition -/
protected def Tree.bind {α β : Type} : Tree α → (α → Tree β) → Tree β
  | .ret a, f => f a
  | .panic p, _ => .panic p
  | .emit bs k, f => .emit bs fun r => (k r).bind f
  | .flush k, f => .flush fun r => (k r).bind f

/-- Model only. Execution with the model of `write_bytes` and `flush` -/
def Tree.run {β : Type} : Tree β → M WPanic BufSink β
  | .ret b => pure b
  | .panic p => M.fail p
  | .emit bs k => ⟨fun s => match (writeBytes bs).run s with
    | .ok () s' => (k (.ok ())).run.run s'
    | .err (.err e) s' => (k (.error e)).run.run s'
    | .err (.panic p) s' => .err p s'⟩
  | .flush k => ⟨fun s => match Writer.flush.run s with
    | .ok () s' => (k (.ok ())).run.run s'
    | .err (.err e) s' => (k (.error e)).run.run s'
    | .err (.panic p) s' => .err p s'⟩

/-- Model only. The monad of the writer model: a Rust method `fn f(&mut self, ..) -> Result<T, E>`, where `σ` is the state of the writer without the fields of `BufSink` -/
structure T (ε σ α : Type) where
  run : σ → Tree (Except ε α × σ)

namespace T
variable {ε σ α β : Type}

/-- Model only: `Ok(a)` -/
protected def pure (a : α) : T ε σ α := ⟨fun s => .ret (.ok a, s)⟩

/-- Model only. The operator `?`: errors are returned to the caller -/
protected def bind (m : T ε σ α) (f : α → T ε σ β) : T ε σ β := ⟨fun s => (m.run s).bind fun
  | (.ok a, s') => (f a).run s'
  | (.error e, s') => .ret (.error e, s')⟩

/-- Model only: `Ok` and `?` as monad -/
instance : Monad (T ε σ) where
  pure := T.pure
  bind := T.bind

/-- Model only: access to the fields -/
def get : T ε σ σ := ⟨fun s => .ret (.ok s, s)⟩
/-- Model only: assignment to the fields -/
def modify (f : σ → σ) : T ε σ Unit := ⟨fun s => .ret (.ok (), f s)⟩
/-- Model only: `Err(e)` -/
def fail (e : ε) : T ε σ α := ⟨fun s => .ret (.error e, s)⟩
/-- Model only: `panic!` -/
def panic (p : WPanic) : T ε σ α := ⟨fun _ => .panic p⟩
/-- `panic!("Incorrect writer usage: ..")`, see `WUsage` -/
def usage (p : WUsage) : T ε σ α := panic (.usage p)
/-- other panics, see `WInternal` -/
def internal (p : WInternal) : T ε σ α := panic (.internal p)
/-- Model only: the result of a method as value, without returning errors to the caller -/
def attempt (m : T ε σ α) : T ε σ (Except ε α) := ⟨fun s => (m.run s).bind fun (r, s') => .ret (.ok r, s')⟩
/-- stream_writer.rs 176–193: `write_bytes` -/
def writeBytes (bs : Bytes) : T WErr σ Unit := ⟨fun s => .emit bs fun r => .ret (r, s)⟩
/-- stream_writer.rs 195–200: `flush` -/
def flush : T WErr σ Unit := ⟨fun s => .flush fun r => .ret (r, s)⟩

end T

end Verif.Writer
