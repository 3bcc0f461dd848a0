import Verif.Prelude
import Verif.Model.Utf8
/-!
# Model of the low level byte access of `JsonStreamReader`

The reader model (`Verif.Model.Reader`) is written once, generic over the byte access operations below
(class `ByteSource`). There are two instances:

* `BufSrc N`: the code as it is in `stream_reader.rs`, with the internal buffer `buf` of `N` bytes
  (`READER_BUF_SIZE` = 1024, stream_reader.rs 72), `fill_buffer`, `value_bytes_buf` and `BytesValueReader`,
  reading from a schedule of `Read::read` results.
* `AbsSrc`: the plain list of bytes which are still to come. This instance is the reference for the proofs;
  `Verif.Proofs.Bisim` shows that the reader behaves the same for both.
-/

namespace Verif

/-- stream_reader.rs. Panics which are caused by incorrect usage; these are all the `panic!("Incorrect reader usage: ..")`
of stream_reader.rs, in the order of their occurrence in the file. -/
inductive UsagePanic where
  | peekStringReaderActive      -- 738
  | peekAfterTopLevel           -- 746
  | valueWhenExpectingName      -- 927, 1936, 2111, 2250: value operation when expecting member name
  | nameNotExpected             -- 1766
  | nameStringReaderActive      -- 1769
  | endArrayNotInArray          -- 1956
  | endObjectNotInObject        -- 2021
  | endObjectExpectsValue       -- 2024
  | hasNextExpectsValue         -- 2061
  | hasNextTopLevelNotStarted   -- 2067
  | hasNextMultiDisabled        -- 2069
  | skipTopStringReaderActive   -- 2219
  | trailingStringReaderActive  -- 2341
  | trailingNotConsumed         -- 2345
  | trailingNotFullyConsumed    -- 2348
deriving Repr, DecidableEq

/-- stream_reader.rs. Panics which indicate a bug of the library itself -/
inductive InternalPanic where
  | debugAssert      -- failing `debug_assert!`
  | index            -- slice/array index out of range, arithmetic underflow
  | bufHoldsValue    -- fill_buffer, stream_reader.rs 477
  | notBorrowed      -- get_str_peek, stream_reader.rs 1305
  | invalidUtf8      -- utf8::to_str_unchecked / to_string_unchecked
  | unwrapNone       -- `unwrap()` of `None`
  | unreachable      -- `unreachable!`
  | noValueReader    -- model only: `BytesValueReader` operation without active value reader (excluded by Rust's types)
deriving Repr, DecidableEq

/-- Model only: all panics -/
inductive Panic where
  | usage (p : UsagePanic)
  | internal (p : InternalPanic)
deriving Repr, DecidableEq

/-- stream_reader.rs 473–513. Failure of a byte access operation: error of the underlying `Read` (with an opaque code) or a panic -/
inductive SrcErr where
  | io (code : Nat)
  | panic (p : Panic)
deriving Repr, DecidableEq

/-- The byte access operations used by the reader, see the `BufSrc` instance for the Rust functions.
The Rust code passes a `BytesValue` (stream_reader.rs 1218–1223) from `get_bytes` to `get_string`, `get_str_peek` and
`get_str`. There is never more than one alive; the model keeps it in the source (`BufSrc.val`). -/
class ByteSource (σ : Type) where
  /-- stream_reader.rs 515: `peek_byte` -/
  peekByte : M SrcErr σ (Option UInt8)
  /-- stream_reader.rs 524: `skip_peeked_byte` -/
  skipPeekedByte : M SrcErr σ Unit
  /-- stream_reader.rs 1321: `BytesValueReader::new` -/
  vNew : M SrcErr σ Unit
  /-- stream_reader.rs 1350: `BytesValueReader::peek_byte_optional(None)` -/
  vPeek : M SrcErr σ (Option UInt8)
  /-- stream_reader.rs 1419: `BytesValueReader::consume_peeked_byte` -/
  vConsume : M SrcErr σ Unit
  /-- stream_reader.rs 1424: `BytesValueReader::skip_previous_byte` -/
  vSkipPrevious : M SrcErr σ Unit
  /-- stream_reader.rs 1451: `BytesValueReader::skip_final_byte` -/
  vSkipFinal : M SrcErr σ Unit
  /-- stream_reader.rs 1460: `BytesValueReader::push_bytes` -/
  vPush : Bytes → M SrcErr σ Unit
  /-- stream_reader.rs 1480: `BytesValueReader::get_bytes`; the `BytesValueReader` is dropped afterwards -/
  vGet : Bool → M SrcErr σ Unit
  /-- stream_reader.rs 1282: `BytesValue::get_string` -/
  getString : M SrcErr σ Text
  /-- stream_reader.rs 1295: `BytesValue::get_str_peek` -/
  getStrPeek : M SrcErr σ Text
  /-- stream_reader.rs 1313: `BytesValue::get_str` -/
  getStr : M SrcErr σ Text
  /-- model only: number of bytes still to come, used as fuel -/
  remaining : σ → Nat

/-! ## The concrete source -/

/-- Used at stream_reader.rs 482–489. One result of calling `Read::read` on the underlying reader. `data bs`: `bs` is returned, in several pieces if
the provided buffer is too small; `data []` is `Ok(0)`, i.e. the end of the input. -/
inductive ReadEvent where
  | data (bs : Bytes)
  | interrupted
  | error (code : Nat)
deriving Repr, DecidableEq

/-- stream_reader.rs 1201–1216: fields of `BytesValueReader` (without `json_reader`) -/
structure VReader where
  isUsingBytesBuf : Bool
  bufValueStart : Nat
  skipFinalByte : Bool
deriving Repr, DecidableEq

/-- stream_reader.rs 1218–1258: `BytesValue` and `BytesRefProvider` -/
inductive BytesValue where
  | readerBuf (start stop : Nat)
  | bytesValueBuf
  | vec (bs : Bytes)
deriving Repr, DecidableEq

/-- stream_reader.rs 123–138: the fields of `JsonStreamReader` for byte access (`reader`, `buf`, `buf_pos`, `buf_end_pos`,
`buf_used_for_bytes_value`, `reached_eof`, `value_bytes_buf`), the currently active `BytesValueReader` and the currently alive `BytesValue`, if any.
`dbg`: whether debug assertions are enabled. The only one which matters is the one in `get_bytes` (see `vGet`): all others are kept in
the model for `dbg = false` as well (stricter than the code) and are shown to never fail. -/
structure BufSrcD (N : Nat) (dbg : Bool) where
  sched : List ReadEvent
  buf : Bytes
  bufPos : Nat
  bufEndPos : Nat
  bufUsed : Bool
  reachedEof : Bool
  valueBuf : Bytes
  v : Option VReader
  val : Option BytesValue
deriving Repr, DecidableEq

/-- Model only: with debug assertions -/
abbrev BufSrc (N : Nat) := BufSrcD N true

namespace BufSrc

/-- stream_reader.rs 384–395: initial state -/
def newD (N : Nat) (dbg : Bool) (sched : List ReadEvent) : BufSrcD N dbg :=
  { sched, buf := List.replicate N 0, bufPos := 0, bufEndPos := 0, bufUsed := false, reachedEof := false, valueBuf := [], v := none, val := none }

/-- stream_reader.rs 384–410: with debug assertions -/
abbrev new (N : Nat) (sched : List ReadEvent) : BufSrc N := newD N true sched

variable {N : Nat} {dbg : Bool}

/-- Model only: `panic!` -/
def panic {α : Type} (p : InternalPanic) : M SrcErr (BufSrcD N dbg) α := M.fail (.panic (.internal p))

/-- Standard library: `&bytes[start..stop]`; `none` models the panic -/
def slice? (bs : Bytes) (start stop : Nat) : Option Bytes :=
  if start ≤ stop ∧ stop ≤ bs.length then some ((bs.take stop).drop start) else none

/-- Standard library: `&bytes[start..stop]` -/
def slice (bs : Bytes) (start stop : Nat) : M SrcErr (BufSrcD N dbg) Bytes :=
  match slice? bs start stop with
  | some r => pure r
  | none => panic .index

/-- Standard library: `bytes[i]` -/
def index (bs : Bytes) (i : Nat) : M SrcErr (BufSrcD N dbg) UInt8 :=
  match bs[i]? with
  | some b => pure b
  | none => panic .index

/-- stream_reader.rs 482–489: the loop around `self.reader.read(..)`; retries when interrupted -/
def readLoop (space : Nat) : List ReadEvent → Except Nat Bytes × List ReadEvent
  | [] => (.ok [], [])
  | .interrupted :: es => readLoop space es
  | .error c :: es => (.error c, es)
  | .data bs :: es => if bs.length ≤ space then (.ok bs, es) else (.ok (bs.take space), .data (bs.drop space) :: es)

/-- stream_reader.rs 469–498: `fill_buffer` -/
def fillBuffer (startPos : Nat) : M SrcErr (BufSrcD N dbg) Bool := do
  let s ← M.get
  if s.reachedEof then pure false
  else if !(s.bufPos ≥ s.bufEndPos) then panic .debugAssert
  else if !(startPos < s.buf.length) then panic .debugAssert
  else if s.bufUsed then panic .bufHoldsValue
  else
    match readLoop (s.buf.length - startPos) s.sched with
    | (.error c, es) => do
      M.set { s with bufPos := startPos, sched := es }
      M.fail (.io c)
    | (.ok data, es) => do
      M.set { s with
        bufPos := startPos
        sched := es
        buf := s.buf.take startPos ++ data ++ s.buf.drop (startPos + data.length)
        bufEndPos := startPos + data.length
        reachedEof := data.length == 0 }
      pure (data.length != 0)

/-- stream_reader.rs 505–510: `ensure_non_empty_buffer` -/
def ensureNonEmptyBuffer : M SrcErr (BufSrcD N dbg) Bool := do
  let s ← M.get
  if s.bufPos < s.bufEndPos then pure true else fillBuffer 0

/-- stream_reader.rs 515–521: `peek_byte` -/
def peekByte : M SrcErr (BufSrcD N dbg) (Option UInt8) := do
  if ← ensureNonEmptyBuffer then do
    let s ← M.get
    let b ← index s.buf s.bufPos
    pure (some b)
  else pure none

/-- stream_reader.rs 524–527: `skip_peeked_byte` -/
def skipPeekedByte : M SrcErr (BufSrcD N dbg) Unit := do
  let s ← M.get
  if !(s.bufPos < s.bufEndPos) then panic .debugAssert
  else M.set { s with bufPos := s.bufPos + 1 }

/-- stream_reader.rs 1321–1343: `BytesValueReader::new`. `shrink_to` only affects the capacity and is omitted. -/
def vNew : M SrcErr (BufSrcD N dbg) Unit := do
  let s ← M.get
  let vr : VReader := { isUsingBytesBuf := false, bufValueStart := 0, skipFinalByte := false }
  if s.bufPos > 0 then do
    -- `copy_within(old_buf_start..old_buf_end, 0)`
    let moved ← slice s.buf s.bufPos s.bufEndPos
    M.set { s with
      buf := moved ++ s.buf.drop moved.length
      bufPos := 0
      bufEndPos := s.bufEndPos - s.bufPos
      valueBuf := []
      v := some vr }
  else M.set { s with valueBuf := [], v := some vr }

/-- Model only: access to the active `BytesValueReader` -/
def vState : M SrcErr (BufSrcD N dbg) VReader := do
  let s ← M.get
  match s.v with
  | some v => pure v
  | none => panic .noValueReader

/-- stream_reader.rs 1369–1376: save the bytes of the value in `value_bytes_buf` before the buffer is refilled -/
def vSave (v : VReader) (s : BufSrcD N dbg) : M SrcErr (BufSrcD N dbg) Unit :=
  if v.bufValueStart < s.bufEndPos then do
    let bytes ← slice s.buf v.bufValueStart s.bufEndPos
    M.set { s with
      valueBuf := s.valueBuf ++ bytes
      v := some { v with isUsingBytesBuf := true, bufValueStart := 0 } }
  else
    M.set { s with v := some { v with bufValueStart := 0 } }

/-- stream_reader.rs 1350–1403: `peek_byte_optional(None)`. The callers passing `Some(eof_error_kind)` turn the result
`None` into an error, see `Verif.Reader.vReadByte`. -/
def vPeek : M SrcErr (BufSrcD N dbg) (Option UInt8) := do
  let v ← vState
  let s ← M.get
  if v.skipFinalByte then panic .debugAssert
  else if s.bufPos < s.bufEndPos then do
    let b ← index s.buf s.bufPos
    pure (some b)
  else if v.isUsingBytesBuf || s.bufPos ≥ s.buf.length then do
    vSave v s
    if ← fillBuffer 0 then do
      let s ← M.get
      let b ← index s.buf 0
      pure (some b)
    else pure none
  else do
    if ← fillBuffer s.bufEndPos then do
      let s' ← M.get
      let b ← index s'.buf s.bufEndPos
      pure (some b)
    else pure none

/-- stream_reader.rs 1419–1421: `consume_peeked_byte`. The Rust code has no check here; the model additionally panics
if there is no peeked byte (stricter than the code; shown to be unreachable). -/
def vConsume : M SrcErr (BufSrcD N dbg) Unit := do
  let s ← M.get
  if !(s.bufPos < s.bufEndPos) then panic .debugAssert
  else M.set { s with bufPos := s.bufPos + 1 }

/-- stream_reader.rs 1424–1445: `skip_previous_byte` -/
def vSkipPrevious : M SrcErr (BufSrcD N dbg) Unit := do
  let v ← vState
  let s ← M.get
  if v.skipFinalByte then panic .debugAssert
  else if v.bufValueStart + 1 == s.bufPos then
    M.set { s with v := some { v with bufValueStart := v.bufValueStart + 1 } }
  else if s.bufPos == 0 then panic .index
  else do
    let bytes ← slice s.buf v.bufValueStart (s.bufPos - 1)
    M.set { s with
      valueBuf := s.valueBuf ++ bytes
      v := some { v with isUsingBytesBuf := true, bufValueStart := s.bufPos } }

/-- stream_reader.rs 1451–1453: `skip_final_byte` -/
def vSkipFinal : M SrcErr (BufSrcD N dbg) Unit := do
  let v ← vState
  M.modify fun s => { s with v := some { v with skipFinalByte := true } }

/-- stream_reader.rs 1460–1472: `push_bytes` -/
def vPush (bytes : Bytes) : M SrcErr (BufSrcD N dbg) Unit := do
  let v ← vState
  let s ← M.get
  if v.bufValueStart < s.bufPos then do
    let kept ← slice s.buf v.bufValueStart s.bufPos
    M.set { s with
      valueBuf := s.valueBuf ++ kept ++ bytes
      v := some { v with isUsingBytesBuf := true, bufValueStart := s.bufPos } }
  else
    M.set { s with
      valueBuf := s.valueBuf ++ bytes
      v := some { v with isUsingBytesBuf := true } }

/-- stream_reader.rs 1480–1512: `get_bytes`; sets `v` to `none` because the `BytesValueReader` is not used afterwards -/
def vGet (requiresBorrowed : Bool) : M SrcErr (BufSrcD N dbg) Unit := do
  let v ← vState
  let s ← M.get
  if v.skipFinalByte && s.bufPos == 0 then panic .index
  else
    let endPos := if v.skipFinalByte then s.bufPos - 1 else s.bufPos
    if v.isUsingBytesBuf then do
      let bytes ← slice s.buf v.bufValueStart endPos
      if requiresBorrowed then
        M.set { s with valueBuf := s.valueBuf ++ bytes, v := none, val := some .bytesValueBuf }
      else
        M.set { s with valueBuf := [], v := none, val := some (.vec (s.valueBuf ++ bytes)) }
    else if dbg && s.bufUsed then panic .debugAssert
    else M.set { s with bufUsed := true, v := none, val := some (.readerBuf v.bufValueStart endPos) }

/-- utf8.rs 98–111: `to_str_unchecked` and `to_string_unchecked` -/
def toStr (bs : Bytes) : M SrcErr (BufSrcD N dbg) Text :=
  match Utf8.toStrUnchecked bs with
  | some t => pure t
  | none => panic .invalidUtf8

/-- stream_reader.rs 1295–1307 and 1262–1275: `get_str_peek`, `BytesRefProvider::get_str`, `get_bytes_ref` -/
def getStrPeek : M SrcErr (BufSrcD N dbg) Text := do
  let s ← M.get
  match s.val with
  | some (.readerBuf start stop) => do
    let bs ← slice s.buf start stop
    toStr bs
  | some .bytesValueBuf => toStr s.valueBuf
  | some (.vec _) => panic .notBorrowed
  | none => panic .noValueReader

/-- stream_reader.rs 1313–1317: `get_str` -/
def getStr : M SrcErr (BufSrcD N dbg) Text := do
  M.modify fun s => { s with bufUsed := false }
  let t ← getStrPeek
  M.modify fun s => { s with val := none }
  pure t

/-- stream_reader.rs 1282–1292: `get_string` -/
def getString : M SrcErr (BufSrcD N dbg) Text := do
  let s ← M.get
  match s.val with
  | some (.vec bs) => do
    M.set { s with val := none }
    toStr bs
  | _ => getStr

/-- Model only. The bytes a schedule delivers before it ends (end of input or error) and the error, if any -/
def schedBytes : List ReadEvent → Bytes
  | [] => []
  | .interrupted :: es => schedBytes es
  | .error _ :: _ => []
  | .data bs :: es => if bs.length == 0 then [] else bs ++ schedBytes es

/-- Model only: the error a schedule ends with, if any, see `schedBytes` -/
def schedError : List ReadEvent → Option Nat
  | [] => none
  | .interrupted :: es => schedError es
  | .error c :: _ => some c
  | .data bs :: es => if bs.length == 0 then none else schedError es

/-- model only: number of bytes still to come (buffered or not yet read), used as fuel for the loops -/
def remaining (s : BufSrcD N dbg) : Nat :=
  (s.bufEndPos - s.bufPos) + if s.reachedEof then 0 else (schedBytes s.sched).length

/-- Model only: the operations for the code as it is -/
instance : ByteSource (BufSrcD N dbg) where
  peekByte := peekByte
  skipPeekedByte := skipPeekedByte
  vNew := vNew
  vPeek := vPeek
  vConsume := vConsume
  vSkipPrevious := vSkipPrevious
  vSkipFinal := vSkipFinal
  vPush := vPush
  vGet := vGet
  getString := getString
  getStrPeek := getStrPeek
  getStr := getStr
  remaining := remaining

end BufSrc

/-! ## The abstract source -/

/-- Model only. The bytes which are still to come, how the input ends (`none`: end of input, `some c`: error `c` of the underlying
`Read`), and the bytes of the value which is currently being collected. -/
structure AbsSrc where
  rest : Bytes
  term : Option Nat
  acc : Bytes
deriving Repr, DecidableEq

namespace AbsSrc

/-- Model only: reference for stream_reader.rs 515 -/
def peekByte : M SrcErr AbsSrc (Option UInt8) := ⟨fun s =>
  match s.rest with
  | b :: _ => .ok (some b) s
  | [] => match s.term with
    | none => .ok none s
    | some c => .err (.io c) s⟩

/-- Model only: reference for stream_reader.rs 524 -/
def skipPeekedByte : M SrcErr AbsSrc Unit := ⟨fun s =>
  match s.rest with
  | _ :: t => .ok () { s with rest := t }
  | [] => .err (.panic (.internal .debugAssert)) s⟩

/-- Model only: reference for stream_reader.rs 1419 -/
def vConsume : M SrcErr AbsSrc Unit := ⟨fun s =>
  match s.rest with
  | b :: t => .ok () { s with rest := t, acc := s.acc ++ [b] }
  | [] => .err (.panic (.internal .debugAssert)) s⟩

/-- Model only: reference for stream_reader.rs 1321 -/
def vNew : M SrcErr AbsSrc Unit := M.modify fun s => { s with acc := [] }

/-- Model only: reference for stream_reader.rs 1424 and 1451 -/
def vDropLast : M SrcErr AbsSrc Unit := M.modify fun s => { s with acc := s.acc.dropLast }

/-- Model only: reference for stream_reader.rs 1460 -/
def vPush (bs : Bytes) : M SrcErr AbsSrc Unit := M.modify fun s => { s with acc := s.acc ++ bs }

/-- Model only: reference for stream_reader.rs 1480 -/
def vGet : M SrcErr AbsSrc Unit := pure ()

/-- Model only: reference for stream_reader.rs 1295 -/
def getStrPeek : M SrcErr AbsSrc Text := ⟨fun s =>
  match Utf8.toStrUnchecked s.acc with
  | some t => .ok t s
  | none => .err (.panic (.internal .invalidUtf8)) s⟩

/-- Model only: reference for stream_reader.rs 1282 and 1313 -/
def getStr : M SrcErr AbsSrc Text := ⟨fun s =>
  match Utf8.toStrUnchecked s.acc with
  | some t => .ok t { s with acc := [] }
  | none => .err (.panic (.internal .invalidUtf8)) { s with acc := [] }⟩

/-- Model only: the operations for the code as it is -/
instance : ByteSource AbsSrc where
  peekByte := peekByte
  skipPeekedByte := skipPeekedByte
  vNew := vNew
  vPeek := peekByte
  vConsume := vConsume
  vSkipPrevious := vDropLast
  vSkipFinal := vDropLast
  vPush := vPush
  vGet := fun _ => vGet
  getString := getStr
  getStrPeek := getStrPeek
  getStr := getStr
  remaining := fun s => s.rest.length

end AbsSrc
end Verif
