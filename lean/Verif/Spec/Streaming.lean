import Verif.Model.Run
/-!
# Streaming

Method calls for which the reader needs only a bounded amount of memory, independent of the JSON document.
-/

namespace Verif.Streaming
open Reader

/-- The calls which do not store names or values. `trackPath`: the setting; with path tracking skipping has to read the member names. -/
def streams (trackPath : Bool) : Op → Bool
  | .nextName | .nextNameOwned | .nextString | .nextStr | .nextNumberAsStr | .nextNumberAsString => false
  | .skipName | .skipValue | .skipToTopLevel | .seekBack _ => !trackPath
  | .seekTo path => !trackPath && path.all fun
    | .arrayItem _ => true
    | .objectMember _ => false
  | _ => true

/-- A source for which all operations of `BytesValueReader` and `BytesValue` (stream_reader.rs 1201–1520) panic -/
def withoutValueReader (N : Nat) : ByteSource (BufSrc N) where
  peekByte := BufSrc.peekByte
  skipPeekedByte := BufSrc.skipPeekedByte
  vNew := BufSrc.panic .unreachable
  vPeek := BufSrc.panic .unreachable
  vConsume := BufSrc.panic .unreachable
  vSkipPrevious := BufSrc.panic .unreachable
  vSkipFinal := BufSrc.panic .unreachable
  vPush _ := BufSrc.panic .unreachable
  vGet _ := BufSrc.panic .unreachable
  getString := BufSrc.panic .unreachable
  getStrPeek := BufSrc.panic .unreachable
  getStr := BufSrc.panic .unreachable
  remaining := ByteSource.remaining

/-- state of the reader after a sequence of calls, which ends as described for `runOps` -/
def stateAfter {σ : Type} [ByteSource σ] : List Op → RState σ → RState σ
  | [], s => s
  | op :: ops, s =>
    match (runOp op).run s with
    | .ok _ s' => if op = .consumeTrailingWhitespace then s' else stateAfter ops s'
    | .err e s' => if e.fatal || op = .consumeTrailingWhitespace then s' else stateAfter ops s'

/-- the parts of the reader which hold input: the buffer has its initial size, the buffer for values is empty and no value is held -/
def Bounded {N : Nat} (s : BufSrc N) : Prop := s.buf.length = N ∧ s.valueBuf = [] ∧ s.v = none ∧ s.val = none

end Verif.Streaming
