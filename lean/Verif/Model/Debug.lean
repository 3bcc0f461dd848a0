import Verif.Model.Transfer
import Verif.Model.Utf8
/-!
# Model of the `Debug` implementations of `JsonStreamReader` and `JsonStreamWriter`

Modelled is how the content of the buffer is shown, which is the only part of them which computes something and could panic. The other fields are passed
unchanged to `debug_struct.field(..)` of the standard library, and the underlying reader respectively writer is formatted by its own implementation; neither
is modelled. A panic is modelled as `none`. A `str` is a `Text`, indices are byte indices of its UTF-8 encoding as in Rust.
-/

namespace Verif.Debug

/-! ## Standard library -/

/-- Standard library: `char::len_utf8` -/
def lenUtf8 (c : Char) : Nat := (String.utf8EncodeChar c).length

/-- Standard library, used at stream_writer.rs 560–582: `str::len` -/
def strLen (s : Text) : Nat := (enc s).length

/-- Standard library, used at stream_reader.rs 167–179 and stream_writer.rs 560–582: `str::char_indices`, for the part of a `str` which starts at byte `at` -/
def charIndicesFrom (at' : Nat) : Text → List (Nat × Char)
  | [] => []
  | c :: s => (at', c) :: charIndicesFrom (at' + lenUtf8 c) s

/-- Standard library: `str::char_indices` -/
def charIndices (s : Text) : List (Nat × Char) := charIndicesFrom 0 s

/-- Standard library: `&s[..index]`: panics if the index is out of range or inside of a character -/
def sliceTo : Text → Nat → Option Text
  | _, 0 => some []
  | [], _ + 1 => none
  | c :: s, n + 1 => if n + 1 < lenUtf8 c then none else (sliceTo s (n + 1 - lenUtf8 c)).map (c :: ·)

/-- Standard library: `&s[index..]` -/
def sliceFrom : Text → Nat → Option Text
  | s, 0 => some s
  | [], _ + 1 => none
  | c :: s, n + 1 => if n + 1 < lenUtf8 c then none else sliceFrom s (n + 1 - lenUtf8 c)

/-- Standard library: `&bytes[start..end]` -/
def bytesSlice (bs : Bytes) (start stop : Nat) : Option Bytes := if start ≤ stop ∧ stop ≤ bs.length then some ((bs.take stop).drop start) else none

/-- Standard library, used at stream_reader.rs 181–190. `Utf8Error::valid_up_to`, modelled by its documentation: "the maximum index such that `from_utf8(&input[..index])` would return `Ok(_)`" -/
def validUpTo (bs : Bytes) : Nat := ((List.range (bs.length + 1)).reverse.find? fun n => (Utf8.decodeUtf8 (bs.take n)).isSome).getD 0

/-- stream_reader.rs 173 and 192, stream_writer.rs 596 and 608: the text `...` -/
def ellipsis : Text := ['.', '.', '.']

/-! ## Reader -/

/-- stream_reader.rs 167–179: `limit_str` -/
def limitStr (s : Text) (addEllipsis : Bool) : Option Text := match (charIndices s)[45]? with
  | none => some s
  | some (index, _) => do
    let s ← sliceTo s index
    if addEllipsis then some (s ++ ellipsis) else some s

/-- stream_reader.rs 157–205. The fields which show the buffer of the reader: `reached_eof`, or `buf_count`, `buf_str` and, if it is there, `...buf...` -/
inductive ReaderBuf where
  | reachedEof
  | buf (count : Nat) (str : Text) (raw : Option Bytes)
deriving Repr, DecidableEq

/-- stream_reader.rs 161–202: the part of `fmt` which shows the buffer; `buf_end_pos - buf_pos` panics on underflow (line 164; without overflow checks
the slicing in line 165 panics) -/
def readerBuf {N : Nat} {dbg : Bool} (r : BufSrcD N dbg) : Option ReaderBuf :=
  if r.reachedEof then some .reachedEof
  else if r.bufEndPos < r.bufPos then none
  else do
    let count := r.bufEndPos - r.bufPos
    let content ← bytesSlice r.buf r.bufPos r.bufEndPos
    match Utf8.decodeUtf8 content with
    | some s => do
      let s ← limitStr s true
      some (.buf count s none)
    | none => do
      let prefixEnd := validUpTo content
      let valid ← bytesSlice content 0 prefixEnd
      let valid ← Utf8.decodeUtf8 valid
      let valid ← limitStr valid false
      if strLen valid < 15 then do
        let raw ← bytesSlice content prefixEnd (min (prefixEnd + 30) content.length)
        some (.buf count (valid ++ ellipsis) (some raw))
      else some (.buf count (valid ++ ellipsis) none)

/-! ## Writer -/

/-- stream_writer.rs 560–582: `limit_str_middle`; the assertion in line 568 compares constants -/
def limitStrMiddle (s : Text) : Option Text :=
  if s.length ≤ 55 then some s
  else do
    let (prefixEnd, _) ← (charIndices s)[25]?
    let pre ← sliceTo s prefixEnd
    let (suffixStart, _) ← (charIndices s).reverse[24]?
    let suf ← sliceFrom s suffixStart
    some (pre ++ [' ', '.', '.', '.', ' '] ++ suf)

/-- stream_writer.rs 554–611. The fields which show the buffer of the writer: `buf_count`, `buf...` if it is there, and `buf_str` -/
structure WriterBuf where
  count : Nat
  raw : Option Bytes
  str : Text
deriving Repr, DecidableEq

/-- stream_writer.rs 594–600: the loop which searches the first valid substring; `n` is the number of remaining iterations, `i` the current index -/
def searchSuffix (k : Writer.BufSink) : Nat → Nat → Option (Option (Nat × Text))
  | 0, _ => some none
  | n + 1, i => do
    let bs ← bytesSlice k.buf i k.pos
    match Utf8.decodeUtf8 bs with
    | some s => do
      let s ← limitStrMiddle s
      some (some (i, ellipsis ++ s))
    | none => searchSuffix k n (i + 1)

/-- stream_writer.rs 556–611: the part of `fmt` which shows the buffer -/
def writerBuf (k : Writer.BufSink) : Option WriterBuf := do
  let content ← bytesSlice k.buf 0 k.pos
  match Utf8.decodeUtf8 content with
  | some s => do
    let s ← limitStrMiddle s
    some ⟨k.pos, none, s⟩
  | none => do
    let found ← searchSuffix k (k.pos - 1) 1
    let (start, str) := match found with
      | some (i, s) => (i, s)
      | none => (k.pos, ellipsis)
    let raw ← bytesSlice k.buf 0 start
    some ⟨k.pos, some raw, str⟩

/-! ## When they can be used -/

/-- Model only. The states of the reader in which the caller can use `Debug`: before the first call and after every call, unless the reader was consumed by it or it
panicked -/
def statesAll {σ : Type} [ByteSource σ] : List Transfer.RCall → RState σ → List (RState σ)
  | [], s => [s]
  | c :: cs, s => s :: let (r, s') := Transfer.runCall c s
    if r.ends c then [] else statesAll cs s'

/-- Model only. The reader after calls which were all successful -/
def afterOk {σ : Type} [ByteSource σ] : List Reader.Op → RState σ → Option (RState σ)
  | [], s => some s
  | op :: ops, s => match (Reader.runOp op).run s with
    | .ok _ s' => afterOk ops s'
    | .err _ _ => none

/-- Model only. The buffer of the writer in the states in which the caller can use `Debug`; errors are ignored by the caller. -/
def buffersAll : List Writer.WOp → Writer.Core → Writer.BufSink → List Writer.BufSink
  | [], _, k => [k]
  | o :: os, c, k => k :: match ((Writer.wop o).run c).run.run k with
    | .ok (_, c') k' => if o = .finishDocument then [] else buffersAll os c' k'
    | .err _ _ => []

end Verif.Debug
