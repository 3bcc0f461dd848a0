import Verif.Proofs.After.Run
/-!
# Using the reader after syntax and IO errors

The documentation (reader/mod.rs 724–727) demands to abort processing after a syntax or IO error and leaves the behaviour afterwards unspecified,
except that there is no undefined behaviour. Here callers are considered which continue nevertheless (`runReaderAll`). The calls include `transfer_to`, with a writer in an arbitrary state and an underlying `Write` which behaves arbitrarily.
-/

namespace Verif.Props
open Reader Transfer

variable {N : Nat}

/-- C02: an internal panic can only happen if an earlier call failed with `TrailingDataAfterNumber`. (A panic ends the run, so the
other results of the run are the earlier ones.) It is then the panic "report this to the Struson maintainers" of `fill_buffer` or, with debug assertions, a failing debug assertion. -/
theorem C02_after_errors (hN : 0 < N) (dbg : Bool) (settings : Settings) (sched : List ReadEvent) (calls : List RCall) (p : InternalPanic)
    (r : RCallResult) (hr : r ∈ runReaderAll dbg N settings sched calls) (hp : r.readerError = some (.panic (.internal p))) :
    (∃ r' ∈ runReaderAll dbg N settings sched calls, ∃ loc, r'.readerError = some (.syntax .trailingDataAfterNumber loc)) ∧
      (p = .bufHoldsValue ∨ dbg = true ∧ p = .debugAssert) := by
  obtain ⟨h1, h2⟩ := (After.runReaderAll_safe hN dbg settings sched calls).internal hr hp
  exact ⟨h1.resolve_left nofun, h2⟩

/-- the pieces `[1"a` and `bc"]` -/
def staleInput : List ReadEvent := [.data [0x5B, 0x31, 0x22, 0x61], .data [0x62, 0x63, 0x22, 0x5D]]

/-- C02 is false without the restriction: after `TrailingDataAfterNumber` the flag `buf_used_for_bytes_value` remains set, and a following string
which does not fit in the data read so far hits the internal panic (with and without debug assertions) -/
theorem C02_counterexample_after_error (dbg : Bool) : runReaderAll dbg readerBufSize Settings.default staleInput [.op .beginArray, .op .nextNumberAsStr, .op .nextStr] =
    [.op (.ok .unit), .op (.error (.syntax .trailingDataAfterNumber ⟨some [.arrayItem 0], 0, 2, 2⟩)), .op (.error (.panic (.internal .bufHoldsValue)))] := by
  cases dbg <;> decide +kernel

/-- and the hypothesis of `C02_after_errors` is met by it -/
example : ∃ r ∈ runReaderAll true readerBufSize Settings.default staleInput [.op .beginArray, .op .nextNumberAsStr, .op .nextStr],
    r.readerError = some (.panic (.internal .bufHoldsValue)) := by
  rw [C02_counterexample_after_error]; exact ⟨_, .tail _ (.tail _ (.head _)), rfl⟩

/-- the failing debug assertion: `[1"a"]` in one piece; without debug assertions the string is read -/
example : runReaderAll true readerBufSize Settings.default [.data [0x5B, 0x31, 0x22, 0x61, 0x22, 0x5D]] [.op .beginArray, .op .nextNumberAsStr, .op .nextStr] =
      [.op (.ok .unit), .op (.error (.syntax .trailingDataAfterNumber ⟨some [.arrayItem 0], 0, 2, 2⟩)), .op (.error (.panic (.internal .debugAssert)))] ∧
    runReaderAll false readerBufSize Settings.default [.data [0x5B, 0x31, 0x22, 0x61, 0x22, 0x5D]] [.op .beginArray, .op .nextNumberAsStr, .op .nextStr] =
      [.op (.ok .unit), .op (.error (.syntax .trailingDataAfterNumber ⟨some [.arrayItem 0], 0, 2, 2⟩)), .op (.ok (.text ['a']))] := by
  constructor <;> decide +kernel

/-- C54: no matter how the reader is used after errors, it never creates a string from invalid UTF-8, never accesses its buffers out of bounds, never
unwraps `None` and never reaches `unreachable!`. -/
theorem C54_no_undefined_behavior (hN : 0 < N) (dbg : Bool) (settings : Settings) (sched : List ReadEvent) (calls : List RCall) (p : InternalPanic)
    (hp : p = .invalidUtf8 ∨ p = .index ∨ p = .unwrapNone ∨ p = .unreachable ∨ p = .notBorrowed) :
    ∀ r ∈ runReaderAll dbg N settings sched calls, r.readerError ≠ some (.panic (.internal p)) := by
  intro r hr h
  have := (C02_after_errors hN dbg settings sched calls p r hr h).2
  rcases hp with rfl | rfl | rfl | rfl | rfl <;> rcases this with h | ⟨_, h⟩ <;> cases h

/-- C54: without debug assertions the only internal panic is the explicit one of `fill_buffer`, i.e. none of the other debug assertions would fail -/
theorem C54_release (hN : 0 < N) (settings : Settings) (sched : List ReadEvent) (calls : List RCall) (p : InternalPanic)
    (r : RCallResult) (hr : r ∈ runReaderAll false N settings sched calls) (h : r.readerError = some (.panic (.internal p))) : p = .bufHoldsValue := by
  rcases (C02_after_errors hN false settings sched calls p r hr h).2 with h | ⟨h, _⟩
  · exact h
  · cases h

/-- the caller continues after an error of the underlying reader: the byte `[`, which had been consumed already, is delivered a second time
(`fill_buffer` has reset `buf_pos` but not `buf_end_pos`) -/
example : runReaderAll true readerBufSize Settings.default [.data [0x5B], .error 7, .data [0x31, 0x7D, 0x5D]]
    [.op .beginArray, .op .hasNext, .op .hasNext, .op .beginArray, .op .nextNumberAsStr, .op .hasNext, .op .endArray] =
    [.op (.ok .unit), .op (.error (.io (.source 7) ⟨some [.arrayItem 0], 0, 1, 1⟩)), .op (.ok (.bool true)), .op (.ok .unit), .op (.ok (.text ['1'])),
      .op (.error (.syntax .unexpectedClosingBracket ⟨some [.arrayItem 0, .arrayItem 1], 0, 3, 3⟩)),
      .op (.error (.syntax .unexpectedClosingBracket ⟨some [.arrayItem 0, .arrayItem 1], 0, 3, 3⟩))] := by
  decide +kernel

/-- the JSON document `["a…a7]"]` (with 61 times `a`) -/
def longString : Bytes := [0x5B, 0x22] ++ List.replicate 61 0x61 ++ [0x37, 0x5D, 0x22, 0x5D]

/-- `transfer_to` with a new writer with buffer size 4 whose underlying `Write` fails -/
def failingTransfer : RCall := .transfer (Writer.Core.new .default) (Writer.BufSink.new 4 ⟨[], [.error 7], []⟩)

/-- `transfer_to` fails because of the writer in the middle of a string, and the caller continues: the remaining characters of the string are regarded as JSON -/
example : runReaderAll true readerBufSize Settings.default [.data longString] [.op .beginArray, failingTransfer, .op .nextNumberAsStr, .op .endArray] =
    [.op (.ok .unit), .transfer (.error (.writer (.io 7))), .op (.ok (.text ['7'])), .op (.ok .unit)] := by
  decide +kernel

/-- C29: every call ends, also after errors -/
theorem C29_after_errors (hN : 0 < N) (dbg : Bool) (settings : Settings) (sched : List ReadEvent) (calls : List RCall) :
    ∀ r ∈ runReaderAll dbg N settings sched calls, r.readerError ≠ some .outOfFuel :=
  (After.runReaderAll_safe hN dbg settings sched calls).fuel

end Verif.Props
