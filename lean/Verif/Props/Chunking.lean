import Verif.Proofs.Run
import Verif.Spec.Source
/-!
# Property C01: the results do not depend on how the input arrives
-/

namespace Verif.Props
open Reader

theorem delivers_sched {sched : List ReadEvent} {bs : Bytes} {e : Option Nat} (h : Delivers sched bs e) :
    BufSrc.schedBytes sched = bs ∧ BufSrc.schedError sched = e := by
  induction h with
  | done => exact ⟨rfl, rfl⟩
  | eof es => exact ⟨rfl, rfl⟩
  | failed c es => exact ⟨rfl, rfl⟩
  | interrupted _ ih => exact ih
  | data b ds _ ih => simp [BufSrc.schedBytes, BufSrc.schedError, ih.1, ih.2]

/-- C01: two readers (with internal buffers of any non-zero size, in particular both with `READER_BUF_SIZE`) whose underlying `Read`s deliver the same
bytes with the same end give the same results for the same sequence of method calls. -/
theorem C01_chunking_irrelevant (N1 N2 : Nat) (h1 : 0 < N1) (h2 : 0 < N2) (settings : Settings) (sched1 sched2 : List ReadEvent)
    (bytes : Bytes) (e : Option Nat) (hd1 : Delivers sched1 bytes e) (hd2 : Delivers sched2 bytes e) (ops : List Op) :
    runReader N1 settings sched1 ops = runReader N2 settings sched2 ops := by
  rw [runReader_eq_runAbs h1, runReader_eq_runAbs h2, (delivers_sched hd1).1, (delivers_sched hd1).2, (delivers_sched hd2).1,
    (delivers_sched hd2).2]

/-- C01 for the buffer size of the code -/
theorem C01_chunking_irrelevant_bufsize (settings : Settings) (sched1 sched2 : List ReadEvent)
    (bytes : Bytes) (e : Option Nat) (hd1 : Delivers sched1 bytes e) (hd2 : Delivers sched2 bytes e) (ops : List Op) :
    runReader readerBufSize settings sched1 ops = runReader readerBufSize settings sched2 ops :=
  C01_chunking_irrelevant _ _ (by decide) (by decide) settings sched1 sched2 bytes e hd1 hd2 ops

/-- `[1]` in one piece, and byte by byte with an interruption -/
example : Delivers [.data [0x5B, 0x31, 0x5D]] [0x5B, 0x31, 0x5D] none ∧
    Delivers [.data [0x5B], .interrupted, .data [0x31], .data [0x5D]] [0x5B, 0x31, 0x5D] none :=
  ⟨.data _ _ .done, .data _ _ (.interrupted (.data _ _ (.data _ _ .done)))⟩

/-- and the results are not trivial -/
example : runReader 2 Settings.default [.data [0x5B], .interrupted, .data [0x31], .data [0x5D]]
    [.beginArray, .nextNumberAsStr, .endArray, .consumeTrailingWhitespace] =
    [.ok .unit, .ok (.text ['1']), .ok .unit, .ok .unit] := by decide +kernel

end Verif.Props
