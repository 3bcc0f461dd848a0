import Verif.Proofs.DebugRun
import Verif.Spec.Source
import Verif.Props.Calls
/-!
# The `Debug` implementations of reader and writer
-/

namespace Verif.Props
open Reader Transfer Debug DebugSpec Sim Abs

variable {N : Nat} {dbg : Bool}

/-- C65: whenever the reader can be used, also after errors and whatever the underlying reader delivers, showing it with `Debug` does not panic; it shows that
the end was reached, or the beginning of the bytes which are in the buffer -/
theorem C65_reader (hN : 0 < N) (dbg : Bool) (st : Settings) (sched : List ReadEvent) (calls : List RCall) :
    ∀ t ∈ statesAll calls (new (BufSrc.newD N dbg sched) st),
      (t.src.reachedEof = true ∧ readerBuf t.src = some .reachedEof) ∨
      (t.src.reachedEof = false ∧ ∃ count str raw, readerBuf t.src = some (.buf count str raw) ∧
        ShowsStart ((t.src.buf.take t.src.bufEndPos).drop t.src.bufPos) count str raw) := by
  intro t ht
  have hb := statesAll_new hN st sched calls t ht
  exact readerBuf_spec t.src hb.le1 (by rw [hb.len]; exact hb.le2)

/-- the input `[1,€é` with incomplete last character; the last call fails -/
example : (statesAll [.op .beginArray, .op .nextNumberAsStr, .op .hasNext] (new (BufSrc.newD 8 true [.data [0x5B, 0x31, 0x2C, 0xE2, 0x82, 0xAC, 0xC3]]) Settings.default)).map (fun t => readerBuf t.src) =
    [some (.buf 0 [] none), some (.buf 6 ['1', ',', '€', '.', '.', '.'] (some [0xC3])), some (.buf 5 [',', '€', '.', '.', '.'] (some [0xC3])),
      some (.buf 4 ['€', '.', '.', '.'] (some [0xC3]))] := by
  decide +kernel

/-- bytes of a token which has been consumed by peeking at it -/
def peekedToken : Option Peeked → Bytes
  | none => []
  | some .null => [0x6E, 0x75, 0x6C, 0x6C]
  | some .booleanTrue => [0x74, 0x72, 0x75, 0x65]
  | some .booleanFalse => [0x66, 0x61, 0x6C, 0x73, 0x65]
  | some .numberStart => []
  | some .stringStart => [0x22]
  | some .nameStart => [0x22]
  | some .arrayStart => [0x5B]
  | some .arrayEnd => [0x5D]
  | some .objectStart => [0x7B]
  | some .objectEnd => [0x7D]

/-- C65: after successful calls `Debug` shows what comes next in the input: behind the reported position is the peeked token (if there is one), followed by
the shown bytes. When it shows that the end was reached, then nothing follows. -/
theorem C65_reader_next_input (hN : 0 < N) (dbg : Bool) (st : Settings) {sched : List ReadEvent} {bytes : Bytes} (hd : Delivers sched bytes none) (pre : List Op)
    (hp : .consumeTrailingWhitespace ∉ pre) {t : RState (BufSrcD N dbg)} (ht : afterOk pre (new (BufSrc.newD N dbg sched) st) = some t) :
    (readerBuf t.src = some .reachedEof ∧ bytes.drop t.bytePos = peekedToken t.peeked) ∨
    ∃ count str raw content more, readerBuf t.src = some (.buf count str raw) ∧ ShowsStart content count str raw ∧
      bytes.drop t.bytePos = peekedToken t.peeked ++ (content ++ more) := by
  have h0 : Where.Nx ⟨bytes, none, false, st, 0⟩ (new (σ := AbsSrc) ⟨bytes, none, []⟩ st) :=
    ⟨_, _, [], bytes, none, ⟨rfl, rfl, rfl, rfl, rfl, rfl, rfl, Nat.le_refl _, rfl, fun h => by cases h⟩, noSplit_nil_left _, (fun _ h => by cases h), (fun h => by cases h), (fun h => by cases h), fun h => absurd rfl h⟩
  have h1 : (BufSrc.simS dbg false hN st).RRel (.idle false) (new (BufSrc.newD N dbg sched) st) (new (σ := AbsSrc) ⟨bytes, none, []⟩ st) := by
    have := RRel.mk (S := BufSrc.simS dbg false hN st) (BufSrc.BRel.new (N := N) (dbg := dbg) sched)
    rw [(delivers_sched hd).1, (delivers_sched hd).2] at this
    exact this ..
  obtain ⟨t2, hr, p, b, x, y, pk, hy⟩ := afterOk_nx hN st pre hp h1 h0 ht
  have hdrop : bytes.drop t.bytePos = peekedToken t.peeked ++ t2.src.rest := by
    have e1 : t.bytePos = t2.bytePos := by cases hr; rfl
    have e2 : t.peeked = t2.peeked := by cases hr; rfl
    have e3 : t2.bytePos = x.length := by
      have := congrArg Pos.byte hy.pos
      rw [posOf_eq] at this
      exact this
    have e4 : bytes = x ++ y := hy.inp
    have e5 : Where.tb pk = peekedToken pk := by
      cases pk with
      | none => rfl
      | some p => cases p <;> rfl
    rw [e1, e2, e3, hy.peeked, e4, List.drop_left, hy.rest, e5]
  have hb : BufSrc.Base t.src t2.src := by
    cases hr with
    | mk h => exact BufSrc.BRel.base h
  rcases readerBuf_spec t.src hb.le1 (by rw [hb.len]; exact hb.le2) with ⟨h3, h4⟩ | ⟨h3, count, str, raw, h4, h5⟩
  · refine .inl ⟨h4, ?_⟩
    rw [hdrop, hb.rest, h3, if_pos rfl, hb.eof h3, List.drop_eq_nil_of_le (by rw [List.length_take]; omega)]
    simp
  · refine .inr ⟨count, str, raw, _, if t.src.reachedEof then [] else BufSrc.schedBytes t.src.sched, h4, h5, ?_⟩
    rw [hdrop, hb.rest]

/-- the input `[true` after peeking at `true`: position 1, `true` has been consumed, and the end has not been noticed yet -/
example : ((afterOk [.beginArray, .peek] (new (BufSrc.newD 8 true [.data [0x5B, 0x74, 0x72, 0x75, 0x65, 0x5D, 0x20]]) Settings.default)).map fun t => (t.bytePos, t.peeked, readerBuf t.src)) =
    some (1, some .booleanTrue, some (.buf 2 [']', ' '] none)) := by
  decide +kernel

/-- C65: whenever the writer can be used, also after errors, showing it with `Debug` does not panic; it shows the bytes which are in the buffer -/
theorem C65_writer (hN : 0 < N) (st : Writer.WSettings) (sink : Writer.Sink) (ops : List Writer.WOp) :
    ∀ k ∈ buffersAll ops (Writer.Core.new st) (Writer.BufSink.new N sink), ∃ b, writerBuf k = some b ∧ ShowsEnd (k.buf.take k.pos) b.count b.raw b.str := by
  intro k hk
  have hf := buffersAll_fine hN ops (Writer.new_fine N sink) k hk
  exact writerBuf_spec k (by rw [hf.len]; exact hf.pos)

/-- with a buffer of 4 bytes the string `abéx` is split inside of the character `é` -/
example : (buffersAll [.stringValue ['a', 'b', 'é', 'x']] (Writer.Core.new Writer.WSettings.default) (Writer.BufSink.new 4 ⟨[], [], []⟩)).map writerBuf =
    [some ⟨0, none, []⟩, some ⟨3, some [0xA9], ['.', '.', '.', 'x', '"']⟩] := by
  decide +kernel

end Verif.Props
