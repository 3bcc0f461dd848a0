import Verif.Proofs.Writer.Calls
/-!
# How often the writer calls the underlying `Write`
-/

namespace Verif.Props
open Writer

variable {N : Nat}

/-- C68: for every call sequence (also if it ends with a panic): when the underlying `Write` accepts as much as the buffer of the writer contains (`L`), then `m` of its `R`
expected results are used up, i.e. there are `m` calls of `Write::write`, and each of them passes on a full buffer, except for at most one for each time the caller requests
a flush. The number of calls therefore is at most the number of received bytes divided by the size of the buffer, plus the number of requested flushes. -/
theorem C68_write_calls (hN : 0 < N) (st : WSettings) {R L : Nat} (hL : N ≤ L) (rec : Bytes) (fl : List (Option Nat)) (ops : List WOp) :
    ∃ m, m ≤ R ∧ (execW N st ⟨rec, List.replicate R (.accept L), fl⟩ ops).2.writes = List.replicate (R - m) (.accept L) ∧
      rec.length + N * m ≤ (execW N st ⟨rec, List.replicate R (.accept L), fl⟩ ops).2.received.length + (N - 1) * flushRequests ops ∧
      m ≤ ((execW N st ⟨rec, List.replicate R (.accept L), fl⟩ ops).2.received.length - rec.length) / N + flushRequests ops := by
  have h := (Tree.Flushes.run hL ((fl_wops ops).run (Core.new st)) (new_thrifty (R := R) (L := L) hN rec fl)).calls
  rw [← execW_sink, Nat.zero_add] at h
  obtain ⟨m, h1, h2, h3⟩ := h
  exact ⟨m, h1, h2, h3, calls_div hN h3⟩

/-- C68: the same for callers which continue after errors of the underlying `Write` -/
theorem C68_write_calls_all (hN : 0 < N) (st : WSettings) {R L : Nat} (hL : N ≤ L) (rec : Bytes) (fl : List (Option Nat)) (ops : List WOp) :
    ∃ m, m ≤ R ∧ (execAll N st ⟨rec, List.replicate R (.accept L), fl⟩ ops).2.writes = List.replicate (R - m) (.accept L) ∧
      rec.length + N * m ≤ (execAll N st ⟨rec, List.replicate R (.accept L), fl⟩ ops).2.received.length + (N - 1) * flushRequests ops ∧
      m ≤ ((execAll N st ⟨rec, List.replicate R (.accept L), fl⟩ ops).2.received.length - rec.length) / N + flushRequests ops := by
  have h := (Tree.Flushes.run hL ((fl_wopsAll ops).run (Core.new st)) (new_thrifty (R := R) (L := L) hN rec fl)).calls
  rw [← execAll_sink, Nat.zero_add] at h
  obtain ⟨m, h1, h2, h3⟩ := h
  exact ⟨m, h1, h2, h3, calls_div hN h3⟩

/-- 17 bytes are written with a buffer of 4 bytes: 5 calls of `Write::write`, 4 for a full buffer and one for the flush -/
example : (execW 4 WSettings.default ⟨[], List.replicate 9 (.accept 4), []⟩ [.beginArray, .boolValue true, .nullValue, .boolValue false, .endArray, .finishDocument]).2 =
      ⟨enc "[true,null,false]".toList, List.replicate 4 (.accept 4), []⟩ ∧
    flushRequests [.beginArray, .boolValue true, .nullValue, .boolValue false, .endArray, .finishDocument] = 1 ∧ (enc "[true,null,false]".toList).length = 17 := by
  decide +kernel

/-- C68: `Write::flush` is called only when the caller requests it, for all behaviours of the underlying `Write`: `f` of its expected results are used up. When `finish_document` is successful
then the last call of `Write::flush` was successful. -/
theorem C68_flush_calls (N : Nat) (st : WSettings) (sink : Sink) (ops : List WOp) :
    ∃ f, f ≤ flushRequests ops ∧ (execW N st sink ops).2.flushes = sink.flushes.drop f ∧
      ∀ rs, (execW N st sink ops).1 = .ok rs → rs.getLast? = some (.ok .unit) → ops.getLast? = some .finishDocument → 1 ≤ f ∧ (sink.flushes[f - 1]?).join = none := by
  have h0 : Flushed sink.flushes 0 false (BufSink.new N sink) := ⟨rfl, fun h => absurd h (by decide)⟩
  by_cases hl : ops.getLast? = some .finishDocument
  · obtain ⟨f, b, h1, h2, h3⟩ := ((fl_wops ops).run (Core.new st)).count (wops_endFlush hl _ false) h0
    rw [Nat.zero_add] at h1
    refine ⟨f, h1, by rw [execW_sink]; exact h2.1, fun rs hr hlast _ => ?_⟩
    obtain ⟨c, hc⟩ := execW_result hr
    exact h2.2 (h3 _ hc (.inr ⟨_, hlast⟩))
  · obtain ⟨f, b, h1, h2, -⟩ := ((fl_wops ops).run (Core.new st)).count (noEnd _ false) h0
    rw [Nat.zero_add] at h1
    exact ⟨f, h1, by rw [execW_sink]; exact h2.1, fun _ _ _ h => absurd h hl⟩

/-- one `flush` is requested on a string value writer, the other one is the one of `finish_document` -/
example : (execW 4 WSettings.default ⟨[], [], [none, none, some 7]⟩ [.stringValueWriter [.writeStr ['a'], .flush] true, .finishDocument]).2.flushes = [some 7] ∧
    flushRequests [.stringValueWriter [.writeStr ['a'], .flush] true, .finishDocument] = 2 ∧
    ((execW 4 WSettings.default ⟨[], [], [none, none, some 7]⟩ [.stringValueWriter [.writeStr ['a'], .flush] true, .finishDocument]).1.toOption.bind (·.getLast?)).map (·.isOk) = some true := by
  decide +kernel

end Verif.Props
