import Verif.Proofs.Streaming
/-!
# Streaming needs a bounded amount of memory
-/

namespace Verif.Props
open Reader Streaming

variable {N : Nat} {st : Settings} {sched : List ReadEvent} {ops : List Op}

/-- C60: for calls which do not return names, strings (as a whole) or numbers, and which do not skip while the path is tracked, the reader never uses the reader for values: the results
are the same for a source for which all operations of the reader for values panic. -/
theorem C60_value_reader_not_used (N : Nat) (sched : List ReadEvent) (hs : ∀ op ∈ ops, streams st.trackPath op = true) :
    @runOps _ (withoutValueReader N) ops (new (BufSrc.new N sched) st) = runReader N st sched ops :=
  (same_runOps ⟨agree_bufSrc, keeps_bufSrc⟩ (p := !st.trackPath) (st := st) (by simpa using hs) (noPath_new st sched)).symm

/-- C60: for these calls the memory needed by the reader does not depend on the size of the JSON document: the buffer keeps its size, the buffer for values stays empty, no value is held, and the
number of entries for open arrays and objects is at most the maximum nesting depth. -/
theorem C60_bounded_memory (N : Nat) (sched : List ReadEvent) (hs : ∀ op ∈ ops, streams st.trackPath op = true) :
    Bounded (stateAfter ops (new (BufSrc.new N sched) st)).src ∧ ∀ max, st.maxNestingDepth = some max → (stateAfter ops (new (BufSrc.new N sched) st)).stack.length ≤ max := by
  obtain ⟨-, h1, h2, h3⟩ := same_stateAfter ⟨agree_bufSrc, keeps_bufSrc⟩ (p := !st.trackPath) (st := st) (by simpa using hs) (noPath_new (N := N) st sched)
  exact ⟨h1, fun m hm => h2 m (by rw [h3]; exact hm)⟩

/-! ## Examples -/

/-- `[{"a":"xyz"},[1.5],"abc",tr` …: a document which is larger than the buffer -/
private def doc : List ReadEvent := [.data "[{\"a\":\"xyz\"},[1.5],".toUTF8.toList, .interrupted, .data "\"abc\",true,\"\\u00e4bc\" ]".toUTF8.toList]

private def calls : List Op := [.beginArray, .skipValue, .skipValue, .hasNext, .stringReader [2, 5, 1], .nextBool, .peek, .skipValue, .hasNext, .endArray, .consumeTrailingWhitespace]

example : (∀ op ∈ calls, streams false op = true) ∧
    runReader 4 { Settings.default with trackPath := false } doc calls =
      [.ok .unit, .ok .unit, .ok .unit, .ok (.bool true), .ok (.reads ["ab".toUTF8.toList, "c".toUTF8.toList, []]), .ok (.bool true), .ok (.type .string), .ok .unit, .ok (.bool false), .ok .unit, .ok .unit] := by
  decide +kernel

/-- with path tracking the reader for values is used for the skipped member names -/
example : @runOps _ (withoutValueReader 4) [.beginObject, .skipName] (new (BufSrc.new 4 [.data "{\"a\":1}".toUTF8.toList]) .default) = [.ok .unit, .error (.panic (.internal .unreachable))] := by
  decide +kernel

/-- the reader for values is used for strings -/
example : @runOps _ (withoutValueReader 4) [.nextStr] (new (BufSrc.new 4 [.data "\"a\"".toUTF8.toList]) .default) = [.error (.panic (.internal .unreachable))] := by
  decide +kernel

end Verif.Props
