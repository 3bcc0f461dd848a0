import Verif.Proofs.Writer.Utf8Out
import Verif.Props.Writer
/-!
# The output of the writer is UTF-8
-/

namespace Verif.Props
open Writer Debug DebugSpec

variable {N : Nat}

/-- C66: what the writer emits is valid UTF-8, for all call sequences, also if the last call panics because of incorrect usage -/
theorem C66_output_utf8 (st : WSettings) {ops : List WOp} (hop : ∀ op ∈ ops, OpOk op) (hfin : FinishLast ops) : ValidUtf8 (emitted st ops) := by
  cases run_outcome st hop hfin with
  | done w rs _ _ _ _ h _ => rw [h]; exact valid_written st w
  | panic pre op post w u _ _ _ _ _ h _ => rw [h]; exact valid_written st w

/-- C66: there is no byte order mark: if something is emitted, then the first byte is ASCII -/
theorem C66_no_bom (st : WSettings) {ops : List WOp} (hop : ∀ op ∈ ops, OpOk op) (hfin : FinishLast ops) :
    (∀ b r, emitted st ops = b :: r → b.toNat < 0x80) ∧ ∀ r, emitted st ops ≠ [0xEF, 0xBB, 0xBF] ++ r := by
  have h : ∀ b r, emitted st ops = b :: r → b.toNat < 0x80 := by
    intro b r h
    have key : ∀ {w : WSpec.Written}, WOk st w → emitted st ops = w.bytes st → b.toNat < 0x80 := by
      intro w hw h'
      rw [h] at h'
      rcases start_written st hw with h1 | ⟨b', r', h1, h2⟩
      · rw [h1] at h'; cases h'
      · rw [h1] at h'; cases h'; exact h2
    cases run_outcome st hop hfin with
    | done w rs _ hw _ _ h' _ => exact key hw h'
    | panic pre op post w u _ _ hw _ _ h' _ => exact key hw h'
  exact ⟨h, fun r hr => absurd (h _ _ hr) (by decide)⟩

/-- C66: what an empty underlying `Write` has received at any time (every call sequence; failures or partial writes at arbitrary places) is a text,
followed by at most an incomplete character; after a successful `finish_document` it is exactly a text. -/
theorem C66_received (hN : 0 < N) (st : WSettings) {sink : Sink} (hs : sink.received = []) {ops : List WOp} (hop : ∀ op ∈ ops, OpOk op) (hfin : FinishLast ops) :
    (∃ t r, (execW N st sink ops).2.received = enc t ++ r ∧ (r = [] ∨ ∃ c s, s ≠ [] ∧ enc [c] = r ++ s) ∧ r.length ≤ 3) ∧
    (∀ rs, (execW N st sink ops).1 = .ok rs → rs.getLast? = some (.ok .unit) → ops.getLast? = some .finishDocument → ValidUtf8 (execW N st sink ops).2.received) := by
  obtain ⟨h1, -, h3⟩ := C38_buffering hN st sink ops
  obtain ⟨t, ht⟩ := C66_output_utf8 st hop hfin
  rw [hs, List.nil_append] at h1 h3
  constructor
  · rw [ht] at h1
    obtain ⟨t', r, -, h4, h5, h6⟩ := prefix_valid h1
    exact ⟨t', r, h4, h5, h6⟩
  · intro rs e1 e2 e3
    rw [h3 rs e1 e2 e3 hfin hop]
    exact ⟨t, ht⟩

/-- with a buffer of 4 bytes and an underlying `Write` which fails at the second write, the received bytes end inside of the character `é` -/
example : ((∀ op ∈ [WOp.stringValue ['a', 'b', 'é', 'x'], .finishDocument], OpOk op) ∧ FinishLast [WOp.stringValue ['a', 'b', 'é', 'x'], .finishDocument]) ∧
    (execW 4 WSettings.default ⟨[], [.accept 100, .error 5], []⟩ [.stringValue ['a', 'b', 'é', 'x'], .finishDocument]).2.received = [0x22, 0x61, 0x62, 0xC3] := by
  refine ⟨⟨?_, ?_⟩, by decide +kernel⟩
  · intro op h
    simp only [List.mem_cons, List.not_mem_nil, or_false] at h
    rcases h with rfl | rfl <;> trivial
  · simp [FinishLast]

/-- C66: when the underlying `Write` does not fail, then the bytes in the buffer which `Debug` shows as raw bytes are at most 3, the rest of a character whose
beginning has been passed on already -/
theorem C66_debug_raw (hN : 0 < N) (st : WSettings) {sink : Sink} (hrel : sink.Reliable) (hs : ValidUtf8 sink.received) {ops : List WOp} (hop : ∀ op ∈ ops, OpOk op) :
    ∀ k ∈ buffersAll ops (Core.new st) (BufSink.new N sink), ∃ b, writerBuf k = some b ∧ ShowsEnd (k.buf.take k.pos) b.count b.raw b.str ∧
      ∀ r, b.raw = some r → r ≠ [] ∧ r.length ≤ 3 := by
  intro k hk
  have hf := buffersAll_fine hN ops (new_fine N sink) k hk
  obtain ⟨b, h1, h2⟩ := writerBuf_spec k (by rw [hf.len]; exact hf.pos)
  refine ⟨b, h1, h2, fun r hr => ?_⟩
  obtain ⟨w, hw⟩ := buffersAll_out sink.received ops hop (WInv.new st) (WOk.empty st) (new_good hN sink) hrel (by rw [new_out, empty_bytes, List.append_nil]) k hk
  obtain ⟨t, ht⟩ := valid_append hs (valid_written st w)
  rw [ht] at hw
  obtain ⟨r', t', h3, h4⟩ := suffix_valid (s := k.buf.take k.pos) (t := t) ⟨_, hw⟩
  have h5 := h2.text
  rw [hr] at h5
  obtain ⟨h6, t2, h7, -, h8⟩ := h5
  constructor
  · rintro rfl
    exact h6 ⟨t2, h7⟩
  · cases r' with
    | nil => exact absurd ⟨t', h3⟩ h6
    | cons x r' => exact Nat.le_trans (h8 _ _ (by simp) h3) h4

/-- with a buffer of 4 bytes the string `abéx` is split inside of the character `é` -/
example : (∀ op ∈ [WOp.stringValue ['a', 'b', 'é', 'x']], OpOk op) ∧ (buffersAll [WOp.stringValue ['a', 'b', 'é', 'x']] (Core.new WSettings.default) (BufSink.new 4 ⟨[], [], []⟩)).map writerBuf =
    [some ⟨0, none, []⟩, some ⟨3, some [0xA9], ['.', '.', '.', 'x', '"']⟩] := by
  refine ⟨?_, by decide +kernel⟩
  intro op h
  cases List.mem_singleton.1 h
  trivial

end Verif.Props
