import Verif.Proofs.Writer.OutBytes
import Verif.Props.Writer
/-!
# Which characters occur in the output of the writer
-/

namespace Verif.Props
open Writer WSpec Json

variable {N : Nat}

private theorem chars {st : WSettings} {Q : Char → Prop} (A : Allowed st Q) (hs : ∀ c ∈ st.separator.getD [], Q c) {ops : List WOp} (hop : ∀ op ∈ ops, OpOk op) (hfin : FinishLast ops) :
    ∃ t, emitted st ops = enc t ∧ ∀ c ∈ t, Q c := by
  cases run_outcome st hop hfin with
  | done w rs _ hw _ _ h _ => rw [h]; exact all_written A hs hw
  | panic pre op post w u _ _ hw _ _ h _ => rw [h]; exact all_written A hs hw

/-- C69: with `escape_all_non_ascii` the underlying `Write` receives only ASCII (if the separator of top-level values is ASCII), for all call sequences and all
behaviours of the `Write` -/
theorem C69_ascii (hN : 0 < N) {st : WSettings} (hst : st.escapeAllNonAscii = true) (hsep : ∀ c ∈ st.separator.getD [], c.toNat < 0x80) (sink : Sink) {ops : List WOp}
    (hop : ∀ op ∈ ops, OpOk op) (hfin : FinishLast ops) : ∀ b ∈ (execW N st sink ops).2.received.drop sink.received.length, b.toNat < 0x80 := by
  have A : Allowed st (fun c => c.toNat < 0x80) := by
    refine ⟨fun c _ h => by omega, fun _ => by decide, fun c hc => ?_⟩
    refine Nat.lt_of_not_le fun h => hc ?_
    exact .inr (.inr (.inr (.inl ⟨hst, h⟩)))
  obtain ⟨t, h1, h2⟩ := chars A hsep hop hfin
  obtain ⟨h3, -, -⟩ := C38_buffering hN st sink ops
  obtain ⟨r, h4⟩ := h3
  intro b hb
  apply ascii_bytes h2
  rw [← h1]
  have h5 := congrArg (List.drop sink.received.length) h4
  rw [List.drop_left] at h5
  rw [← h5, List.drop_append]
  exact List.mem_append_left _ hb

/-- C69: the output contains no control characters U+0000–U+001F except for those of the separator of top-level values, and line breaks if pretty printing is enabled -/
theorem C69_no_control (hN : 0 < N) (st : WSettings) (sink : Sink) {ops : List WOp} (hop : ∀ op ∈ ops, OpOk op) (hfin : FinishLast ops) :
    ∃ t, (execW N st sink ops).2.received <+: sink.received ++ enc t ∧ ∀ c ∈ t, 0x20 ≤ c.toNat ∨ c ∈ st.separator.getD [] ∨ st.prettyPrint = true ∧ c = '\n' := by
  obtain ⟨t, h1, h2⟩ := chars (Q := fun c => 0x20 ≤ c.toNat ∨ c ∈ st.separator.getD [] ∨ st.prettyPrint = true ∧ c = '\n')
    ⟨fun c h _ => .inl h, fun h => .inr (.inr ⟨h, rfl⟩), fun c hc => .inl (Nat.le_of_not_lt fun h => hc (.inr (.inr (.inl h))))⟩ (fun c h => .inr (.inl h)) hop hfin
  exact ⟨t, h1 ▸ (C38_buffering hN st sink ops).1, h2⟩

/-- C69: with `escape_all_control_chars` the same for all control characters, including U+007F–U+009F -/
theorem C69_no_control_all (hN : 0 < N) {st : WSettings} (hst : st.escapeAllControlChars = true) (sink : Sink) {ops : List WOp} (hop : ∀ op ∈ ops, OpOk op) (hfin : FinishLast ops) :
    ∃ t, (execW N st sink ops).2.received <+: sink.received ++ enc t ∧
      ∀ c ∈ t, (0x20 ≤ c.toNat ∧ ¬ (0x7F ≤ c.toNat ∧ c.toNat ≤ 0x9F)) ∨ c ∈ st.separator.getD [] ∨ st.prettyPrint = true ∧ c = '\n' := by
  obtain ⟨t, h1, h2⟩ := chars (Q := fun c => (0x20 ≤ c.toNat ∧ ¬ (0x7F ≤ c.toNat ∧ c.toNat ≤ 0x9F)) ∨ c ∈ st.separator.getD [] ∨ st.prettyPrint = true ∧ c = '\n')
    ⟨fun c h h' => .inl ⟨h, by omega⟩, fun h => .inr (.inr ⟨h, rfl⟩), fun c hc => .inl ⟨Nat.le_of_not_lt fun h => hc (.inr (.inr (.inl h))), fun h =>
      hc (.inr (.inr (.inr (.inr ⟨hst, .inr h⟩))))⟩⟩ (fun c h => .inr (.inl h)) hop hfin
  exact ⟨t, h1 ▸ (C38_buffering hN st sink ops).1, h2⟩

private theorem lines_bytes (st : WSettings) (h : st.separator = some ['\n']) (vs : List JVal) : topsBytes st vs = List.intercalate [0x0A] (vs.map fun v => (cst st 0 v).bytes) := by
  have hs : topSep st = [0x0A] := by rw [topSep, h]; decide +kernel
  cases vs with
  | nil => rfl
  | cons v vs =>
    rw [topsBytes, hs, List.map_cons]
    induction vs generalizing v with
    | nil => simp [List.intercalate]
    | cons v' vs ih =>
      rw [List.flatMap_cons, List.map_cons, List.append_assoc, ih v']
      simp [List.intercalate, List.intersperse]

/-- C69: without pretty printing and with a line feed as separator, what a successful run writes consists of lines, one for each value which was written: each line is a JSON document for
its value, and contains no line feed or carriage return. -/
theorem C69_lines (hN : 0 < N) {st : WSettings} {sink sink' : Sink} (hpp : st.prettyPrint = false) (hsep : st.separator = some ['\n']) (body : List WOp) (hb : .finishDocument ∉ body)
    (hop : ∀ op ∈ body, OpOk op) {rs : List (Except WErr WOut)} (hrun : execW N st sink (body ++ [.finishDocument]) = (.ok rs, sink')) (hlast : rs.getLast? = some (.ok .unit)) :
    ∃ vs : List (JVal × Bytes), Steps st .empty body ⟨vs.map (·.1), [], none⟩ ∧ sink'.received = sink.received ++ List.intercalate [0x0A] (vs.map (·.2)) ∧
      ∀ v ∈ vs, IsDoc .rfc v.2 v.1 ∧ 0x0A ∉ v.2 ∧ 0x0D ∉ v.2 := by
  obtain ⟨vs, hne, hs, hok, hr, -⟩ := run_success hN hb hop hrun hlast
  refine ⟨vs.map fun v => (v, (cst st 0 v).bytes), by simpa [Function.comp_def] using hs, by rw [hr, lines_bytes st hsep]; simp [Function.comp_def], ?_⟩
  intro x hx
  obtain ⟨v, hv, rfl⟩ := List.mem_map.1 hx
  have hj : JOk v := joks_mem hok.tops hv
  have hd := documents_of (st := st) (vs := [v]) ⟨hj, trivial⟩ (by simp) (.inl (by simp))
  have hd' : IsDoc .rfc (cst st 0 v).bytes v := by
    have e : topsBytes st [v] = (cst st 0 v).bytes := by simp [topsBytes]
    rw [e] at hd
    generalize (cst st 0 v).bytes = out at hd
    generalize hl : [v] = l at hd
    cases hd with
    | one h => cases hl; exact h
    | more _ _ h => cases hl; cases h
  have A : Allowed st (fun c => 0x20 ≤ c.toNat) :=
    ⟨fun c h _ => h, fun h => absurd (hpp ▸ h) (by decide), fun c hc => Nat.le_of_not_lt fun h => hc (.inr (.inr (.inl h)))⟩
  obtain ⟨t, h1, h2⟩ := all_cst A 0 v hj
  have h3 := no_control_bytes h2
  refine ⟨hd', fun h => ?_, fun h => ?_⟩
  · rw [h1] at h; exact absurd (h3 _ h) (by decide)
  · rw [h1] at h; exact absurd (h3 _ h) (by decide)

/-- settings for JSON lines -/
private def lineSettings : WSettings := { WSettings.default with separator := some ['\n'] }

/-- an array, and a string which contains a line feed, with a buffer of 4 bytes -/
example : let r := execW 4 lineSettings ⟨[], [.accept 1, .interrupted, .accept 2], []⟩ ([.beginArray, .nullValue, .endArray, .stringValue ['\n', 'é']] ++ [.finishDocument])
    r.2.received = List.intercalate [0x0A] [[0x5B, 0x6E, 0x75, 0x6C, 0x6C, 0x5D], [0x22, 0x5C, 0x6E, 0xC3, 0xA9, 0x22]] ∧
      (match r.1 with | .ok rs => (match rs.getLast? with | some (.ok .unit) => true | _ => false) | _ => false) = true := by
  decide +kernel

/-- the characters with `escape_all_non_ascii`, also if the string is not finished -/
example : (∀ op ∈ [WOp.beginArray, .stringValueWriter [.write [0xC3], .write [0xA9, 0x01]] false], OpOk op) ∧ FinishLast [WOp.beginArray, .stringValueWriter [.write [0xC3], .write [0xA9, 0x01]] false] ∧
    (execW 4 { WSettings.default with escapeAllNonAscii := true } ⟨[0xFF], [.accept 3], []⟩ [.beginArray, .stringValueWriter [.write [0xC3], .write [0xA9, 0x01]] false]).2.received <+: [0xFF] ++ enc "[\"\\u00E9\\u0001".toList ∧
    8 ≤ (execW 4 { WSettings.default with escapeAllNonAscii := true } ⟨[0xFF], [.accept 3], []⟩ [.beginArray, .stringValueWriter [.write [0xC3], .write [0xA9, 0x01]] false]).2.received.length := by
  refine ⟨?_, ?_, by decide +kernel, by decide +kernel⟩
  · intro op h
    simp only [List.mem_cons, List.not_mem_nil, or_false] at h
    rcases h with rfl | rfl <;> trivial
  · simp [FinishLast]

/-- control characters with pretty printing and `escape_all_control_chars` -/
example : (∀ op ∈ [WOp.beginArray, .stringValue [Char.ofNat 0x85, Char.ofNat 0x7F]], OpOk op) ∧ FinishLast [WOp.beginArray, .stringValue [Char.ofNat 0x85, Char.ofNat 0x7F]] ∧
    (execW 4 { WSettings.default with escapeAllControlChars := true, prettyPrint := true } ⟨[0xFF], [.accept 3], []⟩ [.beginArray, .stringValue [Char.ofNat 0x85, Char.ofNat 0x7F]]).2.received <+: [0xFF] ++ enc "[\n  \"\\u0085\\u007F\"".toList ∧
    8 ≤ (execW 4 { WSettings.default with escapeAllControlChars := true, prettyPrint := true } ⟨[0xFF], [.accept 3], []⟩ [.beginArray, .stringValue [Char.ofNat 0x85, Char.ofNat 0x7F]]).2.received.length := by
  refine ⟨?_, ?_, by decide +kernel, by decide +kernel⟩
  · intro op h
    simp only [List.mem_cons, List.not_mem_nil, or_false] at h
    rcases h with rfl | rfl <;> trivial
  · simp [FinishLast]

end Verif.Props
