import Verif.Proofs.Writer.Exec
import Verif.Props.Documents
import Verif.Proofs.Abs.Step
/-!
# Writing documents

`execW N st sink ops` are the results of the calls `ops` on a new writer with buffer size `N` (1024 in the code), and the underlying `Write` afterwards,
whose behaviour is described by `sink`. `finish_document` consumes the writer, therefore it can only be the last call. `OpOk`: trusted, the text which the
standard library creates for a finite floating point number, and the number which was read by a reader, are JSON numbers.

`Steps st .empty ops w` (`Verif/Spec/Writer.lean`) says which values the calls write.
-/

namespace Verif.Props
open Writer WSpec Json

variable {N : Nat} {st : WSettings} {sink sink' : Sink}

/-- A call sequence which ends with `finish_document` -/
theorem finish_last {body : List WOp} (h : WOp.finishDocument ∉ body) : FinishLast (body ++ [.finishDocument]) := by
  intro op hop
  rw [List.dropLast_concat] at hop
  rintro rfl
  exact h hop

theorem op_ok_append {body : List WOp} (h : ∀ op ∈ body, OpOk op) : ∀ op ∈ body ++ [.finishDocument], OpOk op := by
  intro op hop
  rcases List.mem_append.1 hop with hop | hop
  · exact h op hop
  · rw [List.mem_singleton.1 hop]; exact trivial

theorem not_reported {rs : List (Except WErr WOut)} (h : rs.getLast? = some (.ok .unit)) : ¬ Reported rs := by
  rintro ⟨pre, r, post, rfl, hb, hp⟩
  rcases List.eq_nil_or_concat post with rfl | ⟨post, x, rfl⟩
  · rw [List.getLast?_concat] at h
    injection h with h
    subst h
    rcases hb with ⟨e, h, _⟩ | ⟨xs, f, h, _⟩ <;> cases h
  · have := hp x (by simp)
    subst this
    rw [List.concat_eq_append, ← List.cons_append, ← List.append_assoc, List.getLast?_concat] at h
    cases h

/-- what `finish_document` needs -/
theorem steps_finish {body : List WOp} {w w' : Written} (hall : Steps st w (body ++ [.finishDocument]) w') :
    ∃ vs, vs ≠ [] ∧ w' = ⟨vs, [], none⟩ ∧ Steps st w body w' := by
  obtain ⟨w1, h1, h2⟩ := steps_append.1 hall
  clear hall
  generalize ho : [WOp.finishDocument] = os at h2
  cases h2 with
  | nil => cases ho
  | cons h3 h4 =>
    injection ho with ho1 ho2
    subst ho1 ho2
    generalize ho : ([] : List WOp) = os at h4
    cases h4 with
    | cons _ _ => cases ho
    | nil =>
      cases h3 with
      | value _ h => cases h
      | rejected h => cases h
      | unfinished _ h => cases h
      | finish hne => exact ⟨_, hne, rfl, h1⟩

theorem bytes_complete (vs : List JVal) : Written.bytes st ⟨vs, [], none⟩ = topsBytes st vs := by
  simp [Written.bytes, framesBytes]

/-- Everything about a successful run -/
theorem run_success (hN : 0 < N) {body : List WOp} (hb : .finishDocument ∉ body) (hop : ∀ op ∈ body, OpOk op) {rs : List (Except WErr WOut)}
    (hrun : execW N st sink (body ++ [.finishDocument]) = (.ok rs, sink')) (hlast : rs.getLast? = some (.ok .unit)) :
    ∃ vs, vs ≠ [] ∧ Steps st .empty body ⟨vs, [], none⟩ ∧ WOk st ⟨vs, [], none⟩ ∧ sink'.received = sink.received ++ topsBytes st vs ∧ ResOks (body ++ [.finishDocument]) rs := by
  rcases exec_spec hN st sink (body ++ [.finishDocument]) with ⟨h1, h2, h3⟩ | ⟨_, h2, _⟩
  · rw [hrun] at h1 h2 h3
    cases run_outcome st (op_ok_append hop) (finish_last hb) with
    | done w rs' s1 s2 s3 s4 s5 s6 =>
      rw [s3] at h1
      injection h1 with h1
      subst h1
      obtain ⟨vs, hne, rfl, hs⟩ := steps_finish s1
      refine ⟨vs, hne, hs, s2, ?_, s4⟩
      rw [h3 (s6 (by simp)), s5, bytes_complete]
    | panic pre op post w u s1 s2 s3 s4 s5 s6 s7 =>
      rw [s5] at h1
      cases h1
  · exact absurd (h2 rs (by rw [hrun])) (not_reported hlast)

/-- C31: if the calls do not panic and `finish_document` succeeds, then the bytes which the underlying `Write` has received are JSON documents of the RFC 8259
grammar, separated by the configured separator, which denote exactly the values which were written; without separator it is exactly one document. -/
theorem C31_output_is_valid (hN : 0 < N) (body : List WOp) (hb : .finishDocument ∉ body) (hop : ∀ op ∈ body, OpOk op) {rs : List (Except WErr WOut)}
    (hrun : execW N st sink (body ++ [.finishDocument]) = (.ok rs, sink')) (hlast : rs.getLast? = some (.ok .unit)) :
    ∃ vs out, Steps st .empty body ⟨vs, [], none⟩ ∧ sink'.received = sink.received ++ out ∧ Documents st.separator vs out ∧
      (st.separator = none → ∃ v, vs = [v] ∧ IsDoc .rfc out v) := by
  obtain ⟨vs, hne, hs, hok, hr, _⟩ := run_success hN hb hop hrun hlast
  have hd := documents_of hok.tops hne hok.single
  refine ⟨vs, _, hs, hr, hd, fun hsep => ?_⟩
  generalize topsBytes st vs = out at hd
  cases hd with
  | one h => exact ⟨_, rfl, h⟩
  | more h => rw [hsep] at h; cases h

/-- the values which were written are determined by the calls -/
theorem C31_unique {ops : List WOp} {vs : List JVal} {w : Written} (h : Steps st .empty ops ⟨vs, [], none⟩) (h' : Steps st .empty ops w) : w = ⟨vs, [], none⟩ :=
  (like_eq (steps_unique h h') rfl).symm

/-- calls with a rejected number in between -/
def sampleCalls : List WOp := [.beginArray, .stringValue ['a', '"'], .numberValueFromString ['0', '1'], .numberValue (.int .i32 (-5)), .beginObject, .name ['b'],
  .stringValueWriter [.write [0xC3], .flush, .write [0xA9]] true, .endObject, .endArray]

/-- `["a\"",-5,{"b":"é"}]` -/
def sampleOutput : Bytes := [0x5B, 0x22, 0x61, 0x5C, 0x22, 0x22, 0x2C, 0x2D, 0x35, 0x2C, 0x7B, 0x22, 0x62, 0x22, 0x3A, 0x22, 0xC3, 0xA9, 0x22, 0x7D, 0x5D]

/-- the hypotheses are satisfied by a run with a short buffer, short and interrupted writes -/
example : let r := execW 4 WSettings.default ⟨[], [.accept 1, .interrupted, .accept 2], []⟩ (sampleCalls ++ [.finishDocument])
    r.2.received = sampleOutput ∧ (match r.1 with | .ok rs => (match rs.getLast? with | some (.ok .unit) => true | _ => false) | _ => false) = true := by
  decide +kernel

/-- C32: what was written is read back, with any reader settings whose limits (nesting depth and, if enabled, the number restriction) are observed by the
values; for a single top-level value. -/
theorem C32_round_trip (hN : 0 < N) (body : List WOp) (hb : .finishDocument ∉ body) (hop : ∀ op ∈ body, OpOk op) {rs : List (Except WErr WOut)}
    (hsink : sink.received = []) (hsep : st.separator = none)
    (hrun : execW N st sink (body ++ [.finishDocument]) = (.ok rs, sink')) (hlast : rs.getLast? = some (.ok .unit)) :
    ∃ v, Steps st .empty body ⟨[v], [], none⟩ ∧ ∀ (M : Nat) (rst : Settings) (sched : List ReadEvent) (n : Nat), 0 < M → Delivers sched sink'.received none →
      2 * sink'.received.length < n → Within rst.maxNestingDepth rst.restrictNumberValues v → Prog.exec M rst sched (Prog.readDoc n) = .ok v := by
  obtain ⟨vs, hne, hs, hok, hr, _⟩ := run_success hN hb hop hrun hlast
  rw [hsink, List.nil_append] at hr
  match vs, hne, hok, hs, hr with
  | [v], _, hok, hs, hr =>
    refine ⟨v, hs, fun M rst sched n hM hd hn hw => (C11_C12_read_document hM rst hd hn v).2 ⟨⟨[], cst st 0 v, ⟨[], none⟩⟩, ⟨nofun, cst_ok 0 v hok.tops.1, nofun, nofun⟩, ?_, cst_value 0 v hok.tops.1, cst_within hw 0⟩⟩
    rw [hr, topsBytes]
    simp [Doc.bytes, Ws.bytes, TrailWs.bytes]
  | u :: v :: vs, _, hok, _, _ =>
    rcases hok.single with h | h
    · simp at h
    · exact absurd hsep h

/-- the output of `sampleCalls` -/
example : Prog.exec 3 Settings.default [.data sampleOutput] (Prog.readDoc 50) = .ok (.arr [.str ['a', '"'], .num ['-', '5'], .obj [(['b'], .str ['é'])]]) := by
  decide +kernel

/-- C32 for multiple top-level values with whitespace as separator (or also comments, if the reader allows them) -/
theorem C32_round_trip_multiple (hN : 0 < N) (body : List WOp) (hb : .finishDocument ∉ body) (hop : ∀ op ∈ body, OpOk op) {rs : List (Except WErr WOut)}
    (hsink : sink.received = []) {sp : Text} (hsep : st.separator = some sp)
    (hrun : execW N st sink (body ++ [.finishDocument]) = (.ok rs, sink')) (hlast : rs.getLast? = some (.ok .unit)) :
    ∃ vs, Steps st .empty body ⟨vs, [], none⟩ ∧ ∀ (M : Nat) (rst : Settings) (sched : List ReadEvent) (n : Nat) (ws : Ws), 0 < M →
      rst.allowMultipleTopLevel = true → ws ≠ [] → ws.Ok rst.allowComments → enc sp = ws.bytes → Delivers sched sink'.received none →
      2 * sink'.received.length + 1 < n → (∀ v ∈ vs, Within rst.maxNestingDepth rst.restrictNumberValues v) → Prog.exec M rst sched (Prog.readAll n) = .ok vs := by
  obtain ⟨vs, hne, hs, hok, hr, _⟩ := run_success hN hb hop hrun hlast
  rw [hsink, List.nil_append] at hr
  refine ⟨vs, hs, fun M rst sched n ws hM hm hne' hws hsp hd hn hw => (C27_multiple_top_level hM rst hm hd hn vs).2 ⟨hne, ?_⟩⟩
  obtain ⟨t, h1, h2, h3, h4⟩ := tops_of (st := st) (cfg := ⟨rst.allowComments, rst.allowTrailingComma⟩) hws hne' (by rw [topSep, hsep]; exact hsp) vs true hok.tops hw
  exact ⟨t, h1 false (.inr rfl), by rw [h4, hr]; rfl, h2, h3⟩

/-- three values separated by a space -/
example : (execW 2 ⟨false, false, false, some [' ']⟩ ⟨[], [], []⟩ [.boolValue true, .beginArray, .endArray, .nullValue, .finishDocument]).2.received =
      [0x74, 0x72, 0x75, 0x65, 0x20, 0x5B, 0x5D, 0x20, 0x6E, 0x75, 0x6C, 0x6C] ∧
    Prog.exec 3 { Settings.default with allowMultipleTopLevel := true } [.data [0x74, 0x72, 0x75, 0x65, 0x20, 0x5B, 0x5D, 0x20, 0x6E, 0x75, 0x6C, 0x6C]] (Prog.readAll 30) =
      .ok [.bool true, .arr [], .null] := by
  decide +kernel

theorem calls_ok (v : JVal) : (∀ op ∈ calls v, OpOk op) ∧ ∀ op ∈ calls v, ¬ ∃ ops fin, op = .stringValueWriter ops fin := by
  refine JVal.rec (motive_1 := fun v => (∀ op ∈ calls v, OpOk op) ∧ ∀ op ∈ calls v, ¬ ∃ ops fin, op = .stringValueWriter ops fin)
    (motive_2 := fun vs => (∀ op ∈ callsItems vs, OpOk op) ∧ ∀ op ∈ callsItems vs, ¬ ∃ ops fin, op = .stringValueWriter ops fin)
    (motive_3 := fun ms => (∀ op ∈ callsMembers ms, OpOk op) ∧ ∀ op ∈ callsMembers ms, ¬ ∃ ops fin, op = .stringValueWriter ops fin)
    (motive_4 := fun m => (∀ op ∈ calls m.2, OpOk op) ∧ ∀ op ∈ calls m.2, ¬ ∃ ops fin, op = .stringValueWriter ops fin) ?_ ?_ ?_ ?_ ?_ ?_ ?_ ?_ ?_ ?_ ?_ v
  · simp [calls, OpOk]
  · simp [calls, OpOk]
  · simp [calls, OpOk]
  · simp [calls, OpOk]
  · intro vs h
    rw [calls]
    refine ⟨fun op hop => ?_, fun op hop => ?_⟩
    all_goals
      rcases List.mem_cons.1 hop with rfl | hop
      · first | exact trivial | (rintro ⟨_, _, h⟩; cases h)
      · rcases List.mem_append.1 hop with hop | hop
        · first | exact h.1 op hop | exact h.2 op hop
        · rw [List.mem_singleton.1 hop]; first | exact trivial | (rintro ⟨_, _, h⟩; cases h)
  · intro vs h
    rw [calls]
    refine ⟨fun op hop => ?_, fun op hop => ?_⟩
    all_goals
      rcases List.mem_cons.1 hop with rfl | hop
      · first | exact trivial | (rintro ⟨_, _, h⟩; cases h)
      · rcases List.mem_append.1 hop with hop | hop
        · first | exact h.1 op hop | exact h.2 op hop
        · rw [List.mem_singleton.1 hop]; first | exact trivial | (rintro ⟨_, _, h⟩; cases h)
  · simp [callsItems]
  · intro v vs h1 h2
    rw [callsItems]
    refine ⟨fun op hop => ?_, fun op hop => ?_⟩
    all_goals
      rcases List.mem_append.1 hop with hop | hop
      · first | exact h1.1 op hop | exact h1.2 op hop
      · first | exact h2.1 op hop | exact h2.2 op hop
  · simp [callsMembers]
  · rintro ⟨n, v⟩ ms h1 h2
    rw [callsMembers]
    refine ⟨fun op hop => ?_, fun op hop => ?_⟩
    all_goals
      rcases List.mem_cons.1 hop with rfl | hop
      · first | exact trivial | (rintro ⟨_, _, h⟩; cases h)
      · rcases List.mem_append.1 hop with hop | hop
        · first | exact h1.1 op hop | exact h1.2 op hop
        · first | exact h2.1 op hop | exact h2.2 op hop
  · exact fun _ _ h => h

theorem resOks_last {ops : List WOp} {op : WOp} {rs : List (Except WErr WOut)} (h : ResOks (ops ++ [op]) rs) (hr : ¬ Rejected op) (hs : ¬ ∃ ops fin, op = .stringValueWriter ops fin) :
    rs.getLast? = some (.ok .unit) := by
  induction ops generalizing rs with
  | nil =>
    match rs, h with
    | [r], h =>
      rcases h.1 with h1 | ⟨_, out, h2, h3⟩
      · exact absurd h1.1 hr
      · subst h2
        rcases h3 with h4 | h4
        · subst h4; rfl
        · exact absurd h4 hs
  | cons o os ih =>
    match rs, h with
    | r :: rs, h =>
      have := ih h.2
      cases rs with
      | nil => cases this
      | cons r' rs => rw [List.getLast?_cons_cons]; exact this

/-- C32 for any value: there are calls which write it; if the underlying `Write` does not fail they succeed, and reading the output yields the value. -/
theorem C32_round_trip_value (hN : 0 < N) (v : JVal) (hv : Numbers IsNumber v) (hsink : sink.received = []) (hrel : sink.Reliable) :
    ∃ rs, (execW N st sink (calls v ++ [.finishDocument])).1 = .ok rs ∧ rs.getLast? = some (.ok .unit) ∧
      ∀ (M : Nat) (rst : Settings) (sched : List ReadEvent) (n : Nat), 0 < M → Delivers sched (execW N st sink (calls v ++ [.finishDocument])).2.received none →
        2 * (execW N st sink (calls v ++ [.finishDocument])).2.received.length < n → Within rst.maxNestingDepth rst.restrictNumberValues v →
        Prog.exec M rst sched (Prog.readDoc n) = .ok v := by
  have hcalls := calls_steps (st := st) v ((jok_iff v).2 hv) .empty ⟨rfl, .inl rfl⟩
  have hfin : Steps st .empty (calls v ++ [.finishDocument]) ⟨[v], [], none⟩ := steps_app hcalls (steps_one (.finish (by simp)))
  rcases exec_spec hN st sink (calls v ++ [.finishDocument]) with ⟨h1, h2, h3⟩ | ⟨h1, _⟩
  · cases run_outcome st (op_ok_append (calls_ok v).1) (finish_last (calls_no_finish v)) with
    | done w rs s1 s2 s3 s4 s5 s6 =>
      have hlast := resOks_last s4 nofun (by rintro ⟨_, _, h⟩; cases h)
      refine ⟨rs, by rw [h1, s3], hlast, fun M rst sched n hM hd hn hw => ?_⟩
      have hw' := C31_unique hfin s1
      subst hw'
      have hj : JOk v := (jok_iff v).2 hv
      refine (C11_C12_read_document hM rst hd hn v).2 ⟨⟨[], cst st 0 v, ⟨[], none⟩⟩, ⟨nofun, cst_ok 0 v hj, nofun, nofun⟩, ?_, cst_value 0 v hj, cst_within hw 0⟩
      rw [h3 (s6 (by simp)), hsink, s5, bytes_complete, topsBytes]
      simp [Doc.bytes, Ws.bytes, TrailWs.bytes]
    | panic pre op post w u s1 s2 s3 s4 s5 s6 _ =>
      exfalso
      rw [s1] at hfin
      obtain ⟨w1, t1, t2⟩ := steps_append.1 hfin
      cases t2 with
      | cons t3 t4 =>
        obtain ⟨w2, t5, _⟩ := step_like (steps_unique t1 s2) t3
        exact s4 ⟨w2, t5⟩
  · exact absurd hrel h1

/-- the value `{"a":[1,true]}` has valid numbers, and nesting depth 2 -/
example : let v : JVal := .obj [(['a'], .arr [.num ['1'], .bool true])]
    Numbers IsNumber v ∧ (⟨[], [], []⟩ : Sink).Reliable ∧ Within (some 2) true v ∧ ¬ Within (some 1) true v := by
  have h1 : IsNumber (enc ['1']) := ⟨⟨false, [0x31], none, none⟩, ⟨.inr ⟨0x31, [], rfl, rfl, by decide, by simp⟩, nofun, nofun⟩, rfl⟩
  refine ⟨?_, ⟨nofun, nofun⟩, ⟨?_, ?_⟩, ?_⟩
  · simp only [Numbers, NumbersMembers, NumbersItems, and_true]; exact h1
  · rintro n ⟨⟩; decide
  · simp only [Numbers, NumbersMembers, NumbersItems, and_true]
    exact fun h => absurd ((Verif.Abs.unsupported_iff h1).2 h.2) (by decide)
  · exact fun h => absurd (h.1 1 rfl) (by decide)

/-! ## Settings -/

theorem steps_settings {st st' : WSettings} (hs : st.separator = none ↔ st'.separator = none) {w w' : Written} {ops : List WOp} (h : Steps st w ops w') : Steps st' w ops w' := by
  have hca : ∀ {w : Written}, w.CanAdd st → w.CanAdd st' := by
    rintro ⟨tops, frames, str⟩ ⟨h1, h2⟩
    refine ⟨h1, ?_⟩
    match frames, h2 with
    | [], h2 => exact h2.imp id fun h h' => h (hs.2 h')
    | .arr _ :: _, _ => trivial
    | .obj _ (some _) :: _, _ => trivial
  induction h with
  | nil => exact .nil
  | cons h _ ih =>
    refine .cons ?_ ih
    cases h with
    | value h1 h2 => exact .value (hca h1) h2
    | rejected h => exact .rejected h
    | unfinished h1 h2 => exact .unfinished (hca h1) h2
    | beginArray h => exact .beginArray (hca h)
    | beginObject h => exact .beginObject (hca h)
    | endArray => exact .endArray
    | endObject => exact .endObject
    | name => exact .name
    | finish h => exact .finish h

/-- C33: with other settings for pretty printing and escaping the same calls succeed (also if a separator is replaced by another one), and write the same
values. -/
theorem C33_same_values (hN : 0 < N) (body : List WOp) (hb : .finishDocument ∉ body) (hop : ∀ op ∈ body, OpOk op) {rs : List (Except WErr WOut)}
    (hrun : execW N st sink (body ++ [.finishDocument]) = (.ok rs, sink')) (hlast : rs.getLast? = some (.ok .unit))
    {st2 : WSettings} (hs : st.separator = none ↔ st2.separator = none) {N2 : Nat} (hN2 : 0 < N2) {sink2 : Sink} (hrel : sink2.Reliable) :
    ∃ vs out out2, sink'.received = sink.received ++ out ∧ Documents st.separator vs out ∧
      (∃ rs2, (execW N2 st2 sink2 (body ++ [.finishDocument])).1 = .ok rs2 ∧ rs2.getLast? = some (.ok .unit)) ∧
      (execW N2 st2 sink2 (body ++ [.finishDocument])).2.received = sink2.received ++ out2 ∧ Documents st2.separator vs out2 := by
  obtain ⟨vs, hne, hst, hok, hr, _⟩ := run_success hN hb hop hrun hlast
  have hfin : Steps st2 .empty (body ++ [.finishDocument]) ⟨vs, [], none⟩ := steps_app (steps_settings hs hst) (steps_one (.finish hne))
  rcases exec_spec hN2 st2 sink2 (body ++ [.finishDocument]) with ⟨h1, h2, h3⟩ | ⟨h1, _⟩
  · cases run_outcome st2 (op_ok_append hop) (finish_last hb) with
    | done w rs s1 s2 s3 s4 s5 s6 =>
      have hlast := resOks_last s4 nofun (by rintro ⟨_, _, h⟩; cases h)
      have hw' := C31_unique hfin s1
      subst hw'
      exact ⟨vs, _, _, hr, documents_of hok.tops hne hok.single, ⟨rs, by rw [h1, s3], hlast⟩, by rw [h3 (s6 (by simp)), s5, bytes_complete], documents_of s2.tops hne s2.single⟩
    | panic pre op post w u s1 s2 s3 s4 s5 s6 _ =>
      exfalso
      rw [s1] at hfin
      obtain ⟨w1, t1, t2⟩ := steps_append.1 hfin
      cases t2 with
      | cons t3 t4 =>
        obtain ⟨w2, t5, _⟩ := step_like (steps_unique t1 s2) t3
        exact s4 ⟨w2, t5⟩
  · exact absurd hrel h1

/-- `["é"]` pretty printed and without non-ASCII characters -/
example : (execW 8 WSettings.default ⟨[], [], []⟩ [.beginArray, .stringValue ['é'], .endArray, .finishDocument]).2.received = [0x5B, 0x22, 0xC3, 0xA9, 0x22, 0x5D] ∧
    (execW 8 ⟨true, true, true, none⟩ ⟨[], [], []⟩ [.beginArray, .stringValue ['é'], .endArray, .finishDocument]).2.received =
      [0x5B, 0x0A, 0x20, 0x20, 0x22, 0x5C, 0x75, 0x30, 0x30, 0x45, 0x39, 0x22, 0x0A, 0x5D] := by
  decide +kernel

/-- C33, pretty printing: the output of a single value is a syntax tree; without pretty printing the output is the same tree without whitespace between the
tokens. -/
theorem C33_pretty_print_only_whitespace (hN : 0 < N) (body : List WOp) (hb : .finishDocument ∉ body) (hop : ∀ op ∈ body, OpOk op)
    (hsep : st.separator = none) {rs rs2 : List (Except WErr WOut)} {sink2 sink2' : Sink}
    (hrun : execW N st sink (body ++ [.finishDocument]) = (.ok rs, sink')) (hlast : rs.getLast? = some (.ok .unit))
    {N2 : Nat} (hN2 : 0 < N2) (hrun2 : execW N2 { st with prettyPrint := false } sink2 (body ++ [.finishDocument]) = (.ok rs2, sink2')) (hlast2 : rs2.getLast? = some (.ok .unit)) :
    ∃ c : Cst, c.Ok .rfc ∧ sink'.received = sink.received ++ c.bytes ∧ sink2'.received = sink2.received ++ (stripWs c).bytes := by
  obtain ⟨vs, hne, hst, hok, hr, _⟩ := run_success hN hb hop hrun hlast
  obtain ⟨vs2, hne2, hst2, hok2, hr2, _⟩ := run_success hN2 hb hop hrun2 hlast2
  have h := C31_unique hst (steps_settings (by rfl) hst2)
  injection h with h
  subst h
  match vs2, hne, hok, hr, hr2 with
  | [v], _, hok, hr, hr2 =>
    refine ⟨cst st 0 v, cst_ok 0 v hok.tops.1, by rw [hr]; simp [topsBytes], ?_⟩
    rw [hr2, strip_cst 0 0 v]
    simp [topsBytes, plain]
  | u :: v :: vs, _, hok, _, _ =>
    rcases hok.single with h | h
    · simp at h
    · exact absurd hsep h

/-- whitespace of a tree is removed, but not inside of string literals -/
example : (stripWs (.arr (.cons (.plain [.space 0x20]) (.str ⟨[.char ' '], [' ']⟩) (.nil (.plain [.space 0x0A]))))).bytes = [0x5B, 0x22, 0x20, 0x22, 0x5D] := by
  decide +kernel

/-! ## Buffering -/

/-- C38: whatever the buffer size and the behaviour of the underlying `Write`: if none of its calls fails, then the results do not depend on it and it has
received a prefix of what the writer emitted, after `finish_document` all of it; otherwise the failure is reported and the underlying `Write` has received a
prefix, and there are no successful calls afterwards. This is for arbitrary call sequences. `emitted st ops` are the pieces which are passed to
`write_bytes`, in that order. -/
theorem C38_buffering (hN : 0 < N) (st : WSettings) (sink : Sink) (ops : List WOp) :
    (execW N st sink ops).2.received <+: sink.received ++ emitted st ops ∧
    ((execW N st sink ops).1 = results st ops ∨ (¬ sink.Reliable ∧ ∀ rs, (execW N st sink ops).1 = .ok rs → Reported rs)) ∧
    (∀ rs, (execW N st sink ops).1 = .ok rs → rs.getLast? = some (.ok .unit) → ops.getLast? = some .finishDocument → FinishLast ops → (∀ op ∈ ops, OpOk op) →
      (execW N st sink ops).2.received = sink.received ++ emitted st ops) := by
  rcases exec_spec hN st sink ops with ⟨h1, h2, h3⟩ | ⟨h1, h2, h3⟩
  · refine ⟨h2, .inl h1, fun rs hrs _ hl hfl hop => h3 ?_⟩
    cases run_outcome st hop hfl with
    | done w rs s1 s2 s3 s4 s5 s6 => exact s6 hl
    | panic pre op post w u s1 s2 s3 s4 s5 s6 _ => rw [h1, s5] at hrs; cases hrs
  · exact ⟨h3, .inr ⟨h1, h2⟩, fun rs hrs hl _ _ _ => absurd (h2 rs hrs) (not_reported hl)⟩

/-- with an underlying `Write` which fails after two bytes -/
example : (execW 2 WSettings.default ⟨[], [.accept 1, .accept 2, .error 7], []⟩ [.boolValue false, .finishDocument]).2.received = [0x66, 0x61] ∧
    (match (execW 2 WSettings.default ⟨[], [.accept 1, .accept 2, .error 7], []⟩ [.boolValue false, .finishDocument]).1 with | .ok [.error (.io 7)] => true | _ => false) = true := by
  decide +kernel

/-- C38 for the buffer alone: pieces of arbitrary length which are written without failure, and then flushed, arrive in order, completely and once. -/
theorem C38_pieces (hN : 0 < N) (sink : Sink) (pieces : List Bytes) (hrel : sink.Reliable) :
    ∃ k, (pieces.foldl (fun (m : M SinkErr BufSink Unit) bs => m >>= fun _ => Writer.writeBytes bs) (pure ()) >>= fun _ => Writer.flush).run (BufSink.new N sink) = .ok () k ∧
      k.sink.received = sink.received ++ pieces.flatten ∧ k.pos = 0 := by
  suffices h : ∀ (m : M SinkErr BufSink Unit) (k : BufSink), m.run (BufSink.new N sink) = .ok () k → k.Good → k.sink.Reliable →
      ∃ k', (pieces.foldl (fun (m : M SinkErr BufSink Unit) bs => m >>= fun _ => Writer.writeBytes bs) m).run (BufSink.new N sink) = .ok () k' ∧ k'.Good ∧ k'.sink.Reliable ∧
        k'.out = k.out ++ pieces.flatten by
    obtain ⟨k, h1, h2, h3, h4⟩ := h (pure ()) _ rfl (new_good hN _) hrel
    rw [new_out] at h4
    rw [M.run_bind, h1]
    dsimp only
    rcases flush_spec h2 with ⟨k', e1, e2, e3, e4, e5, e6⟩ | ⟨e, k', e1, e2, e3, _⟩
    · refine ⟨k', e1, ?_, e5⟩
      rw [← h4, ← e4, BufSink.out, e5]
      simp
    · exact absurd h3 e3
  induction pieces with
  | nil => exact fun m k h1 h2 h3 => ⟨k, h1, h2, h3, by simp⟩
  | cons bs pieces ih =>
    intro m k h1 h2 h3
    rw [List.foldl_cons]
    rcases writeBytes_spec (bytes := bs) h2 with ⟨k', e1, e2, e3, e4, e5, e6⟩ | ⟨e, k', e1, hio, e2, e3⟩
    · obtain ⟨k2, t1, t2, t3, t4⟩ := ih (m >>= fun _ => Writer.writeBytes bs) k' (by rw [M.run_bind, h1]; exact e1) e2 (e5 h3)
      exact ⟨k2, t1, t2, t3, by rw [t4, e4]; simp⟩
    · exact absurd h3 (by first | exact e2 | exact e3.2 | exact e3)

/-! ## Misuse -/

/-- C39, first part: if the underlying `Write` does not fail, then a call panics if and only if it is not allowed; there are no other panics. The
specification `Step` of the allowed calls does not depend on the writer. -/
theorem C39_panics_iff_misuse (hN : 0 < N) (st : WSettings) (sink : Sink) (hrel : sink.Reliable) (ops : List WOp) (hfin : FinishLast ops) (hop : ∀ op ∈ ops, OpOk op) :
    ((∃ p, (execW N st sink ops).1 = .error p) ↔ ¬ ∃ w, Steps st .empty ops w) ∧ (∀ p, (execW N st sink ops).1 = .error p → ∃ u, p = .usage u) := by
  rcases exec_spec hN st sink ops with ⟨h1, _⟩ | ⟨h1, _⟩
  · rw [h1]
    cases run_outcome st hop hfin with
    | done w rs s1 s2 s3 s4 s5 s6 =>
      rw [s3]
      exact ⟨⟨fun ⟨p, h⟩ => (by cases h), fun h => absurd ⟨w, s1⟩ h⟩, fun p h => (by cases h)⟩
    | panic pre op post w u s1 s2 s3 s4 s5 s6 _ =>
      rw [s5]
      refine ⟨⟨fun _ => ?_, fun _ => ⟨_, rfl⟩⟩, ?_⟩
      · rintro ⟨w', h⟩
        rw [s1] at h
        obtain ⟨w1, t1, t2⟩ := steps_append.1 h
        cases t2 with
        | cons t3 t4 =>
          obtain ⟨w2, t5, _⟩ := step_like (steps_unique t1 s2) t3
          exact s4 ⟨w2, t5⟩
      · rintro p h; injection h with h; exact ⟨u, h.symm⟩
  · exact absurd hrel h1

/-- C39, for an underlying `Write` which may fail: there are no further panics, unless its failure ended a string value writer -/
theorem C39_any_sink (hN : 0 < N) (st : WSettings) (sink : Sink) (ops : List WOp) (hfin : FinishLast ops) (hop : ∀ op ∈ ops, OpOk op) (hs : ¬ HasString ops) {p : WPanic}
    (h : (execW N st sink ops).1 = .error p) : (¬ ∃ w, Steps st .empty ops w) ∧ ∃ u, p = .usage u := by
  have hr : results st ops = .error p := by
    have hq := run_spec_panics (quiet_wops ops (Core.new st)) (new_good (s := sink) hN)
    unfold results
    unfold execW at h
    revert h hq
    generalize ((wops ops).run (Core.new st)) = t
    generalize t.run.run (BufSink.new N sink) = r
    intro h hq
    match r, h, hq with
    | .ok (.ok rs, _) k, h, _ => cases h
    | .ok (.error e, _) _, _, _ => exact nomatch e
    | .err p' k, h, hq =>
      cases h
      rcases hq with ⟨q1, _⟩ | ⟨_, _, _, q⟩
      · rw [← q1]; rfl
      · obtain ⟨b, hb⟩ := q hs
        cases hb
  cases run_outcome st hop hfin with
  | done w rs s1 s2 s3 s4 s5 s6 => rw [s3] at hr; cases hr
  | panic pre op post w u s1 s2 s3 s4 s5 s6 _ =>
    rw [s5] at hr
    refine ⟨?_, u, by cases hr; rfl⟩
    rintro ⟨w', h⟩
    rw [s1] at h
    obtain ⟨w1, t1, t2⟩ := steps_append.1 h
    cases t2 with
    | cons t3 t4 =>
      obtain ⟨w2, t5, _⟩ := step_like (steps_unique t1 s2) t3
      exact s4 ⟨w2, t5⟩

/-- after the failure in a string value writer the next call panics although it would be allowed otherwise -/
example : (match (execW 1 WSettings.default ⟨[], [.accept 1, .accept 1, .error 7], []⟩ [.beginArray, .stringValueWriter [.write [0x61, 0x62]] false, .endArray]).1 with
  | .error (.usage _) => true
  | _ => false) = true := by decide +kernel

/-- a second value without separator -/
example : (match (execW 4 WSettings.default ⟨[], [], []⟩ [.nullValue, .nullValue]).1 with | .error (.usage _) => true | _ => false) = true ∧
    ¬ ∃ w, Steps WSettings.default .empty [.nullValue, .nullValue] w := by
  refine ⟨by decide +kernel, ?_⟩
  have := (C39_panics_iff_misuse (N := 4) (by decide) WSettings.default ⟨[], [], []⟩ ⟨nofun, nofun⟩ [.nullValue, .nullValue] (by intro op h; simp at h; subst h; nofun)
    (by intro op h; simp at h; subst h; trivial)).1.1
  apply this
  have h : (match (execW 4 WSettings.default ⟨[], [], []⟩ [.nullValue, .nullValue]).1 with | .error _ => true | _ => false) = true := by decide +kernel
  revert h
  cases (execW 4 WSettings.default ⟨[], [], []⟩ [.nullValue, .nullValue]).1 with
  | ok _ => exact nofun
  | error p => exact fun _ => ⟨p, rfl⟩

/-- C39, second part: a call which panics emits nothing -/
theorem C39_panic_emits_nothing (hN : 0 < N) (st : WSettings) (sink : Sink) (hrel : sink.Reliable) (ops : List WOp) (hfin : FinishLast ops) (hop : ∀ op ∈ ops, OpOk op)
    {p : WPanic} (hp : (execW N st sink ops).1 = .error p) :
    ∃ pre op post w, ops = pre ++ op :: post ∧ Steps st .empty pre w ∧ (¬ ∃ w', Step st w op w') ∧ emitted st ops = emitted st pre := by
  rcases exec_spec hN st sink ops with ⟨h1, _⟩ | ⟨h1, _⟩
  · rw [h1] at hp
    cases run_outcome st hop hfin with
    | done w rs s1 s2 s3 s4 s5 s6 => rw [s3] at hp; cases hp
    | panic pre op post w u s1 s2 s3 s4 s5 s6 s7 => exact ⟨pre, op, post, w, s1, s2, s4, s7⟩
  · exact absurd hrel h1

/-- C39, third part: at any time the underlying `Write` has received a prefix of JSON documents, whatever it does, and also if there are panics. -/
theorem C39_prefix_of_documents (hN : 0 < N) (st : WSettings) (sink : Sink) (ops : List WOp) (hfin : FinishLast ops) (hop : ∀ op ∈ ops, OpOk op) :
    ∃ vs out, Documents st.separator vs out ∧ (execW N st sink ops).2.received <+: sink.received ++ out := by
  have hw : ∃ w, WOk st w ∧ emitted st ops = w.bytes st := by
    cases run_outcome st hop hfin with
    | done w rs s1 s2 s3 s4 s5 s6 => exact ⟨w, s2, s5⟩
    | panic pre op post w u s1 s2 s3 s4 s5 s6 _ => exact ⟨w, s3, s6⟩
  obtain ⟨w, h1, h2⟩ := hw
  obtain ⟨vs, t1, t2, t3⟩ := written_prefix h1
  refine ⟨vs, _, documents_of t1.tops t2 t1.single, List.IsPrefix.trans (C38_buffering hN st sink ops).1 ?_⟩
  rw [h2]
  exact (List.prefix_append_right_inj _).2 t3

example : (execW 1 WSettings.default ⟨[], [], []⟩ [.beginArray, .beginObject, .name ['a'], .endArray]).2.received <+: [0x5B, 0x7B, 0x22, 0x61, 0x22, 0x3A, 0x31, 0x7D, 0x5D] := by
  decide +kernel

/-! ## Output is incremental -/

/-- C42: the emitted bytes of a call sequence are a prefix of the emitted bytes of every extension -/
theorem C42_incremental (st : WSettings) (ops more : List WOp) : emitted st ops <+: emitted st (ops ++ more) := by
  suffices h : ∀ c, ((wops ops).run c).ideal.2 <+: ((wops (ops ++ more)).run c).ideal.2 from h _
  induction ops with
  | nil => intro c; rw [wops]; exact List.nil_prefix
  | cons o os ih =>
    intro c
    rw [List.cons_append, wops, wops, ideal_bind, ideal_bind]
    rcases ((wop o).run c).ideal with ⟨p | ⟨x | x, c'⟩, bs⟩
    · exact List.prefix_rfl
    · dsimp only
      split
      · refine (List.prefix_append_right_inj _).2 ?_
        rw [ideal_bind, ideal_bind]
        have h := ih c'
        revert h
        rcases ((wops os).run c').ideal with ⟨p | ⟨x | x, c'⟩, bs⟩
        · rcases ((wops (os ++ more)).run _).ideal with ⟨p | ⟨x | x, c'⟩, bs⟩
          · exact id
          · exact nomatch x
          · simp [Tree.ideal]
        · exact nomatch x
        · rcases ((wops (os ++ more)).run _).ideal with ⟨p | ⟨x | x, c'⟩, bs⟩
          · simp [Tree.ideal]
          · exact nomatch x
          · simp [Tree.ideal]
      · exact List.prefix_rfl
    · dsimp only
      split
      · exact List.prefix_rfl
      · refine (List.prefix_append_right_inj _).2 ?_
        rw [ideal_bind, ideal_bind]
        have h := ih c'
        revert h
        rcases ((wops os).run c').ideal with ⟨p | ⟨x | x, c'⟩, bs⟩
        · rcases ((wops (os ++ more)).run _).ideal with ⟨p | ⟨x | x, c'⟩, bs⟩
          · exact id
          · exact nomatch x
          · simp [Tree.ideal]
        · exact nomatch x
        · rcases ((wops (os ++ more)).run _).ideal with ⟨p | ⟨x | x, c'⟩, bs⟩
          · simp [Tree.ideal]
          · exact nomatch x
          · simp [Tree.ideal]

example : emitted WSettings.default [.beginArray, .nullValue] = [0x5B, 0x6E, 0x75, 0x6C, 0x6C] ∧
    emitted WSettings.default ([.beginArray, .nullValue] ++ [.endArray, .endArray]) = [0x5B, 0x6E, 0x75, 0x6C, 0x6C, 0x5D] := by
  decide +kernel

end Verif.Props
