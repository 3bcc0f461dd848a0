import Verif.Proofs.Kinds.Run
import Verif.Props.Peeking
/-!
# C71: Which method may fail with which error

Documentation of `ReaderError` (reader/mod.rs 335–583), of the settings (stream_reader.rs 236–346) and sections "Errors" of the methods of `JsonReader` (reader/mod.rs 744–1807).
-/

namespace Verif.Props
open Reader ErrorKinds

private theorem delivers_exists : ∀ sched : List ReadEvent, ∃ bytes e, Delivers sched bytes e
  | [] => ⟨_, _, .done⟩
  | .data [] :: _ => ⟨_, _, .eof _⟩
  | .error c :: _ => ⟨_, _, .failed c _⟩
  | .interrupted :: es => let ⟨_, _, h⟩ := delivers_exists es; ⟨_, _, .interrupted h⟩
  | .data (b :: ds) :: es => let ⟨_, _, h⟩ := delivers_exists es; ⟨_, _, .data b ds h⟩

/-- the calls up to one of them -/
private theorem runOps_upto {σ : Type} [ByteSource σ] : ∀ (ops : List Op) {s : RState σ} {i : Nat} {r : Except RErr Out} {op : Op}, (runOps ops s)[i]? = some r → ops[i]? = some op →
    ∃ pre rs, rs.length = pre.length ∧ runOps (pre ++ [op]) s = rs ++ [r]
  | [], _, _, _, _, h, _ => by cases h
  | o :: ops, s, 0, r, op, h, ho => by
    cases ho
    refine ⟨[], [], rfl, ?_⟩
    simp only [runOps, List.nil_append] at *
    cases hm : (runOp o).run s <;> rw [hm] at h <;> cases h <;> simp
  | o :: ops, s, i + 1, r, op, h, ho => by
    rw [List.getElem?_cons_succ] at ho
    have key : ∀ {x : Except RErr Out} {s' : RState σ}, (∀ l, runOps (o :: l) s = x :: runOps l s') → ∃ pre rs, rs.length = pre.length ∧ runOps (pre ++ [op]) s = rs ++ [r] := by
      intro x s' hx
      rw [hx, List.getElem?_cons_succ] at h
      obtain ⟨pre, rs, h1, h2⟩ := runOps_upto ops h ho
      exact ⟨o :: pre, x :: rs, by simp [h1], by rw [List.cons_append, hx, h2, List.cons_append]⟩
    cases hm : (runOp o).run s with
    | ok a s' =>
      by_cases hc : o = .consumeTrailingWhitespace
      · simp [runOps, hc] at h
        subst hc
        rw [hm] at h
        cases h
      · exact key (x := .ok a) (s' := s') fun l => by simp [runOps, hm, hc]
    | err e s' =>
      by_cases hc : (e.fatal || o = .consumeTrailingWhitespace) = true
      · unfold runOps at h
        rw [hm] at h
        dsimp only at h
        rw [if_pos hc] at h
        cases h
      · exact key fun l => by
          rw [runOps, hm]
          dsimp only
          rw [if_neg hc]

/-- C71: each error of a method call is one of the errors which this method may report with these settings (`ErrorKinds.does`, `ErrorKinds.Allowed`), for all inputs and all
sequences of calls (up to the first panic, syntax error or IO error) -/
theorem C71_error_kinds {N : Nat} (hN : 0 < N) {st : Settings} {sched : List ReadEvent} {ops : List Op} {i : Nat} {e : RErr} (h : (runReader N st sched ops)[i]? = some (.error e)) :
    ∃ op, ops[i]? = some op ∧ Allowed st (does op) e := by
  have h' := h
  rw [runReader_eq_runAbs hN] at h
  obtain ⟨op, ho, ha⟩ := Kinds.runAbs_allowed h
  refine ⟨op, ho, ?_⟩
  have hb : op = .skipToTopLevel ∨ (∃ path, op = .seekBack path) → ∀ k l, e ≠ .unexpectedStructure k l := by
    intro hb
    obtain ⟨bytes, t, hd⟩ := delivers_exists sched
    obtain ⟨pre, rs, hl, hr⟩ := runOps_upto ops h' ho
    exact (C16_skipping_back hN hd op hb hl e hr).2
  cases op with
  | skipToTopLevel =>
    have hb := hb (.inl rfl)
    cases e <;> first | exact ha | exact absurd rfl (hb _ _)
  | seekBack path =>
    have hb := hb (.inr ⟨path, rfl⟩)
    cases e <;> first | exact ha | exact absurd rfl (hb _ _)
  | _ => exact ha

/-- `[/**/1,"a"` with a comment, an unexpected type and the end of the input -/
example : let ops : List Op := [.beginArray, .nextBool, .skipValue, .endArray, .nextString, .hasNext]
    let sched : List ReadEvent := [.data [0x5B, 0x2F, 0x2A, 0x2A, 0x2F, 0x31, 0x2C, 0x22], .data [0x61, 0x22]]
    let st := { Settings.default with allowComments := true, trackPath := false }
    runReader 4 st sched ops = [.ok .unit, .error (.unexpectedValueType .boolean .number ⟨none, 0, 5, 5⟩), .ok .unit,
      .error (.unexpectedStructure .moreElementsThanExpected ⟨none, 0, 7, 7⟩), .ok (.text ['a']), .error (.syntax .incompleteDocument ⟨none, 0, 10, 10⟩)] := by decide +kernel

/-- C71: errors which name a setting occur only if the setting has this value -/
theorem C71_settings {N : Nat} (hN : 0 < N) {st : Settings} {sched : List ReadEvent} {ops : List Op} {e : RErr} (h : .error e ∈ runReader N st sched ops) :
    (∀ l, e = .syntax .commentsNotEnabled l → st.allowComments = false) ∧
    (∀ l, e = .syntax .incompleteComment l ∨ e = .syntax .blockCommentNotClosed l → st.allowComments = true) ∧
    (∀ l, e = .syntax .trailingCommaNotEnabled l → st.allowTrailingComma = false) ∧
    (∀ m l, e = .maxNestingDepthExceeded m l → st.maxNestingDepth = some m) ∧
    (∀ n l, e = .unsupportedNumberValue n l → st.restrictNumberValues = true) := by
  obtain ⟨i, hi⟩ := List.getElem?_of_mem h
  obtain ⟨op, -, ha⟩ := C71_error_kinds hN hi
  refine ⟨?_, ?_, ?_, ?_, ?_⟩
  · rintro l rfl; exact ha.2
  · rintro l (rfl | rfl) <;> exact ha.2
  · rintro l rfl; exact ha.2
  · rintro m l rfl; exact ha.2
  · rintro m l rfl; exact ha.2

/-- C71: with comments, trailing commas, no restriction of numbers and no limit of the nesting depth none of the errors which name a setting occurs -/
theorem C71_lenient {N : Nat} (hN : 0 < N) {st : Settings} {sched : List ReadEvent} {ops : List Op} {e : RErr} (h : .error e ∈ runReader N st sched ops)
    (h1 : st.allowComments = true) (h2 : st.allowTrailingComma = true) (h3 : st.restrictNumberValues = false) (h4 : st.maxNestingDepth = none) :
    (∀ l, e ≠ .syntax .commentsNotEnabled l) ∧ (∀ l, e ≠ .syntax .trailingCommaNotEnabled l) ∧ (∀ n l, e ≠ .unsupportedNumberValue n l) ∧ (∀ m l, e ≠ .maxNestingDepthExceeded m l) := by
  obtain ⟨a, -, b, c, d⟩ := C71_settings hN h
  rw [h1] at a; rw [h2] at b; rw [h4] at c; rw [h3] at d
  exact ⟨fun l h => (nomatch a l h), fun l h => (nomatch b l h), fun n l h => (nomatch d n l h), fun m l h => (nomatch c m l h)⟩

/-- the errors occur with the other settings: `[/`, `[1,]`, `[[`, `1e999` -/
example : let run := fun st bytes => runReader 4 { st with trackPath := false } [.data bytes]
    run Settings.default [0x5B, 0x2F] [.beginArray, .hasNext] = [.ok .unit, .error (.syntax .commentsNotEnabled ⟨none, 0, 1, 1⟩)] ∧
    run { Settings.default with allowComments := true } [0x5B, 0x2F] [.beginArray, .hasNext] = [.ok .unit, .error (.syntax .incompleteComment ⟨none, 0, 2, 2⟩)] ∧
    run Settings.default [0x5B, 0x31, 0x2C, 0x5D] [.beginArray, .skipValue, .hasNext] = [.ok .unit, .ok .unit, .error (.syntax .trailingCommaNotEnabled ⟨none, 0, 2, 2⟩)] ∧
    run { Settings.default with maxNestingDepth := some 1 } [0x5B, 0x5B] [.beginArray, .skipValue] = [.ok .unit, .error (.maxNestingDepthExceeded 1 ⟨none, 0, 1, 1⟩)] ∧
    run Settings.default [0x31, 0x65, 0x39, 0x39, 0x39] [.nextNumberAsStr] = [.error (.unsupportedNumberValue ['1', 'e', '9', '9', '9'] ⟨none, 0, 0, 0⟩)] := by decide +kernel

/-- C71: skipping reports neither errors about types nor about values of numbers, and the reader never checks values of numbers which it does not return -/
theorem C71_skipping {N : Nat} (hN : 0 < N) {st : Settings} {sched : List ReadEvent} {ops : List Op} {i : Nat} {op : Op} {e : RErr}
    (ho : ops[i]? = some op) (hs : op = .skipValue ∨ op = .skipToTopLevel ∨ op = .skipName ∨ (∃ path, op = .seekBack path)) (h : (runReader N st sched ops)[i]? = some (.error e)) :
    (∀ x y l, e ≠ .unexpectedValueType x y l) ∧ (∀ n l, e ≠ .unsupportedNumberValue n l) ∧ (∀ k l, e = .unexpectedStructure k l → k = .fewerElementsThanExpected ∧ (op = .skipValue ∨ op = .skipName)) := by
  obtain ⟨op', ho', ha⟩ := C71_error_kinds hN h
  rw [ho] at ho'
  cases ho'
  refine ⟨?_, ?_, ?_⟩
  · rintro x y l rfl
    rcases hs with rfl | rfl | rfl | ⟨_, rfl⟩ <;> cases ha.1
  · rintro n l rfl
    rcases hs with rfl | rfl | rfl | ⟨_, rfl⟩ <;> cases ha.1
  · rintro k l rfl
    rcases hs with rfl | rfl | rfl | ⟨_, rfl⟩
    · exact ⟨eq_of_beq ha, .inl rfl⟩
    · cases ha
    · exact ⟨eq_of_beq ha, .inr rfl⟩
    · cases ha

/-- `[1e999,[` : a number whose value is not supported is skipped, and then there is a syntax error -/
example : runReader 4 { Settings.default with trackPath := false } [.data [0x5B, 0x31, 0x65, 0x39, 0x39, 0x39, 0x2C, 0x5B]] [.beginArray, .skipValue, .skipValue] =
    [.ok .unit, .ok .unit, .error (.syntax .incompleteDocument ⟨none, 0, 8, 8⟩)] := by decide +kernel

/-- C71: `seek_to` reports a missing element only if it is part of the path -/
theorem C71_seek {N : Nat} (hN : 0 < N) {st : Settings} {sched : List ReadEvent} {ops : List Op} {i : Nat} {path : List PathPiece} {e : RErr}
    (ho : ops[i]? = some (.seekTo path)) (h : (runReader N st sched ops)[i]? = some (.error e)) :
    (∀ k l, e = .unexpectedStructure (.tooShortArray k) l → .arrayItem k ∈ path) ∧ (∀ n l, e = .unexpectedStructure (.missingObjectMember n) l → .objectMember n ∈ path) ∧
    (∀ y l, e = .unexpectedValueType .array y l → ∃ k, .arrayItem k ∈ path) ∧ (∀ y l, e = .unexpectedValueType .object y l → ∃ n, .objectMember n ∈ path) := by
  obtain ⟨op', ho', ha⟩ := C71_error_kinds hN h
  rw [ho] at ho'
  cases ho'
  refine ⟨?_, ?_, ?_, ?_⟩
  · rintro k l rfl
    have ha : (fewer (.tooShortArray k) || path.contains (.arrayItem k)) = true := ha
    rcases Bool.or_eq_true_iff.1 ha with h | h
    · cases eq_of_beq h
    · exact List.contains_iff_mem.1 h
  · rintro n l rfl
    have ha : (fewer (.missingObjectMember n) || path.contains (.objectMember n)) = true := ha
    rcases Bool.or_eq_true_iff.1 ha with h | h
    · cases eq_of_beq h
    · exact List.contains_iff_mem.1 h
  · rintro y l rfl
    obtain ⟨p, hp, hx⟩ := List.any_eq_true.1 ha.1
    cases p with
    | arrayItem k => exact ⟨k, hp⟩
    | objectMember n => cases hx
  · rintro y l rfl
    obtain ⟨p, hp, hx⟩ := List.any_eq_true.1 ha.1
    cases p with
    | arrayItem k => cases hx
    | objectMember n => exact ⟨n, hp⟩

/-- seeking `[1]["a"]` in `[0,{}]` and `[0]["a"]` in `[1` -/
example : let run := fun bytes path => runReader 4 { Settings.default with trackPath := false } [.data bytes] [.seekTo path]
    run [0x5B, 0x30, 0x2C, 0x7B, 0x7D, 0x5D] [.arrayItem 1, .objectMember ['a']] = [.error (.unexpectedStructure (.missingObjectMember ['a']) ⟨none, 0, 4, 4⟩)] ∧
    run [0x5B, 0x31] [.arrayItem 0, .objectMember ['a']] = [.error (.unexpectedValueType .object .number ⟨none, 0, 1, 1⟩)] := by decide +kernel

/-- C71: `current_position` never fails -/
theorem C71_current_position {N : Nat} {st : Settings} {sched : List ReadEvent} {ops : List Op} {i : Nat} {b : Bool} {e : RErr} (ho : ops[i]? = some (.currentPosition b)) :
    (runReader N st sched ops)[i]? ≠ some (.error e) := by
  unfold runReader
  generalize new (BufSrc.new N sched) st = s
  intro h
  induction ops generalizing i s with
  | nil => cases h
  | cons op ops ih =>
    unfold runOps at h
    cases i with
    | zero =>
      cases ho
      cases h
    | succ i =>
      rw [List.getElem?_cons_succ] at ho
      split at h <;> rw [List.getElem?_cons_succ] at h <;> split at h <;> first | cases h | exact ih ho _ h

/-- also after an error: `[1` -/
example : runReader 4 Settings.default [.data [0x5B, 0x31]] [.nextNull, .currentPosition true] =
      [.error (.unexpectedValueType .null .array ⟨some [], 0, 0, 0⟩), .ok (.position ⟨some [], 0, 0, 0⟩)] := by decide +kernel

end Verif.Props
