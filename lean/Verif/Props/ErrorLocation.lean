import Verif.Proofs.Abs.WhereRun
import Verif.Props.Inputs
/-!
# Locations of errors
-/

namespace Verif.Props
open Reader ErrorLocation Sim

variable {N : Nat} {st : Settings} {bytes : Bytes} {e : Option Nat}

/-- an error after which the reader cannot be used is the last result -/
private theorem fatal_last {σ : Type} [ByteSource σ] {er : RErr} {r : Except RErr Out} : ∀ {ops : List Op} {s : RState σ} {rs : List (Except RErr Out)}, runOps ops s = rs ++ [r] → .error er ∈ rs → er.fatal = false := by
  intro ops
  induction ops with
  | nil => intro s rs h; cases rs <;> cases h
  | cons op ops ih =>
    intro s rs h hm
    unfold runOps at h
    rcases rs with _ | ⟨r1, rs⟩
    · cases hm
    cases hr : (runOp op).run s with
    | ok o s' =>
      rw [hr] at h
      by_cases ho : op = .consumeTrailingWhitespace
      · simp [ho] at h
      simp only [if_neg ho, List.cons_append, List.cons.injEq] at h
      rcases List.mem_cons.mp hm with rfl | hm
      · cases h.1
      · exact ih h.2 hm
    | err e' s' =>
      rw [hr] at h
      by_cases ho : (e'.fatal || op = .consumeTrailingWhitespace) = true
      · simp [ho] at h
      simp only [if_neg ho, List.cons_append, List.cons.injEq] at h
      rcases List.mem_cons.mp hm with rfl | hm
      · cases h.1
        cases hf : er.fatal with
        | false => rfl
        | true => simp [hf] at ho
      · exact ih h.2 hm

/-- without an error of the underlying reader it does not matter that it fails at the end -/
private theorem runAbs_noTerm {ops : List Op} {rs : List (Except RErr Out)} {r : Except RErr Out} (h : runAbs st bytes e ops = rs ++ [r]) (hr : ∀ k l, r ≠ .error (.io (.source k) l)) :
    runAbs st bytes none ops = rs ++ [r] := by
  cases e with
  | none => exact h
  | some k =>
    have h1 := runAbs_trunc st bytes [] k none ops
    rw [List.append_nil] at h1
    rw [← same_eq h1 ?_]
    · exact h
    · rintro er hm (⟨l, rfl⟩ | ⟨h, _⟩)
      · rw [h] at hm
        rcases List.mem_append.mp hm with hm | hm
        · have := fatal_last h hm
          cases this
        · exact hr k l (by simpa using (List.mem_singleton.mp hm).symm)
      · exact h rfl

/-- C62: after the calls `pre` (during which no number was rejected because of its size and which did not end the use of the reader) the position is `P`; then the call `op` fails with an error
which has a location and is not an error of the underlying reader. The location is not in front of `P`, it is one of the input (`LocationIn`: offset, line and column belong together),
the path is the one which the reader had before (for calls which read at most one token), and at the location the input has what the kind of the error says (`Points`).
For `consume_trailing_whitespace` only if not multiple top-level values are enabled, see `C62_trailing_data_after_peek`. -/
theorem C62_error_location (hN : 0 < N) {sched : List ReadEvent} (hd : Delivers sched bytes e) {pre : List Op} {op : Op} {rs rs' : List (Except RErr Out)} {P l : Position} {er : RErr}
    (hlen : rs.length = pre.length) (hlen' : rs'.length = pre.length) (hu : ∀ t l, .error (.unsupportedNumberValue t l) ∉ rs)
    (hpos : runReader N st sched (pre ++ [.currentPosition true]) = rs ++ [.ok (.position P)]) (herr : runReader N st sched (pre ++ [op]) = rs' ++ [.error er])
    (hio : ∀ k l, er ≠ .io (.source k) l) (hop : op = .consumeTrailingWhitespace → st.allowMultipleTopLevel = false) (hl : location er = some l) :
    P.dataPos ≤ l.dataPos ∧ LocationIn bytes l ∧ (oneToken op = true → l.path = P.path) ∧ Points er (bytes.drop l.dataPos) := by
  rw [runReader_abs hN hd] at hpos herr
  exact Where.runAbs_where hlen hlen' hu (runAbs_noTerm hpos (by intro k l h; cases h)) (runAbs_noTerm herr (by intro k l h; cases h; exact hio k l rfl)) hop hl

/-! ## Examples -/

/-- the comma in `[1,\n ]`, and the literal in `{"a":\n nul}`, in small chunks -/
example : Delivers [.data [0x5B, 0x31], .interrupted, .data [0x2C, 0x0A, 0x20, 0x5D]] [0x5B, 0x31, 0x2C, 0x0A, 0x20, 0x5D] none ∧
    runReader 4 .default [.data [0x5B, 0x31], .interrupted, .data [0x2C, 0x0A, 0x20, 0x5D]] [.beginArray, .nextNumberAsStr, .currentPosition true] =
      [.ok .unit, .ok (.text ['1']), .ok (.position ⟨some [.arrayItem 1], 0, 2, 2⟩)] ∧
    runReader 4 .default [.data [0x5B, 0x31], .interrupted, .data [0x2C, 0x0A, 0x20, 0x5D]] [.beginArray, .nextNumberAsStr, .hasNext] =
      [.ok .unit, .ok (.text ['1']), .error (.syntax .trailingCommaNotEnabled ⟨some [.arrayItem 1], 0, 2, 2⟩)] := by
  refine ⟨.data _ _ (.interrupted (.data _ _ .done)), by decide +kernel, by decide +kernel⟩

example : let doc : List ReadEvent := [.data "{\"a\":\n nul}".toUTF8.toList]
    runReader 4 .default doc [.beginObject, .nextName, .currentPosition true] = [.ok .unit, .ok (.text ['a']), .ok (.position ⟨some [.objectMember ['a']], 0, 4, 4⟩)] ∧
    runReader 4 .default doc [.beginObject, .nextName, .peek] = [.ok .unit, .ok (.text ['a']), .error (.syntax .invalidLiteral ⟨some [.objectMember ['a']], 1, 1, 7⟩)] ∧
    ("{\"a\":\n nul}".toUTF8.toList).drop 7 = "nul}".toUTF8.toList := by
  decide +kernel

/-- a broken second escape sequence of a surrogate pair (the location is the one of the first), a single surrogate, a malformed number -/
example : let run := fun (doc : String) => runReader 4 .default [.data doc.toUTF8.toList] [.beginArray, .skipValue]
    run "[\"\\uD800\\uDC0x\"]" = [.ok .unit, .error (.syntax .malformedEscapeSequence ⟨some [.arrayItem 0], 0, 2, 2⟩)] ∧
    run "[\"a\\uD800b\"]" = [.ok .unit, .error (.syntax .unpairedSurrogatePairEscapeSequence ⟨some [.arrayItem 0], 0, 3, 3⟩)] ∧
    run "[ 1.e1]" = [.ok .unit, .error (.syntax .malformedNumber ⟨some [.arrayItem 0], 0, 2, 2⟩)] := by
  decide +kernel

/-- the location of an error of `skip_value` has the path of the skipped part -/
example : let doc : List ReadEvent := [.data "[[1,\n[x]]]".toUTF8.toList]
    runReader 4 .default doc [.beginArray, .skipValue] = [.ok .unit, .error (.syntax .malformedJson ⟨some [.arrayItem 0, .arrayItem 1, .arrayItem 0], 1, 1, 6⟩)] := by
  decide +kernel

/-- With multiple top-level values, and after a further value was peeked, the location of the error `TrailingData` of `consume_trailing_whitespace` is wrong: in `1 [\n x` the second value is
at line 0, column 2, but the reported location is one in front of the third token, as if the `[` would not exist. -/
theorem C62_trailing_data_after_peek :
    ∃ l, runReader 4 { Settings.default with allowMultipleTopLevel := true } [.data "1 [\n x".toUTF8.toList] [.nextNumberAsStr, .hasNext, .consumeTrailingWhitespace] =
      [.ok (.text ['1']), .ok (.bool true), .error (.syntax .trailingData l)] ∧ ¬ LocationIn "1 [\n x".toUTF8.toList l := by
  refine ⟨⟨some [], 1, 1, 4⟩, by decide +kernel, ?_⟩
  rintro ⟨_, _, h⟩
  revert h
  decide +kernel

end Verif.Props
