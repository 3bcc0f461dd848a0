import Verif.Proofs.Writer.Reasons
/-!
# The writer reports an error only if there is a reason for it
-/

namespace Verif.Props
open Writer Utf8 WReason

/-- C72: for all sequences of calls (also if the caller continues after errors), every error which a method of the writer reports has a reason
(`WReason.Reason`): it is an error of the underlying `Write`, from `write`, or from `flush` for `finish_document`; or the number which was given is not finite
or not a JSON number. The methods of string value writers in addition report incorrect UTF-8 data (only `write`), incomplete UTF-8 data (only `write_str` and
`finish_value`), and errors which one of them has reported before. -/
theorem C72_reasons {N : Nat} {st : WSettings} {sink : Sink} {ops : List WOp} {rs : List (Except WErr WOut)}
    (h : (execAll N st sink ops).1 = .ok rs) (i : Nat) (r : Except WErr WOut) (hr : rs[i]? = some r) :
    ∃ op, ops[i]? = some op ∧ Reason sink op r := execAll_reasons h i r hr

/-- C72, for callers which stop after errors of the underlying `Write` -/
theorem C72_reasons_stop {N : Nat} {st : WSettings} {sink : Sink} {ops : List WOp} {rs : List (Except WErr WOut)}
    (h : (execW N st sink ops).1 = .ok rs) (i : Nat) (r : Except WErr WOut) (hr : rs[i]? = some r) :
    ∃ op, ops[i]? = some op ∧ Reason sink op r := execW_reasons h i r hr

/-- C72: if the underlying `Write` never fails, then the methods of the writer only fail for numbers which must not be written -/
theorem C72_reliable {N : Nat} {st : WSettings} {sink : Sink} {ops : List WOp} {rs : List (Except WErr WOut)}
    (hw : ∀ x ∈ sink.writes, x = .interrupted ∨ ∃ n, x = .accept (n + 1)) (hf : ∀ x ∈ sink.flushes, x = none)
    (h : (execAll N st sink ops).1 = .ok rs) (i : Nat) (e : WErr) (hr : rs[i]? = some (.error e)) :
    e = .invalidNumber ∧ ∃ op, ops[i]? = some op ∧ NumberRejected op := by
  obtain ⟨op, ho, hr⟩ := execAll_reasons h i _ hr
  rcases hr with (⟨c, _, hc⟩ | ⟨_, hc⟩) | ⟨_, c, _, hc⟩ | ⟨hn, he⟩
  · rcases hw _ hc with h | ⟨n, h⟩ <;> cases h
  · rcases hw _ hc with h | ⟨n, h⟩ <;> cases h
  · cases hf _ hc
  · exact ⟨he, op, ho, hn⟩

/-- The errors of each call, with those of the methods of string value writers -/
def allErrors (r : Except WPanic (List (Except WErr WOut))) : Except WPanic (List (List WErr)) := match r with
  | .ok rs => .ok (rs.map fun
    | .error e => [e]
    | .ok .unit => []
    | .ok (.string rs finish) => (rs.filterMap fun | .error e => some e | .ok _ => none) ++ match finish with | some (.error e) => [e] | _ => [])
  | .error p => .error p

/-- An underlying `Write` which fails three times, a rejected number, and a string value writer which reports its first error again -/
example : allErrors (execAll 4 .default ⟨[], [.accept 3, .error 7, .accept 0], [some 9]⟩
    [.beginArray, .numberValueFromString "01".toList, .nullValue, .stringValue "abcdef".toList,
      .stringValueWriter [.writeStr ['a'], .flush, .write [0xFF]] true]).1 =
    .ok [[], [.invalidNumber], [.io 7], [.writeZero], [.io 9, .previous (.io 9), .previous (.io 9)]] := by
  decide +kernel

/-- Incorrect and incomplete UTF-8 data -/
example : allErrors (execAll 4 .default ⟨[], [.interrupted, .accept 1], [none]⟩
    [.beginArray, .stringValueWriter [.write [0xC3], .writeStr ['a']] false]).1 = .ok [[], [.incompleteUtf8]] ∧
    allErrors (execAll 4 .default ⟨[], [.interrupted, .accept 1], [none]⟩ [.stringValueWriter [.write [0xC3, 0x28]] true]).1 =
      .ok [[.invalidUtf8, .previous .invalidUtf8]] ∧
    (∀ x ∈ [WriteEvent.interrupted, .accept 1], x = .interrupted ∨ ∃ n, x = .accept (n + 1)) := by
  refine ⟨by decide +kernel, by decide +kernel, ?_⟩
  intro x hx
  simp only [List.mem_cons, List.not_mem_nil, or_false] at hx
  exact hx.imp id fun h => ⟨0, h⟩

end Verif.Props
