import Verif.Proofs.Writer.Failures
/-!
# The writer loses no error of the underlying `Write`
-/

namespace Verif.Props
open Writer Utf8 WReason

/-- C73: for all sequences of calls, also if the caller continues after errors: the errors of the underlying `Write` which are reported by the methods are
exactly those which it has returned (`ws` and `fs` are the results of the calls of `write` and `flush` which have happened), each is reported once, and in the
same order. -/
theorem C73_no_error_lost {N : Nat} {st : WSettings} {sink sink' : Sink} {ops : List WOp} {rs : List (Except WErr WOut)}
    (h : execAll N st sink ops = (.ok rs, sink')) :
    ∃ ws fs, sink.writes = ws ++ sink'.writes ∧ sink.flushes = fs ++ sink'.flushes ∧
      Merge (writeFailures ws) (flushFailures fs) (rs.flatMap ioErrors) := execAll_failures h

/-- C73, for callers which stop after errors of the underlying `Write` -/
theorem C73_no_error_lost_stop {N : Nat} {st : WSettings} {sink sink' : Sink} {ops : List WOp} {rs : List (Except WErr WOut)}
    (h : execW N st sink ops = (.ok rs, sink')) :
    ∃ ws fs, sink.writes = ws ++ sink'.writes ∧ sink.flushes = fs ++ sink'.flushes ∧
      Merge (writeFailures ws) (flushFailures fs) (rs.flatMap ioErrors) := execW_failures h

/-- C73: if no method reports an error of the underlying `Write`, then none of its calls has failed -/
theorem C73_success {N : Nat} {st : WSettings} {sink sink' : Sink} {ops : List WOp} {rs : List (Except WErr WOut)}
    (h : execAll N st sink ops = (.ok rs, sink')) (hr : ∀ r ∈ rs, ioErrors r = []) :
    ∃ ws fs, sink.writes = ws ++ sink'.writes ∧ sink.flushes = fs ++ sink'.flushes ∧
      (∀ x ∈ ws, x = .interrupted ∨ ∃ n, x = .accept (n + 1)) ∧ ∀ x ∈ fs, x = none := by
  obtain ⟨ws, fs, h1, h2, h3⟩ := execAll_failures h
  rw [List.flatMap_eq_nil_iff.2 hr] at h3
  generalize hw : writeFailures ws = a at h3
  generalize hf : flushFailures fs = b at h3
  cases h3
  refine ⟨ws, fs, h1, h2, fun x hx => ?_, fun x hx => ?_⟩
  · have := List.filterMap_eq_nil_iff.1 hw x hx
    match x, this with
    | .interrupted, _ => exact .inl rfl
    | .accept (n + 1), _ => exact .inr ⟨n, rfl⟩
  · have := List.filterMap_eq_nil_iff.1 hf x hx
    match x, this with
    | none, _ => rfl

/-- The errors of the underlying `Write` which are reported, and the calls which have not happened -/
def reported (r : Except WPanic (List (Except WErr WOut)) × Sink) : Option (List WErr × List WriteEvent × List (Option Nat)) := match r with
  | (.ok rs, s) => some (rs.flatMap ioErrors, s.writes, s.flushes)
  | (.error _, _) => none

/-- `write` fails, then accepts nothing, then `flush` fails; the string value writer reports its error once more, which is not a further error of the `Write` -/
example : reported (execAll 4 .default ⟨[], [.accept 3, .error 7, .accept 0, .accept 5], [some 9, some 8]⟩
    [.beginArray, .numberValueFromString "01".toList, .nullValue, .stringValue "abcdef".toList,
      .stringValueWriter [.writeStr ['a'], .flush, .write [0xFF]] true]) =
    some ([.io 7, .writeZero, .io 9], [], [some 8]) := by
  decide +kernel

/-- The order of the errors is that of the calls -/
example : Merge (writeFailures [.accept 3, .error 7, .accept 0]) (flushFailures [some 9]) [.io 7, .writeZero, .io 9] ∧
    ¬ Merge (writeFailures [.accept 3, .error 7, .accept 0]) (flushFailures [some 9]) [.writeZero, .io 7, .io 9] := by
  refine ⟨.left (.left (.right .nil)), fun h => ?_⟩
  cases h

end Verif.Props
