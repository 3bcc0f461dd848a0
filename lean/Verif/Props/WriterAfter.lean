import Verif.Proofs.Writer.After
/-!
# Using the writer after errors of the underlying `Write`

The documentation (writer/mod.rs 77–84) demands to abort writing after an error and leaves the behaviour afterwards unspecified. Here callers are considered
which continue nevertheless (`execAll`).
-/

namespace Verif.Props
open Writer Utf8

/-- C55: whatever the underlying `Write` does, and also if the caller continues after errors, every panic of the writer is caused by incorrect usage: no index
is out of range, no subtraction overflows (e.g. for the indentation level), no debug assertion fails, no `unreachable!` is reached, and every call returns.
`OpOk`: the text of floating point numbers (created by the standard library) and of transferred numbers (read before) are JSON numbers. -/
theorem C55_no_internal_panic {N : Nat} (hN : 0 < N) (st : WSettings) (sink : Sink) (ops : List WOp) (hops : ∀ o ∈ ops, OpOk o) (p : WInternal) :
    (execAll N st sink ops).1 ≠ .error (.internal p) := by
  intro h
  obtain ⟨u, hu⟩ := execAll_safe hN hops h
  cases hu

/-- The results of calls without the results of the methods of string value writers -/
def failures (r : Except WPanic (List (Except WErr WOut))) : Except WPanic (List (Option WErr)) := match r with
  | .ok rs => .ok (rs.map fun | .ok _ => none | .error e => some e)
  | .error p => .error p

/-- Three calls fail. Afterwards the writer is usable, the indentation level is consistent, but the document is incorrect, although `finish_document`
succeeds. -/
example : let r := execAll 4 ⟨true, false, false, none⟩ ⟨[], [.accept 4, .error 7, .error 7, .accept 2, .error 9], []⟩ [.beginArray, .nullValue, .nullValue, .boolValue true, .endArray, .finishDocument]
    failures r.1 = .ok [none, some (.io 7), some (.io 7), some (.io 9), none, none] ∧ r.2.received = enc "[\n  nunull\n]".toList := by
  decide +kernel

/-- The first two bytes of the buffer are written twice because the error happened when they had been written already. -/
example : let r := execAll 4 WSettings.default ⟨[], [.accept 2, .error 7], []⟩ [.beginArray, .boolValue true, .nullValue, .endArray, .finishDocument]
    failures r.1 = .ok [none, some (.io 7), none, none, none] ∧ r.2.received = enc "[t[tru,null]".toList := by
  decide +kernel

/-- After an error of a string value writer the string cannot be ended, so the next call panics; but this is not an internal panic. -/
example : failures (execAll 4 WSettings.default ⟨[], [.error 7], []⟩ [.beginArray, .stringValueWriter [.write [0x61, 0x62, 0x63, 0x64], .write [0x61]] true, .endArray]).1 =
    .error (.usage .endArrayStringWriterActive) := by
  decide +kernel

/-- the hypotheses are met by calls with numbers -/
example : ∀ o ∈ [WOp.beginArray, .fpNumberValue ⟨true, ['1', '.', '5']⟩, .fpNumberValue ⟨false, ['N', 'a', 'N']⟩, .numberValue (.transferred ['1', 'e', '5']), .endArray], OpOk o := by
  intro o ho
  simp only [List.mem_cons, List.not_mem_nil, or_false] at ho
  rcases ho with rfl | rfl | rfl | rfl | rfl
  · trivial
  · exact fun _ => (isValid_iff _).1 (by decide +kernel)
  · exact fun h => by cases h
  · exact (isValid_iff _).1 (by decide +kernel)
  · trivial

end Verif.Props
