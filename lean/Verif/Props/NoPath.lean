import Verif.Proofs.NoPath.Ops
import Verif.Props.Calls
/-!
# C70: Path tracking changes nothing but the reported paths

`stream_reader.rs` 303–311: "This setting has no effect on the JSON parsing behavior, it only affects the information included for errors."
-/

namespace Verif.Props
open Reader

/-- C70: a reader which does not track the JSON path gives for all inputs (arriving in arbitrary pieces, possibly ending with an IO error) and all sequences of
calls exactly the same values, errors and positions as a reader which tracks it, except that no position has a JSON path. The sequences end at the first
panic, syntax error or IO error. -/
theorem C70_tracking_only_adds_paths {N : Nat} (hN : 0 < N) (st : Settings) (sched : List ReadEvent) (ops : List Op) :
    runReader N { st with trackPath := false } sched ops = (runReader N { st with trackPath := true } sched ops).map resultNoPath := by
  have hi := fun i => C02_no_internal_panic_partial hN { st with trackPath := true } sched ops i
  rw [runReader_eq_runAbs hN] at *
  rw [runReader_eq_runAbs hN]
  exact NoPath.runOps_noPath ops _ _ ⟨[], nofun, rfl⟩ hi

/-- the JSON path of a result -/
def resultPath : Except RErr Out → Option (List PathPiece)
  | .ok (.position p) => p.path
  | .error (.syntax _ l) => l.path
  | .error (.unexpectedValueType _ _ l) => l.path
  | .error (.unexpectedStructure _ l) => l.path
  | .error (.maxNestingDepthExceeded _ l) => l.path
  | .error (.unsupportedNumberValue _ l) => l.path
  | .error (.io _ l) => l.path
  | _ => none

/-- C70: without path tracking no result and no error has a JSON path -/
theorem C70_no_paths {N : Nat} (hN : 0 < N) (st : Settings) (h : st.trackPath = false) (sched : List ReadEvent) (ops : List Op) :
    ∀ r ∈ runReader N st sched ops, resultPath r = none := by
  have := C70_tracking_only_adds_paths hN st sched ops
  rw [show { st with trackPath := false } = st by cases st; cases h; rfl] at this
  rw [this]
  intro r hr
  obtain ⟨r', _, rfl⟩ := List.mem_map.1 hr
  cases r' with
  | ok o => cases o <;> rfl
  | error e => cases e <;> rfl

/-- names are skipped in different ways by the two readers; here the name contains an escape sequence, and the error has a path only for the first reader: `{"\n":[1,?` -/
example : let ops : List Op := [.beginObject, .skipName, .beginArray, .nextNumberAsStr, .currentPosition true, .nextBool]
    let sched : List ReadEvent := [.data [0x7B, 0x22, 0x5C, 0x6E, 0x22, 0x3A, 0x5B, 0x31, 0x2C, 0x3F]]
    runReader 4 Settings.default sched ops = [.ok .unit, .ok .unit, .ok .unit, .ok (.text ['1']),
        .ok (.position ⟨some [.objectMember ['\n'], .arrayItem 1], 0, 8, 8⟩),
        .error (.syntax .malformedJson ⟨some [.objectMember ['\n'], .arrayItem 1], 0, 9, 9⟩)] ∧
      runReader 4 { Settings.default with trackPath := false } sched ops = [.ok .unit, .ok .unit, .ok .unit, .ok (.text ['1']),
        .ok (.position ⟨none, 0, 8, 8⟩), .error (.syntax .malformedJson ⟨none, 0, 9, 9⟩)] := by decide +kernel

end Verif.Props
