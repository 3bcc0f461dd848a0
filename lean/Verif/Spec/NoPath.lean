import Verif.Model.Transfer
/-!
# Results without the JSON path

Written from the documentation of `ReaderSettings::track_path` (stream_reader.rs 303–311): "This setting has no effect on the JSON parsing behavior, it only affects
the information included for errors."
-/

namespace Verif

/-- the position without JSON path -/
def Position.noPath (p : Position) : Position := { p with path := none }

/-- the error with a location without JSON path -/
def RErr.noPath : RErr → RErr
  | .syntax k l => .syntax k l.noPath
  | .unexpectedValueType e a l => .unexpectedValueType e a l.noPath
  | .unexpectedStructure k l => .unexpectedStructure k l.noPath
  | .maxNestingDepthExceeded m l => .maxNestingDepthExceeded m l.noPath
  | .unsupportedNumberValue n l => .unsupportedNumberValue n l.noPath
  | .io e l => .io e l.noPath
  | .panic p => .panic p
  | .outOfFuel => .outOfFuel

/-- the result of a method, where a position has no JSON path -/
def Reader.Out.noPath : Reader.Out → Reader.Out
  | .position p => .position p.noPath
  | o => o

/-- the result or error of a method without JSON path -/
def Reader.resultNoPath : Except RErr Reader.Out → Except RErr Reader.Out
  | .ok o => .ok o.noPath
  | .error e => .error e.noPath

/-- the error of `transfer_to` with a location without JSON path -/
def Transfer.TErr.noPath : Transfer.TErr → Transfer.TErr
  | .reader e => .reader e.noPath
  | .writer e => .writer e

/-- the results of a program which uses `transfer_to` without JSON paths -/
def Transfer.TransferRun.noPath (t : Transfer.TransferRun) : Transfer.TransferRun :=
  { t with transfer := t.transfer.map fun r => r.mapError Transfer.TErr.noPath, reader := t.reader.map Reader.resultNoPath }

end Verif
