import Verif.Model.Reader
/-!
# Running sequences of method calls
-/

namespace Verif

/-- Errors after which, according to the documentation of `ReaderError` (reader/mod.rs 509–583), the reader must not be used any
further: syntax and IO errors. A panic ends the execution. -/
def RErr.fatal : RErr → Bool
  | .syntax _ _ => true
  | .io _ _ => true
  | .panic _ => true
  | .outOfFuel => true
  | _ => false

namespace Reader
variable {σ : Type} [ByteSource σ]

/-- The results (values and errors, which include positions) of a sequence of method calls. The sequence ends at the first panic, at the
first error after which the reader must not be used any further, and after `consume_trailing_whitespace`, which consumes the reader
(stream_reader.rs 2339: `fn consume_trailing_whitespace(mut self)`). -/
def runOps : List Op → RState σ → List (Except RErr Out)
  | [], _ => []
  | op :: ops, s =>
    match (runOp op).run s with
    | .ok o s' => .ok o :: if op = .consumeTrailingWhitespace then [] else runOps ops s'
    | .err e s' => .error e :: if e.fatal || op = .consumeTrailingWhitespace then [] else runOps ops s'

/-- stream_reader.rs 384–410: `JsonStreamReader::new_custom` with a `Read` which behaves as described by the schedule, then method calls -/
def runReader (N : Nat) (settings : Settings) (sched : List ReadEvent) (ops : List Op) : List (Except RErr Out) :=
  runOps ops (new (BufSrc.new N sched) settings)

/-- Model only. Panics (and `outOfFuel`, which does not exist in Rust) -/
def _root_.Verif.RErr.isPanic : RErr → Bool
  | .panic _ => true
  | .outOfFuel => true
  | _ => false

/-- model only: the same for the list of bytes -/
def runAbs (settings : Settings) (bytes : Bytes) (term : Option Nat) (ops : List Op) : List (Except RErr Out) :=
  runOps ops (new (σ := AbsSrc) ⟨bytes, term, []⟩ settings)

end Reader

/-- stream_reader.rs 72: `READER_BUF_SIZE` -/
def readerBufSize : Nat := 1024

deriving instance DecidableEq for Except

end Verif
