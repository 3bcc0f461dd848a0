import Verif.Prelude
import Verif.Audit
import Verif.Proofs.Abs.Reach
import Verif.Proofs.SimpleReader.ObeyRun
import Verif.Props.SimpleReaderArbitrary
import Verif.Props.SerImpl
import Verif.Props.Tight
import Verif.Props.Streaming
import Verif.Props.Defaults
import Verif.Props.ErrorLocation
import Verif.Props.Counters
import Verif.Props.Messages
import Verif.Props.Debug
import Verif.Props.OutputUtf8
import Verif.Props.Macros
import Verif.Props.WriteCalls
import Verif.Props.OutputChars
import Verif.Props.NoPath
import Verif.Props.NoPathTransfer
import Verif.Props.ErrorKinds
import Verif.Props.ErrorKindsTransfer
import Verif.Props.WriterErrors
import Verif.Props.WriterFailures
