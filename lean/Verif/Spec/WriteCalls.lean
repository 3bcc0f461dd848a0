import Verif.Model.Writer
/-!
# Requested flushes
-/

namespace Verif.Writer

/-- how often the caller requests that a string value writer flushes -/
def svFlushes (ops : List SvOp) : Nat := (ops.filter (· == .flush)).length

/-- how often the caller requests that the writer flushes: by `flush` of a string value writer, or by finishing the document -/
def flushRequests : List WOp → Nat
  | [] => 0
  | .stringValueWriter ops _ :: os => svFlushes ops + flushRequests os
  | .finishDocument :: os => 1 + flushRequests os
  | _ :: os => flushRequests os

end Verif.Writer
