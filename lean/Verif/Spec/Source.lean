import Verif.Model.Source
/-!
# What an underlying `Read` delivers

`Delivers sched bytes end`: a `Read` behaving as described by `sched` delivers exactly `bytes` before the end of the input
(`end = none`) or before the error `c` (`end = some c`).
-/

namespace Verif

inductive Delivers : List ReadEvent → Bytes → Option Nat → Prop
  /-- no more data -/
  | done : Delivers [] [] none
  /-- `read` returns `Ok(0)`: the end of the input; what is afterwards is irrelevant -/
  | eof (es : List ReadEvent) : Delivers (.data [] :: es) [] none
  /-- `read` fails; what is afterwards is irrelevant -/
  | failed (c : Nat) (es : List ReadEvent) : Delivers (.error c :: es) [] (some c)
  /-- `read` fails with `ErrorKind::Interrupted` -/
  | interrupted {es : List ReadEvent} {bs : Bytes} {e : Option Nat} : Delivers es bs e → Delivers (.interrupted :: es) bs e
  /-- `read` provides some bytes -/
  | data {es : List ReadEvent} {bs : Bytes} {e : Option Nat} (b : UInt8) (ds : Bytes) : Delivers es bs e →
      Delivers (.data (b :: ds) :: es) (b :: ds ++ bs) e

end Verif
