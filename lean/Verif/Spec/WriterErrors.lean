import Verif.Model.Writer
import Verif.Spec.Number
/-!
# Specification: the reasons for errors of the writer

What must have happened for an error to be reported. This refers only to the arguments of the calls and to what the underlying `Write` returns, not to the
state or the methods of the model.
-/

namespace Verif.WReason
open Writer Utf8

/-- `Write::write` of the underlying `Write` has a reason for the error: it returns this error, or it accepts nothing -/
def FromWrite (sink : Sink) (e : WErr) : Prop :=
  (∃ c, e = .io c ∧ WriteEvent.error c ∈ sink.writes) ∨ (e = .writeZero ∧ WriteEvent.accept 0 ∈ sink.writes)

/-- `Write::flush` of the underlying `Write` returns the error -/
def FromFlush (sink : Sink) (e : WErr) : Prop := ∃ c, e = .io c ∧ some c ∈ sink.flushes

/-- A method of a string value writer has a reason for the error; `earlier` are the errors which its methods have reported before -/
def SvReason (sink : Sink) (earlier : List WErr) (o : SvOp) (e : WErr) : Prop :=
  FromWrite sink e ∨
  (o = .flush ∧ FromFlush sink e) ∨
  ((∃ bs, o = .write bs) ∧ e = .invalidUtf8) ∨
  ((∃ t, o = .writeStr t) ∧ e = .incompleteUtf8) ∨
  ∃ e' ∈ earlier, e = .previous e'

/-- The results of the methods of a string value writer: every call has a result, and every error has a reason -/
inductive SvReasons (sink : Sink) : (earlier : List WErr) → List SvOp → List (Except WErr Nat) → Prop
  | nil {earlier : List WErr} : SvReasons sink earlier [] []
  | ok {earlier : List WErr} {o : SvOp} {os : List SvOp} {n : Nat} {rs : List (Except WErr Nat)} :
    SvReasons sink earlier os rs → SvReasons sink earlier (o :: os) (.ok n :: rs)
  | error {earlier : List WErr} {o : SvOp} {os : List SvOp} {e : WErr} {rs : List (Except WErr Nat)} :
    SvReason sink earlier o e → SvReasons sink (e :: earlier) os rs → SvReasons sink earlier (o :: os) (.error e :: rs)

/-- `finish_value` has a reason for the error; `rs` are the results of the methods which were called before -/
def FinishReason (sink : Sink) (rs : List (Except WErr Nat)) (e : WErr) : Prop :=
  FromWrite sink e ∨ e = .incompleteUtf8 ∨ ∃ e', Except.error e' ∈ rs ∧ e = .previous e'

/-- The number which is given by the caller must not be written: it is not finite, or its text is not a JSON number -/
def NumberRejected : WOp → Prop
  | .fpNumberValue n => n.finite = false
  | .numberValueFromString t => ¬ IsNumber (enc t)
  | _ => False

/-- A method of the writer has a reason for its result, and the methods of the string value writer which it has created for theirs -/
def Reason (sink : Sink) (op : WOp) : Except WErr WOut → Prop
  | .error e => FromWrite sink e ∨ (op = .finishDocument ∧ FromFlush sink e) ∨ (NumberRejected op ∧ e = .invalidNumber)
  | .ok .unit => True
  | .ok (.string rs finish) => ∃ ops f, op = .stringValueWriter ops f ∧ SvReasons sink [] ops rs ∧ (f = false → finish = none) ∧
    ∀ e, finish = some (.error e) → FinishReason sink rs e

end Verif.WReason
