import Verif.Spec.Writer
import Verif.Spec.Ser
import Verif.Model.SimpleWriter
/-!
# Specification: the JSON value which is written with the Simple writer API

From the model only the types of closures and errors are used. The descriptions do not mention calls of a `JsonWriter`.
-/

namespace Verif.SimpleSpec
open Json
open Writer (SvOp)
open SimpleWriter

/-- result of a successful call of a method of the string value writer -/
def written : SvOp → Nat
  | .write bs => bs.length
  | _ => 0

/-- The closure is successful if all its calls are; `ops` are the calls -/
inductive StrWrites : StrC → List SvOp → Prop
  | done : StrWrites (.ret (.ok ())) []
  | op {o : SvOp} {k : Except SErr Nat → StrC} {ops : List SvOp} : StrWrites (k (.ok (written o))) ops → StrWrites (.op o k) (o :: ops)

mutual
/-- The operation writes this value -/
inductive Writes : ValOp → JVal → Prop
  | null : Writes .null .null
  | bool (b : Bool) : Writes (.bool b) (.bool b)
  | string (t : Text) : Writes (.string t) (.str t)
  | stringWithWriter {f : StrC} {ops : List SvOp} {t : Text} : StrWrites f ops → WSpec.SvWrites ops t → Writes (.stringWithWriter f) (.str t)
  | int {ty : Writer.IntTy} {i : Int} {t : Text} : WSpec.IsInteger t i → Writes (.number (.int ty i)) (.num t)
  | transferred {t : Text} : IsNumber (enc t) → Writes (.number (.transferred t)) (.num t)
  | fpNumber {t : Text} : Writes (.fpNumber ⟨true, t⟩) (.num t)
  | numberString {t : Text} : IsNumber (enc t) → Writes (.numberString t) (.num t)
  | serialize {v : Ser.SVal} {j : JVal} : SerSpec.json v = .ok j → Writes (.serialize v) j
  | array {f : ArrC} {vs : List JVal} : ArrWrites f vs → Writes (.array f) (.arr vs)
  | object {f : ObjC} {ms : List (Text × JVal)} : ObjWrites f ms → Writes (.object f) (.obj ms)
/-- The closure writes these elements, and is successful -/
inductive ArrWrites : ArrC → List JVal → Prop
  | done : ArrWrites (.ret (.ok ())) []
  | value {o : ValOp} {k : Except SErr Unit → ArrC} {v : JVal} {vs : List JVal} : Writes o v → ArrWrites (k (.ok ())) vs → ArrWrites (.value o k) (v :: vs)
/-- The closure writes these members, and is successful -/
inductive ObjWrites : ObjC → List (Text × JVal) → Prop
  | done : ObjWrites (.ret (.ok ())) []
  | member {name : Text} {f : MemC} {k : Except SErr Unit → ObjC} {v : JVal} {r : Except SErr Unit} {ms : List (Text × JVal)} : MemWrites f v r → ObjWrites (k r) ms →
      ObjWrites (.member name f k) ((name, v) :: ms)
  | memberValue {name : Text} {o : ValOp} {k : Except SErr Unit → ObjC} {v : JVal} {ms : List (Text × JVal)} : Writes o v → ObjWrites (k (.ok ())) ms →
      ObjWrites (.memberValue name o k) ((name, v) :: ms)
/-- The closure writes the value of a member, and returns `r`. If it writes nothing the value is `null`. -/
inductive MemWrites : MemC → JVal → Except SErr Unit → Prop
  | nothing : MemWrites (.ret (.ok ())) .null (.ok ())
  | value {o : ValOp} {k : Except SErr Unit → Except SErr Unit} {v : JVal} : Writes o v → MemWrites (.value o k) v (k (.ok ()))
end

mutual
/-- No closure fails as long as no operation fails. (There are no demands on what closures do after an operation failed.) -/
def Honest : ValOp → Prop
  | .stringWithWriter f => HonestStr f
  | .array f => HonestArr f
  | .object f => HonestObj f
  | _ => True
def HonestStr : StrC → Prop
  | .ret r => r = .ok ()
  | .op _ k => ∀ n, HonestStr (k (.ok n))
def HonestArr : ArrC → Prop
  | .ret r => r = .ok ()
  | .value o k => Honest o ∧ HonestArr (k (.ok ()))
def HonestObj : ObjC → Prop
  | .ret r => r = .ok ()
  | .member _ f k => HonestMem f ∧ HonestObj (k (.ok ()))
  | .memberValue _ o k => Honest o ∧ HonestObj (k (.ok ()))
def HonestMem : MemC → Prop
  | .ret r => r = .ok ()
  | .value o k => Honest o ∧ k (.ok ()) = .ok ()
end

mutual
/-- Trusted: for finite `f32` and `f64` the standard library returns a text which is a JSON number. `TransferredNumber` is only created for numbers which have been
read. Serialized values call `serialize_key` and `serialize_value` alternately (see `SerSpec.Ok`). -/
def Fine : ValOp → Prop
  | .number (.transferred t) => IsNumber (enc t)
  | .fpNumber n => n.finite = true → IsNumber (enc n.text)
  | .serialize v => SerSpec.Ok v
  | .array f => FineArr f
  | .object f => FineObj f
  | _ => True
def FineArr : ArrC → Prop
  | .ret _ => True
  | .value o k => Fine o ∧ ∀ r, FineArr (k r)
def FineObj : ObjC → Prop
  | .ret _ => True
  | .member _ f k => FineMem f ∧ ∀ r, FineObj (k r)
  | .memberValue _ o k => Fine o ∧ ∀ r, FineObj (k r)
def FineMem : MemC → Prop
  | .ret _ => True
  | .value o _ => Fine o
end

/-! ## Errors -/

/-- The execution ends here, with an error -/
def Failed (t : Calls WCall WRes (Except SErr Unit)) : Prop := ∃ e, t = .ret (.error e)

/-- After a failed call of a method of the `JsonWriter` there are no further calls, and the result is an error. There is no panic except for those of the `JsonWriter`. -/
def Sticky : Calls WCall WRes (Except SErr Unit) → Prop
  | .ret _ => True
  | .panic _ => False
  | .call _ k => (∀ n, Sticky (k (.ok n))) ∧ ∀ e, Failed (k (.error e))

end Verif.SimpleSpec
