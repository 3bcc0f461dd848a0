import Verif.Spec.Ser
import Verif.Spec.Writer
import Verif.Model.SerImpl
/-!
# Specification: implementations of `Serialize`

The value of the Serde data model which an implementation describes if no call fails, and when an implementation obeys the documentation. From the model only the types
of implementations, values and errors are used.
-/

namespace Verif.SerSpec
open Json
open Ser (SVal MapOp SerErr Scalar Ret Impl SeqImpl MapImpl StructImpl)

/-- The value -/
def scalarVal : Scalar → SVal
  | .bool b => .bool b
  | .int t i => .int t i
  | .float f => .float f
  | .char c => .char c
  | .str t => .str t
  | .bytes bs => .bytes bs
  | .none => .none
  | .unit => .unit
  | .unitStruct => .unitStruct
  | .unitVariant variant => .unitVariant variant

/-- The result of the last call is returned, if it was successful -/
def keep {α : Type} (r : Ret) (o : Option α) : Option α := match r.ok with
  | .none => o
  | .some _ => none

/-- The list with one more element, if both exist -/
def prepend {α : Type} : Option α → Option (List α) → Option (List α)
  | some x, some xs => some (x :: xs)
  | _, _ => none

mutual
/-- The value which the implementation describes if all calls succeed; none if it returns an error nevertheless -/
def val : Impl → Option SVal
  | .fail _ => none
  | .scalar s r => keep r (some (scalarVal s))
  | .some v r => keep r ((val v).map .some)
  | .newtypeStruct v r => keep r ((val v).map .newtypeStruct)
  | .newtypeVariant variant v r => keep r ((val v).map (.newtypeVariant variant))
  | .seq len _ body => (elements body).map (.seq len)
  | .tuple len _ body => (elements body).map (.tuple len)
  | .tupleStruct len _ body => (elements body).map (.tupleStruct len)
  | .tupleVariant variant len _ body => (elements body).map (.tupleVariant variant len)
  | .map len _ body => (mapOps body).map (.map len)
  | .struct len _ body => (members body).map (.struct len)
  | .structVariant variant len _ body => (members body).map (.structVariant variant len)
def elements : SeqImpl → Option (List SVal)
  | .elem v k => prepend (val v) (elements (k (.ok ())))
  | .fin r => keep r (some [])
  | .drop _ => none
def mapOps : MapImpl → Option (List MapOp)
  | .key v k => prepend ((val v).map .key) (mapOps (k (.ok ())))
  | .value v k => prepend ((val v).map .value) (mapOps (k (.ok ())))
  | .fin r => keep r (some [])
  | .drop _ => none
def members : StructImpl → Option (List (Text × SVal))
  | .field name v k => prepend ((val v).map (name, ·)) (members (k (.ok ())))
  | .fin r => keep r (some [])
  | .drop _ => none
end

mutual
/-- As the documentation of `JsonWriterSerializer` (ser.rs 107–115) demands, the implementation does not use the serializer any more after an error -/
def Stops : Impl → Prop
  | .fail _ => True
  | .scalar _ _ => True
  | .some v _ => Stops v
  | .newtypeStruct v _ => Stops v
  | .newtypeVariant _ v _ => Stops v
  | .seq _ _ body => StopsSeq body
  | .tuple _ _ body => StopsSeq body
  | .tupleStruct _ _ body => StopsSeq body
  | .tupleVariant _ _ _ body => StopsSeq body
  | .map _ _ body => StopsMap body
  | .struct _ _ body => StopsStruct body
  | .structVariant _ _ _ body => StopsStruct body
def StopsSeq : SeqImpl → Prop
  | .elem v k => Stops v ∧ (∀ e, ∃ e', k (.error e) = .drop e') ∧ StopsSeq (k (.ok ()))
  | .fin _ => True
  | .drop _ => True
def StopsMap : MapImpl → Prop
  | .key v k => Stops v ∧ (∀ e, ∃ e', k (.error e) = .drop e') ∧ StopsMap (k (.ok ()))
  | .value v k => Stops v ∧ (∀ e, ∃ e', k (.error e) = .drop e') ∧ StopsMap (k (.ok ()))
  | .fin _ => True
  | .drop _ => True
def StopsStruct : StructImpl → Prop
  | .field _ v k => Stops v ∧ (∀ e, ∃ e', k (.error e) = .drop e') ∧ StopsStruct (k (.ok ()))
  | .fin _ => True
  | .drop _ => True
end

mutual
/-- For every `serialize_key` exactly one `serialize_value` follows, as the documentation of `serialize_map` demands (or an error is returned); only considered for
the case that no call fails. Trusted: for finite `f32` and `f64` the standard library returns a text which is a JSON number. -/
def Orderly : Impl → Prop
  | .fail _ => True
  | .scalar s _ => Ok (scalarVal s)
  | .some v _ => Orderly v
  | .newtypeStruct v _ => Orderly v
  | .newtypeVariant _ v _ => Orderly v
  | .seq _ _ body => OrderlySeq body
  | .tuple _ _ body => OrderlySeq body
  | .tupleStruct _ _ body => OrderlySeq body
  | .tupleVariant _ _ _ body => OrderlySeq body
  | .map _ _ body => OrderlyMap false body
  | .struct _ _ body => OrderlyStruct body
  | .structVariant _ _ _ body => OrderlyStruct body
def OrderlySeq : SeqImpl → Prop
  | .elem v k => Orderly v ∧ OrderlySeq (k (.ok ()))
  | .fin _ => True
  | .drop _ => True
def OrderlyMap (expectsValue : Bool) : MapImpl → Prop
  | .key v k => expectsValue = false ∧ Orderly v ∧ OrderlyMap true (k (.ok ()))
  | .value v k => expectsValue = true ∧ Orderly v ∧ OrderlyMap false (k (.ok ()))
  | .fin _ => expectsValue = false
  | .drop _ => True
def OrderlyStruct : StructImpl → Prop
  | .field _ v k => Orderly v ∧ OrderlyStruct (k (.ok ()))
  | .fin _ => True
  | .drop _ => True
end

mutual
/-- Trusted: for finite `f32` and `f64` the standard library returns a text which is a JSON number (however the implementation continues) -/
def Trusted : Impl → Prop
  | .fail _ => True
  | .scalar s _ => Ok (scalarVal s)
  | .some v _ => Trusted v
  | .newtypeStruct v _ => Trusted v
  | .newtypeVariant _ v _ => Trusted v
  | .seq _ _ body => TrustedSeq body
  | .tuple _ _ body => TrustedSeq body
  | .tupleStruct _ _ body => TrustedSeq body
  | .tupleVariant _ _ _ body => TrustedSeq body
  | .map _ _ body => TrustedMap body
  | .struct _ _ body => TrustedStruct body
  | .structVariant _ _ _ body => TrustedStruct body
def TrustedSeq : SeqImpl → Prop
  | .elem v k => Trusted v ∧ ∀ r, TrustedSeq (k r)
  | .fin _ => True
  | .drop _ => True
def TrustedMap : MapImpl → Prop
  | .key v k => Trusted v ∧ ∀ r, TrustedMap (k r)
  | .value v k => Trusted v ∧ ∀ r, TrustedMap (k r)
  | .fin _ => True
  | .drop _ => True
def TrustedStruct : StructImpl → Prop
  | .field _ v k => Trusted v ∧ ∀ r, TrustedStruct (k r)
  | .fin _ => True
  | .drop _ => True
end

/-- What an arbitrary implementation, which may continue after errors, can have done when it returns, if the underlying `Write` does not fail; `w`: what was written
before. Values and containers which were there before are not changed. -/
inductive After (wst : Writer.WSettings) (w : WSpec.Written) : Except SerErr Unit → WSpec.Written → Prop
  /-- exactly one value was added -/
  | value (r : Except SerErr Unit) (j : JVal) : w.CanAdd wst → After wst w r (w.add j)
  /-- containers were left open -/
  | unfinished (r : Except SerErr Unit) {gs : List WSpec.Frame} : w.CanAdd wst → gs ≠ [] → After wst w r ⟨w.tops, gs ++ w.frames, none⟩
  /-- nothing was written; then an error is returned -/
  | nothing (e : SerErr) : After wst w (.error e) w

end Verif.SerSpec
