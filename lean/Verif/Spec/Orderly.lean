import Verif.Spec.De
import Verif.Spec.SimpleReader
import Verif.Spec.Usage
/-!
# Specification: orderly usage of the deserializer and of the Simple reader API

What is demanded of implementations of `Deserialize` and of closures so that nothing goes wrong for arbitrary data. Nothing is demanded with respect to the values: closures
and implementations may return any errors and values, and may use the methods in any order.
-/

namespace Verif.DeSpec
open De hiding method

variable {V : Type}

def isError {ε α : Type} : Except ε α → Bool
  | .ok _ => false
  | .error _ => true

mutual
/-- The implementation does not return a value without having used the deserializer it was given -/
def Uses : De V → Prop
  | .ret r => isError r = true
  | .call _ v _ => UsesVis v
def UsesVis : Vis V → Prop
  | .mk _ opt newtype seq map enum => Uses opt ∧ Uses newtype ∧ UsesSeq seq ∧ UsesMap map ∧ UsesEnum enum
def UsesSeq : SeqC V → Prop
  | .ret _ => True
  | .next seed k => Uses seed ∧ ∀ r, UsesSeq (k r)
/-- (the seed of a key is given the text of the key, not the deserializer) -/
def UsesMap : MapC V → Prop
  | .ret _ => True
  | .key _ k => ∀ r, UsesMap (k r)
  | .value seed k => Uses seed ∧ ∀ r, UsesMap (k r)
def UsesEnum : EnumC V → Prop
  | .ret _ => True
  | .variant seed _ k => Uses seed ∧ ∀ x, UsesVar (k x)
def UsesVar : VarC V → Prop
  | .ret _ => True
  | .unit _ => True
  | .newtype seed _ => Uses seed
  | .tuple _ v _ => UsesVis v
  | .struct v _ => UsesVis v
end

/-- The implementation uses the deserializer, and stops when there is an error -/
def Orderly (d : De V) : Prop := Aborts (fun _ _ => True) d ∧ Uses d

/-- The panics which are documented by Serde as incorrect usage of `MapAccess` and `EnumAccess` -/
def Misused (p : CPanic) : Prop := p = .keyWhenValueExpected ∨ p = .valueWhenKeyExpected ∨ p = .trailingValue ∨ p = .variantValue

end Verif.DeSpec

namespace Verif.SimpleReaderSpec
open Reader SimpleReader

variable {V : Type}

mutual
/-- The closures stop when there is an error: they return an error (not necessarily the same one). And what is given to `deserialize` is `Orderly`. -/
def Stops : ValOp V → Prop
  | .null | .bool | .str _ | .string | .number | .numberString | .skip => True
  | .stringReader f => StopsStr f
  | .deserialize d => DeSpec.Orderly d
  | .array f => StopsArr f
  | .arrayItems _ f => ∀ x, StopsVal (f x)
  | .objectBorrowed _ f => ∀ x, StopsMem (f x)
  | .objectOwned _ f => ∀ x n, StopsVal (f x n)
  | .seeked _ f => StopsVal f
  | .seekedMulti _ _ _ f => ∀ x, StopsVal (f x)
def StopsStr : StrC V → Prop
  | .ret _ => True
  | .read _ k => (∀ x, StopsStr (k (.ok x))) ∧ ∀ e, ∃ e', k (.error e) = .ret (.error e')
def StopsArr : ArrC V → Prop
  | .ret _ => True
  | .hasNext k => (∀ x, StopsArr (k (.ok x))) ∧ ∀ e, ∃ e', k (.error e) = .ret (.error e')
  | .peek k => (∀ x, StopsArr (k (.ok x))) ∧ ∀ e, ∃ e', k (.error e) = .ret (.error e')
  | .op o k => Stops o ∧ (∀ x, StopsArr (k (.ok x))) ∧ ∀ e, ∃ e', k (.error e) = .ret (.error e')
def StopsVal : ValC V → Prop
  | .ret _ => True
  | .peek k => (∀ x, StopsVal (k (.ok x))) ∧ ∀ e, ∃ e', k (.error e) = .ret (.error e')
  | .op o k => Stops o ∧ ∀ e, ∃ e', k (.error e) = .error e'
def StopsMem : MemC V → Prop
  | .ret _ => True
  | .readName k => (∀ x, StopsMem (k (.ok x))) ∧ ∀ e, ∃ e', k (.error e) = .ret (.error e')
  | .peek k => (∀ x, StopsMem (k (.ok x))) ∧ ∀ e, ∃ e', k (.error e) = .ret (.error e')
  | .op o k => Stops o ∧ ∀ e, ∃ e', k (.error e) = .error e'
end

def StopsTop : TopC V → Prop
  | .ret _ => True
  | .seekTo _ k => (∀ x, StopsTop (k (.ok x))) ∧ ∀ e, ∃ e', k (.error e) = .ret (.error e')
  | .peek k => (∀ x, StopsTop (k (.ok x))) ∧ ∀ e, ∃ e', k (.error e) = .ret (.error e')
  | .op o k => Stops o ∧ ∀ e, ∃ e', k (.error e) = .error e'

/-- The usage returns a value only after a method which reads a value -/
def ReadsTop : TopC V → Prop
  | .ret r => isErr r = true
  | .seekTo _ k => ∀ r, ReadsTop (k r)
  | .peek k => ∀ r, ReadsTop (k r)
  | .op _ _ => True

/-- documented panics: `read_name` is called twice, and those of the deserializer -/
def Misused (p : CPanic) : Prop := p = .nameConsumed ∨ DeSpec.Misused p

end Verif.SimpleReaderSpec
