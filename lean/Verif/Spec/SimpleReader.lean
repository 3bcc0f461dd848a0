import Verif.Model.SimpleReader
import Verif.Spec.Cursor
import Verif.Spec.De
/-!
# Specification of the Simple reader API

The second part describes for a JSON value what the methods which read this value return, and what the closures are given. Bytes, cursors and the parts of the
value which are skipped do not occur there.
-/

namespace Verif.SimpleReaderSpec
open Reader SimpleReader

/-! ## Errors -/

section
variable {V α β ε : Type}

def isErr : Except ε α → Bool
  | .ok _ => false
  | .error _ => true

/-- The method of the reader has failed. `current_position` does not fail. -/
def failed : (c : SCall V) → SRes V c → Bool
  | .op (.currentPosition _), _ => false
  | .op _, r => isErr r
  | .stringStart, r => isErr r
  | .stringRead _, r => isErr r
  | .deserialize _, r => isErr r

/-- `current_position`, which does not read anything -/
def asksPosition : SCall V → Bool
  | .op (.currentPosition _) => true
  | _ => false

/-- The reader is not used any further, except for asking for its position. The only panic is the one of the second `read_name` of a member. -/
def Untouched (Q : α → Prop) : Calls (SCall V) (SRes V) α → Prop
  | .ret a => Q a
  | .panic p => p = .nameConsumed
  | .call c k => asksPosition c ∧ ∀ r, Untouched Q (k r)

/-- As soon as a method of the reader has failed, the reader is not used any further, and then the final result satisfies `Q` -/
def Sticky (Q : α → Prop) : Calls (SCall V) (SRes V) α → Prop
  | .ret _ => True
  | .panic p => p ≠ .index ∧ p ≠ .unexpectedErrorType
  | .call c k => ∀ r, if failed c r then Untouched Q (k r) else Sticky Q (k r)

end

/-! ## What the closures are given -/

open Json
open Cursor (Kind kindOf typeOf find unsupportedNumber)
open DeSpec (DKind)

/-- Errors without their locations. `other`: errors which do not occur for a valid document, or only after another error -/
inductive SKind where
  | reader (e : Kind)
  | de (e : DKind)
  | noMatch
  | closure (msg : Text)
  | other
deriving DecidableEq

def kind : SErr → SKind
  | .reader e => .reader (kindOf e)
  | .de e => .de (DeSpec.kind e)
  | .string _ => .other
  | .stored _ => .other
  | .noMatch _ => .noMatch
  | .closure msg => .closure msg

abbrev Ans (α : Type) := Answer SKind α

def Ans.of {α : Type} : Except SErr α → Ans α
  | .ok a => .ok a
  | .error e => .err (kind e)

/-- `opened`: number of arrays and objects around the value -/
structure Env where
  st : Settings
  opened : Nat

def Env.inside (env : Env) (n : Nat) : Env := { env with opened := env.opened + n }

variable {V α : Type}

def wrongType (expected : ValueType) (v : JVal) : Ans α := .err (.reader (.type expected (typeOf v)))

/-- the number is rejected by the number restriction of the reader -/
def number (env : Env) : JVal → Ans Text
  | .num t => if env.st.restrictNumberValues && unsupportedNumber t then .err (.reader (.number t)) else .ok t
  | v => wrongType .number v

/-- `deserialize_next`; the nesting limit of the deserializer is 128 -/
def deserialized (env : Env) (v : JVal) (d : De.De V) : Ans V := match DeSpec.value ⟨env.st, 128, env.opened, 0⟩ v d with
  | .ok x => .ok x
  | .err e => .err (.de e)
  | .misuse => .misuse

/-- one call of a closure for each element; it is given the result of the previous call -/
def each (f : V → α → Ans V) (x : V) : List α → Ans V
  | [] => .ok x
  | a :: as => do
    let y ← f x a
    each f y as

/-- The results for several values; an error is the last one -/
def joinAll : List (List JVal × Option Kind) → List JVal × Option Kind
  | [] => ([], none)
  | (vs, some e) :: _ => (vs, some e)
  | (vs, none) :: rest => (vs ++ (joinAll rest).1, (joinAll rest).2)

/-- The values which are matched by the path, in the order in which they occur in the document, and then possibly the error because of which the search ends -/
def visit : List MultiPiece → JVal → List JVal × Option Kind
  | [], v => ([v], none)
  | .arrayItem i :: path, v => match v with
    | .arr vs => match vs[i]? with
      | some v => visit path v
      | none => ([], some (.structure (.tooShortArray i)))
    | v => ([], some (.type .array (typeOf v)))
  | .allArrayItems allowEmpty :: path, v => match v with
    | .arr vs =>
      if vs.isEmpty && !allowEmpty then ([], some (.structure .fewerElementsThanExpected))
      else joinAll (vs.map (visit path))
    | v => ([], some (.type .array (typeOf v)))
  | .objectMember name :: path, v => match v with
    | .obj ms => match ms.find? fun m => m.1 = name with
      | some m => visit path m.2
      | none => ([], some (.structure (.missingObjectMember name)))
    | v => ([], some (.type .object (typeOf v)))
  | .optionalObjectMember name :: path, v => match v with
    | .obj ms => match ms.find? fun m => m.1 = name with
      | some m => visit path m.2
      | none => ([], none)
    | v => ([], some (.type .object (typeOf v)))
  | .allObjectMembers allowEmpty :: path, v => match v with
    | .obj ms =>
      if ms.isEmpty && !allowEmpty then ([], some (.structure .fewerElementsThanExpected))
      else joinAll (ms.map fun m => visit path m.2)
    | v => ([], some (.type .object (typeOf v)))

/-- closure with a `StringValueReader`; `bs` are the bytes which have not been read yet -/
def strClosure (bs : Bytes) : StrC V → Ans V
  | .ret r => Ans.of r
  | .read len k => strClosure (bs.drop len) (k (.ok (bs.take len)))

mutual
/-- reading another item although there is none -/
def noItem : ValOp V → Ans α
  | .deserialize _ => .err (.de (.reader (.structure .fewerElementsThanExpected)))
  | .seekedMulti [] _ init f => noItemClosure (f init)
  | _ => .err (.reader (.structure .fewerElementsThanExpected))
/-- (with an empty path the closure is called although there is no item) -/
def noItemClosure : ValC V → Ans α
  | .ret (.error e) => .err (kind e)
  | .op o _ => noItem o
  | _ => .err (.reader (.structure .fewerElementsThanExpected))
end

mutual
/-- A method which reads the value `v` -/
def value (env : Env) (v : JVal) : ValOp V → Ans (Got V)
  | .null => match v with
    | .null => .ok .unit
    | v => wrongType .null v
  | .bool => match v with
    | .bool b => .ok (.bool b)
    | v => wrongType .boolean v
  | .str f => match v with
    | .str t => do
      let x ← Ans.of (f t)
      pure (.val x)
    | v => wrongType .string v
  | .string => match v with
    | .str t => .ok (.text t)
    | v => wrongType .string v
  | .stringReader f => match v with
    | .str t => do
      let x ← strClosure (enc t) f
      pure (.val x)
    | v => wrongType .string v
  | .number => do
    let t ← number env v
    pure (.text t)
  | .numberString => do
    let t ← number env v
    pure (.text t)
  | .deserialize d => do
    let x ← deserialized env v d
    pure (.val x)
  | .skip => .ok .unit
  | .array f => match v with
    | .arr vs => do
      let (x, rest) ← arrClosure (env.inside 1) vs f
      if rest.isEmpty then pure (.val x) else .err (.reader (.structure .moreElementsThanExpected))
    | v => wrongType .array v
  | .arrayItems init f => match v with
    | .arr vs => do
      let x ← each (fun x v => single (env.inside 1) v (f x)) init vs
      pure (.val x)
    | v => wrongType .array v
  | .objectBorrowed init f => match v with
    | .obj ms => do
      let x ← each (fun x m => member (env.inside 1) m.1 m.2 false (f x)) init ms
      pure (.val x)
    | v => wrongType .object v
  | .objectOwned init f => match v with
    | .obj ms => do
      let x ← each (fun x m => single (env.inside 1) m.2 (f x m.1)) init ms
      pure (.val x)
    | v => wrongType .object v
  | .seeked path f => match find path v with
    | .ok w => do
      let x ← single (env.inside path.length) w f
      pure (.val x)
    | .error e => .err (.reader e)
  | .seekedMulti path atLeastOne init f => do
    let x ← each (fun x w => single (env.inside path.length) w (f x)) init (visit path v).1
    match (visit path v).2 with
    | some e => .err (.reader e)
    | none => if atLeastOne && (visit path v).1.isEmpty then .err .noMatch else pure (.val x)
/-- closure with an `ArrayReader`; the result includes the items which have not been read -/
def arrClosure (env : Env) (vs : List JVal) : ArrC V → Ans (V × List JVal)
  | .ret r => do
    let x ← Ans.of r
    pure (x, vs)
  | .hasNext k => arrClosure env vs (k (.ok !vs.isEmpty))
  | .peek k => match vs with
    | [] => .err (.reader (.structure .fewerElementsThanExpected))
    | v :: _ => arrClosure env vs (k (.ok (typeOf v)))
  | .op o k => match vs with
    | [] => noItem o
    | v :: vs => do
      let g ← value env v o
      arrClosure env vs (k (.ok g))
/-- closure with a `SingleValueReader` -/
def single (env : Env) (v : JVal) : ValC V → Ans V
  | .ret r => Ans.of r
  | .peek k => single env v (k (.ok (typeOf v)))
  | .op o k => do
    let g ← value env v o
    Ans.of (k (.ok g))
/-- closure with a `MemberReader`; the name may be read once, in front of the value -/
def member (env : Env) (name : Text) (v : JVal) (consumedName : Bool) : MemC V → Ans V
  | .ret r => Ans.of r
  | .readName k => if consumedName then .misuse else member env name v true (k (.ok name))
  | .peek k => member env name v true (k (.ok (typeOf v)))
  | .op o k => do
    let g ← value env v o
    Ans.of (k (.ok g))
end

/-- usage of a `SimpleJsonReader` for a document which consists of one value; `v` is this value, or the part of it to which `seek_to` has moved -/
def top (env : Env) (v : JVal) : TopC V → Ans V
  | .ret r => Ans.of r
  | .seekTo path k => match find path v with
    | .ok w => top (env.inside path.length) w (k (.ok ()))
    | .error e => .err (.reader e)
  | .peek k => top env v (k (.ok (typeOf v)))
  | .op o k => do
    let g ← value env v o
    Ans.of (k (.ok g))

/-! ## What is demanded of closures -/

/-- The error is passed on (the operator `?` of Rust) -/
def Pass (f : SErr → Except SErr V) : Prop := ∀ e, ∃ e', f e = .error e' ∧ kind e = kind e'

mutual
/-- All errors are passed on to the caller -/
def Passes : ValOp V → Prop
  | .null | .bool | .str _ | .string | .number | .numberString | .skip => True
  | .stringReader f => PassesStr f
  | .deserialize d => DeSpec.Propagates d
  | .array f => PassesArr f
  | .arrayItems _ f => ∀ x, PassesVal (f x)
  | .objectBorrowed _ f => ∀ x, PassesMem (f x)
  | .objectOwned _ f => ∀ x n, PassesVal (f x n)
  | .seeked _ f => PassesVal f
  | .seekedMulti _ _ _ f => ∀ x, PassesVal (f x)
def PassesStr : StrC V → Prop
  | .ret _ => True
  | .read _ k => (∀ x, PassesStr (k (.ok x))) ∧ ∀ e, ∃ e', k (.error e) = .ret (.error e') ∧ kind e = kind e'
def PassesArr : ArrC V → Prop
  | .ret _ => True
  | .hasNext k => (∀ x, PassesArr (k (.ok x))) ∧ ∀ e, ∃ e', k (.error e) = .ret (.error e') ∧ kind e = kind e'
  | .peek k => (∀ x, PassesArr (k (.ok x))) ∧ ∀ e, ∃ e', k (.error e) = .ret (.error e') ∧ kind e = kind e'
  | .op o k => Passes o ∧ (∀ x, PassesArr (k (.ok x))) ∧ ∀ e, ∃ e', k (.error e) = .ret (.error e') ∧ kind e = kind e'
def PassesVal : ValC V → Prop
  | .ret _ => True
  | .peek k => (∀ x, PassesVal (k (.ok x))) ∧ ∀ e, ∃ e', k (.error e) = .ret (.error e') ∧ kind e = kind e'
  | .op o k => Passes o ∧ Pass fun e => k (.error e)
def PassesMem : MemC V → Prop
  | .ret _ => True
  | .readName k => (∀ x, PassesMem (k (.ok x))) ∧ ∀ e, ∃ e', k (.error e) = .ret (.error e') ∧ kind e = kind e'
  | .peek k => (∀ x, PassesMem (k (.ok x))) ∧ ∀ e, ∃ e', k (.error e) = .ret (.error e') ∧ kind e = kind e'
  | .op o k => Passes o ∧ Pass fun e => k (.error e)
end

def PassesTop : TopC V → Prop
  | .ret _ => True
  | .seekTo _ k => (∀ x, PassesTop (k (.ok x))) ∧ ∀ e, ∃ e', k (.error e) = .ret (.error e') ∧ kind e = kind e'
  | .peek k => (∀ x, PassesTop (k (.ok x))) ∧ ∀ e, ∃ e', k (.error e) = .ret (.error e') ∧ kind e = kind e'
  | .op o k => Passes o ∧ Pass fun e => k (.error e)

end Verif.SimpleReaderSpec
