import Verif.Spec.Json
import Verif.Model.Ser
/-!
# Specification: the JSON value of a value of the Serde data model

The documented mapping; it uses neither bytes nor a writer. From the model only the types of values and errors are used.
-/

namespace Verif.SerSpec
open Json
open Ser (SVal MapOp SerErr)

/-- decimal representation of an integer -/
def decimal (i : Int) : Text := if i < 0 then '-' :: Nat.toDigits 10 i.natAbs else Nat.toDigits 10 i.natAbs

/-- The string form of a map key. Only strings, characters, booleans, numbers and unit variants are supported, also inside of `Some` and newtypes. -/
def keyText : SVal → Except SerErr Text
  | .str t => .ok t
  | .char c => .ok [c]
  | .bool b => .ok (if b then "true".toList else "false".toList)
  | .int _ i => .ok (decimal i)
  | .float f => if f.finite then .ok f.text else .error .invalidNumber
  | .unitVariant variant => .ok variant
  | .some v => keyText v
  | .newtypeStruct v => keyText v
  | .custom msg => .error (.custom msg)
  | _ => .error .mapKeyNotString

/-- all of them, or the first error -/
def sequence {α : Type} : List (Except SerErr α) → Except SerErr (List α)
  | [] => .ok []
  | .ok a :: rs => (sequence rs).map (a :: ·)
  | .error e :: _ => .error e

/-- The elements of a compound value with `n` announced elements. If there are more than `n` elements this is noticed when the next one is added. -/
def counted {α : Type} (n : Nat) (rs : List (Except SerErr α)) : Except SerErr (List α) :=
  match sequence (rs.take n) with
  | .error e => .error e
  | .ok xs => if rs.length = n then .ok xs else .error (.incorrectElementsCount n (min rs.length (n + 1)))

/-- the number of elements may be unknown -/
def countedOpt {α : Type} (n : Option Nat) (rs : List (Except SerErr α)) : Except SerErr (List α) :=
  match n with
  | none => sequence rs
  | some n => counted n rs

/-- object with a single member -/
def single (name : Text) (v : JVal) : JVal := .obj [(name, v)]

/-- member -/
def pair (k : Except SerErr Text) (v : Except SerErr JVal) : Except SerErr (Text × JVal) :=
  match k with
  | .error e => .error e
  | .ok k => v.map (k, ·)

mutual
/-- The JSON value, or the error -/
def json : SVal → Except SerErr JVal
  | .bool b => .ok (.bool b)
  | .int _ i => .ok (.num (decimal i))
  | .float f => if f.finite then .ok (.num f.text) else .error .invalidNumber
  | .char c => .ok (.str [c])
  | .str t => .ok (.str t)
  | .bytes bs => .ok (.arr (bs.map fun b => .num (decimal b.toNat)))
  | .none => .ok .null
  | .some v => json v
  | .unit => .ok .null
  | .unitStruct => .ok .null
  | .unitVariant variant => .ok (.str variant)
  | .newtypeStruct v => json v
  | .newtypeVariant variant v => (json v).map (single variant)
  | .seq len vs => (countedOpt len (jsons vs)).map .arr
  | .tuple len vs => (counted len (jsons vs)).map .arr
  | .tupleStruct len vs => (counted len (jsons vs)).map .arr
  | .tupleVariant variant len vs => (counted len (jsons vs)).map fun vs => single variant (.arr vs)
  | .map len ops => (countedOpt len (entries ops)).map .obj
  | .struct len fs => (counted len (fields fs)).map .obj
  | .structVariant variant len fs => (counted len (fields fs)).map fun ms => single variant (.obj ms)
  | .custom msg => .error (.custom msg)
def jsons : List SVal → List (Except SerErr JVal)
  | [] => []
  | v :: vs => json v :: jsons vs
/-- the entries of a map, for every key exactly one value (see `Ok`) -/
def entries : List MapOp → List (Except SerErr (Text × JVal))
  | .key k :: .value v :: ops => pair (keyText k) (json v) :: entries ops
  | _ => []
def fields : List (Text × SVal) → List (Except SerErr (Text × JVal))
  | [] => []
  | (name, v) :: fs => (json v).map (name, ·) :: fields fs
end

mutual
/-- For every `serialize_key` exactly one `serialize_value` follows (as documented for `serialize_map`). Trusted: for finite `f32` and `f64` the standard library
returns a text which is a JSON number. -/
def Ok : SVal → Prop
  | .float f => f.finite = true → IsNumber (enc f.text)
  | .some v => Ok v
  | .newtypeStruct v => Ok v
  | .newtypeVariant _ v => Ok v
  | .seq _ vs => Oks vs
  | .tuple _ vs => Oks vs
  | .tupleStruct _ vs => Oks vs
  | .tupleVariant _ _ vs => Oks vs
  | .map _ ops => OkEntries ops
  | .struct _ fs => OkFields fs
  | .structVariant _ _ fs => OkFields fs
  | _ => True
def Oks : List SVal → Prop
  | [] => True
  | v :: vs => Ok v ∧ Oks vs
def OkEntries : List MapOp → Prop
  | [] => True
  | .key k :: .value v :: ops => Ok k ∧ Ok v ∧ OkEntries ops
  | _ => False
def OkFields : List (Text × SVal) → Prop
  | [] => True
  | (_, v) :: fs => Ok v ∧ OkFields fs
end

end Verif.SerSpec
