import Verif.Spec.De
import Verif.Spec.Ser
/-!
# Specification: deserializing with `deserialize_any`

`Data`: what a type like `serde_json::Value` keeps of a value. `anyDe` is its implementation of `Deserialize`; `ofJson` and `ofSer` say which data a JSON value and a value of
the Serde data model have.
-/

namespace Verif.DeSpec
open Json Cursor
open De hiding method
open Writer (IntTy)

/-- What the visitor is given for the number with this text. Decimal numbers are those of `Nat.toDigits` (core library). -/
inductive Visited : Text → Except Unit Prim → Prop
  | float (t : Text) : ('.' ∈ t ∨ 'e' ∈ t ∨ 'E' ∈ t) → Visited t (.ok (.f64 t))
  | u64 (n : Nat) : n < 2 ^ 64 → Visited (Nat.toDigits 10 n) (.ok (.int .u64 n))
  | u128 (n : Nat) : 2 ^ 64 ≤ n → n < 2 ^ 128 → Visited (Nat.toDigits 10 n) (.ok (.int .u128 n))
  | tooLarge (n : Nat) : 2 ^ 128 ≤ n → Visited (Nat.toDigits 10 n) (.error ())
  | i64 (n : Nat) : n ≤ 2 ^ 63 → Visited ('-' :: Nat.toDigits 10 n) (.ok (.int .i64 (-n)))
  | i128 (n : Nat) : 2 ^ 63 < n → n ≤ 2 ^ 127 → Visited ('-' :: Nat.toDigits 10 n) (.ok (.int .i128 (-n)))
  | tooSmall (n : Nat) : 2 ^ 127 < n → Visited ('-' :: Nat.toDigits 10 n) (.error ())

/-- The data; names of maps are not necessarily distinct -/
inductive Data where
  | unit
  | bool (b : Bool)
  | int (i : Int)
  | float (t : Text)
  | str (t : Text)
  | seq (xs : List Data)
  | map (ms : List (Text × Data))
deriving Repr

mutual
def Data.beq : Data → Data → Bool
  | .unit, .unit => true
  | .bool a, .bool b => a == b
  | .int a, .int b => a == b
  | .float a, .float b => a == b
  | .str a, .str b => a == b
  | .seq a, .seq b => Data.beqs a b
  | .map a, .map b => Data.beqm a b
  | _, _ => false
def Data.beqs : List Data → List Data → Bool
  | [], [] => true
  | a :: as, b :: bs => a.beq b && Data.beqs as bs
  | _, _ => false
def Data.beqm : List (Text × Data) → List (Text × Data) → Bool
  | [], [] => true
  | (n, a) :: as, (m, b) :: bs => n == m && a.beq b && Data.beqm as bs
  | _, _ => false
end

mutual
/-- depth of the nesting of sequences and maps -/
def Data.depth : Data → Nat
  | .seq xs => Data.depths xs + 1
  | .map ms => Data.depthm ms + 1
  | _ => 0
def Data.depths : List Data → Nat
  | [] => 0
  | x :: xs => max x.depth (Data.depths xs)
def Data.depthm : List (Text × Data) → Nat
  | [] => 0
  | (_, x) :: ms => max x.depth (Data.depthm ms)
end

mutual
/-- the texts of all floating point numbers -/
def Data.floats : Data → List Text
  | .float t => [t]
  | .seq xs => Data.floatss xs
  | .map ms => Data.floatsm ms
  | _ => []
def Data.floatss : List Data → List Text
  | [] => []
  | x :: xs => x.floats ++ Data.floatss xs
def Data.floatsm : List (Text × Data) → List Text
  | [] => []
  | (_, x) :: ms => x.floats ++ Data.floatsm ms
end

/-- in the range of `i128` or `u128` -/
def inRange (i : Int) : Bool := decide (-(2 ^ 127) ≤ i) && decide (i < 2 ^ 128)

/-- all of them, if they exist -/
def allOf {α : Type} : List (Option α) → Option (List α)
  | [] => some []
  | none :: _ => none
  | some a :: as => (allOf as).map (a :: ·)

/-! ## The data of a value of the Serde data model

There is none for values which can not be serialized, for integers outside of the range, and for maps whose keys are not strings. -/

open Ser (SVal MapOp)

/-- the announced length must be correct -/
def withLength {α β : Type} (n : Option Nat) (xs : List α) (r : Option β) : Option β := if n = none ∨ n = some xs.length then r else none

mutual
def ofSer : SVal → Option Data
  | .bool b => some (.bool b)
  | .int _ i => if inRange i then some (.int i) else none
  | .float f => if f.finite && isFloat f.text then some (.float f.text) else none
  | .char c => some (.str [c])
  | .str t => some (.str t)
  | .bytes bs => some (.seq (bs.map fun b => .int b.toNat))
  | .none => some .unit
  | .some v => ofSer v
  | .unit => some .unit
  | .unitStruct => some .unit
  | .unitVariant variant => some (.str variant)
  | .newtypeStruct v => ofSer v
  | .newtypeVariant variant v => (ofSer v).map fun x => .map [(variant, x)]
  | .seq len vs => withLength len vs ((allOf (ofSers vs)).map .seq)
  | .tuple len vs => withLength (some len) vs ((allOf (ofSers vs)).map .seq)
  | .tupleStruct len vs => withLength (some len) vs ((allOf (ofSers vs)).map .seq)
  | .tupleVariant variant len vs => withLength (some len) vs ((allOf (ofSers vs)).map fun xs => .map [(variant, .seq xs)])
  | .map len ops => withLength len (ofEntries ops) ((allOf (ofEntries ops)).map .map)
  | .struct len fs => withLength (some len) fs ((allOf (ofFields fs)).map .map)
  | .structVariant variant len fs => withLength (some len) fs ((allOf (ofFields fs)).map fun ms => .map [(variant, .map ms)])
  | .custom _ => none
def ofSers : List SVal → List (Option Data)
  | [] => []
  | v :: vs => ofSer v :: ofSers vs
def ofEntries : List MapOp → List (Option (Text × Data))
  | [] => []
  | .key (.str t) :: .value v :: ops => (ofSer v).map (t, ·) :: ofEntries ops
  | _ => [none]
def ofFields : List (Text × SVal) → List (Option (Text × Data))
  | [] => []
  | (name, v) :: fs => (ofSer v).map (name, ·) :: ofFields fs
end

/-! ## The data of a JSON value

There is none if an integer is outside of the range. -/

mutual
def ofJson : JVal → Option Data
  | .null => some .unit
  | .bool b => some (.bool b)
  | .num t => if isFloat t then some (.float t) else (intValue t).bind fun i => if inRange i then some (.int i) else none
  | .str t => some (.str t)
  | .arr vs => (allOf (ofJsons vs)).map .seq
  | .obj ms => (allOf (ofMembers ms)).map .map
def ofJsons : List JVal → List (Option Data)
  | [] => []
  | v :: vs => ofJson v :: ofJsons vs
def ofMembers : List (Text × JVal) → List (Option (Text × Data))
  | [] => []
  | (name, v) :: ms => (ofJson v).map (name, ·) :: ofMembers ms
end

/-! ## Implementation of `Deserialize`

The model of implementations has no loops, therefore the implementation has an argument for the maximum number of steps (compare `readDoc`). -/

def dataPrim : Prim → Except DErr Data
  | .bool b => .ok (.bool b)
  | .int _ i => .ok (.int i)
  | .f32 t => .ok (.float t)
  | .f64 t => .ok (.float t)
  | .str t => .ok (.str t)
  | .string t => .ok (.str t)
  | .none => .ok .unit
  | .unit => .ok .unit
  | _ => .error (.custom "bytes".toList)

def tooMany : DErr := .custom "too many steps".toList

/-- the visitor of a type which has only values for which `prim` is given -/
def primVis {V : Type} (prim : Prim → Except DErr V) : Vis V :=
  let no : DErr := .custom "unexpected".toList
  .mk prim (.ret (.error no)) (.ret (.error no)) (.ret (.error no)) (.ret (.error no)) (.ret (.error no))

/-- implementation of `Deserialize` for strings -/
def stringDe : De Data := .call .string (primVis dataPrim) id

mutual
def anyDe : Nat → De Data
  | 0 => .ret (.error tooMany)
  | n + 1 => .call .any (.mk dataPrim (.ret (.error tooMany)) (.ret (.error tooMany)) (anySeq n []) (anyMap n []) (.ret (.error tooMany))) id
/-- the sequence without the items read so far, which are `acc` in reverse order -/
def anySeq : Nat → List Data → SeqC Data
  | 0, _ => .ret (.error tooMany)
  | n + 1, acc => .next (anyDe n) fun
    | .ok (some x) => anySeq n (x :: acc)
    | .ok none => .ret (.ok (.seq acc.reverse))
    | .error e => .ret (.error e)
def anyMap : Nat → List (Text × Data) → MapC Data
  | 0, _ => .ret (.error tooMany)
  | n + 1, acc => .key stringDe fun
    | .ok (some (.str name)) => .value (anyDe n) fun
      | .ok x => anyMap n ((name, x) :: acc)
      | .error e => .ret (.error e)
    | .ok none => .ret (.ok (.map acc.reverse))
    | .ok _ => .ret (.error tooMany)
    | .error e => .ret (.error e)
end

mutual
/-- the number of steps for a value -/
def steps : JVal → Nat
  | .arr vs => stepsItems vs + 1
  | .obj ms => stepsMembers ms + 1
  | _ => 1
def stepsItems : List JVal → Nat
  | [] => 1
  | v :: vs => steps v + stepsItems vs + 1
def stepsMembers : List (Text × JVal) → Nat
  | [] => 1
  | (_, v) :: ms => steps v + stepsMembers ms + 1
end

end Verif.DeSpec
