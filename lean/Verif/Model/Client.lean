import Verif.Model.Run
import Verif.Spec.Json
/-!
# Programs which use a reader

`Prog α` are the programs which call methods of a `JsonReader`: the next call can depend on the results of the previous ones. Not part of the
Struson code; it represents arbitrary users of the library. The program `readValue` reads a value completely, as described in the documentation of
`JsonReader` (reader/mod.rs 586–700): `peek`, then the method for the type; for arrays and objects `has_next` is called in front of each element.
-/

namespace Verif
open Reader Json

/-- Model only: arbitrary users of the trait `JsonReader` (reader/mod.rs 744). `call op k`: call a method and continue with `k`, which is given the result. After a fatal error (see `RErr.fatal`) the program ends. -/
inductive Prog (α : Type) where
  | ret (a : α)
  | fail (e : RErr)
  | call (op : Op) (k : Except RErr Out → Prog α)

namespace Prog
variable {σ : Type} [ByteSource σ] {α β : Type}

/-- Model only: sequential composition -/
def bind : Prog α → (α → Prog β) → Prog β
  | .ret a, f => f a
  | .fail e, _ => .fail e
  | .call op k, f => .call op fun r => bind (k r) f

/-- Model only: `Prog` as monad -/
instance : Monad Prog where
  pure := .ret
  bind := bind

/-- Model only. Execution with a reader -/
def toR : Prog α → R σ α
  | .ret a => pure a
  | .fail e => M.fail e
  | .call op k => ⟨fun s => match (runOp op).run s with
    | .ok o s' => (toR (k (.ok o))).run s'
    | .err e s' => if e.fatal then .err e s' else (toR (k (.error e))).run s'⟩

/-- Model only. Result of the execution with a new reader, see `runReader` -/
def exec (N : Nat) (settings : Settings) (sched : List ReadEvent) (p : Prog α) : Except RErr α :=
  match p.toR.run (new (BufSrc.new N sched) settings) with
  | .ok a _ => .ok a
  | .err e _ => .error e

/-- Model only. First the given method calls, then the program -/
def after : List Op → Prog α → Prog α
  | [], p => p
  | op :: ops, p => .call op fun _ => after ops p

/-! ## Method calls; all errors end the program -/

/-- Model only: call of a method which returns nothing -/
def unitCall (op : Op) : Prog Unit := .call op fun
  | .ok _ => .ret ()
  | .error e => .fail e

/-- Model only: call of a method which returns a `bool` -/
def boolCall (op : Op) : Prog Bool := .call op fun
  | .ok (.bool b) => .ret b
  | .ok _ => .fail .outOfFuel
  | .error e => .fail e

/-- Model only: call of a method which returns a string -/
def textCall (op : Op) : Prog Text := .call op fun
  | .ok (.text t) => .ret t
  | .ok _ => .fail .outOfFuel
  | .error e => .fail e

/-- Model only: call of `peek` -/
def typeCall (op : Op) : Prog ValueType := .call op fun
  | .ok (.type t) => .ret t
  | .ok _ => .fail .outOfFuel
  | .error e => .fail e

mutual
/-- Usage according to the documentation, reader/mod.rs 586–700. Read a value. The argument bounds the number of steps. -/
def readValue : Nat → Prog JVal
  | 0 => .fail .outOfFuel
  | n + 1 => do
    match ← typeCall .peek with
    | .null => do
      unitCall .nextNull
      pure .null
    | .boolean => do
      let b ← boolCall .nextBool
      pure (.bool b)
    | .number => do
      let t ← textCall .nextNumberAsString
      pure (.num t)
    | .string => do
      let t ← textCall .nextString
      pure (.str t)
    | .array => do
      unitCall .beginArray
      let vs ← readItems n
      unitCall .endArray
      pure (.arr vs)
    | .object => do
      unitCall .beginObject
      let ms ← readMembers n
      unitCall .endObject
      pure (.obj ms)
/-- reader/mod.rs 586–700. Read the items of an array -/
def readItems : Nat → Prog (List JVal)
  | 0 => .fail .outOfFuel
  | n + 1 => do
    if ← boolCall .hasNext then do
      let v ← readValue n
      let vs ← readItems n
      pure (v :: vs)
    else pure []
/-- reader/mod.rs 586–700. Read the members of an object -/
def readMembers : Nat → Prog (List (Text × JVal))
  | 0 => .fail .outOfFuel
  | n + 1 => do
    if ← boolCall .hasNext then do
      let name ← textCall .nextName
      let v ← readValue n
      let ms ← readMembers n
      pure ((name, v) :: ms)
    else pure []
end

/-- reader/mod.rs 586–700. Read a document which consists of one value -/
def readDoc (n : Nat) : Prog JVal := do
  let v ← readValue n
  unitCall .consumeTrailingWhitespace
  pure v

/-- Read top-level values until the end of the input, see the documentation of `has_next` (reader/mod.rs 1049–1100) -/
def readMore : Nat → Prog (List JVal)
  | 0 => .fail .outOfFuel
  | n + 1 => do
    if ← boolCall .hasNext then do
      let v ← readValue n
      let vs ← readMore n
      pure (v :: vs)
    else pure []

/-- reader/mod.rs 586–700, with `allow_multiple_top_level`. Read a sequence of at least one top-level value -/
def readAll (n : Nat) : Prog (List JVal) := do
  let v ← readValue n
  let vs ← readMore n
  unitCall .consumeTrailingWhitespace
  pure (v :: vs)

end Prog
end Verif
