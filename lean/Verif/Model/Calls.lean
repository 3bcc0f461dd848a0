import Verif.Model.Run
/-!
# Code which is generic in the `JsonReader`

The Serde deserializer and the Simple reader API only call methods of a `JsonReader`. Such code is a tree of calls: at each node a method is called, and the
execution continues with the branch for its result. A statement about all branches is a statement about all implementations of `JsonReader` and all inputs.
-/

namespace Verif

/-- Model only: the panics of serde/de.rs 823–832 and those of the reader (stream_reader.rs, see `Panic`). Panic of the code in the tree or of the reader -/
inductive CPanic where
  /-- panic of a method of the reader -/
  | reader (p : Panic)
  /-- serde/de.rs 812: "Cannot deserialize key when value is expected" -/
  | keyWhenValueExpected
  /-- serde/de.rs 829: "Cannot deserialize value when key is expected" -/
  | valueWhenKeyExpected
  /-- serde/de.rs 654: "Did not deserialize trailing value" -/
  | trailingValue
  /-- serde/de.rs 721 and 739: "Did not consume variant value" -/
  | variantValue
  /-- reader/simple.rs 2047: "name has already been consumed" -/
  | nameConsumed
  /-- reader/simple.rs 1499: `unreachable!` -/
  | unexpectedErrorType
  /-- reader/simple.rs 1091 and 1150: `expect_err` -/
  | expectErr
  /-- index out of bounds (reader/simple.rs 1065, 1173: `path[…]`) -/
  | index
  /-- the bound for the number of iterations of a loop has been reached (does not exist in the code) -/
  | outOfFuel
deriving Repr, DecidableEq

/-- Model only (a tree of calls of the trait `JsonReader`, reader/mod.rs 744, or `JsonWriter`, writer/mod.rs 91). `C`: the methods with their arguments, `Res c`: the result of the method -/
inductive Calls (C : Type) (Res : C → Type) (α : Type) where
  | ret (a : α)
  | panic (p : CPanic)
  | call (c : C) (k : Res c → Calls C Res α)

/-- Model only. Result of an execution. `unspecified`: a method has been called although the reader must not be used any further. -/
inductive Outcome (S α : Type) where
  | ret (a : α) (s : S)
  | panic (p : CPanic)
  | unspecified

/-- Model only: without the final state -/
def Outcome.forget {S α : Type} : Outcome S α → Outcome Unit α
  | .ret a _ => .ret a ()
  | .panic p => .panic p
  | .unspecified => .unspecified

namespace Calls
variable {C : Type} {Res : C → Type} {S α β : Type}

/-- Model only: sequential composition -/
def bind : Calls C Res α → (α → Calls C Res β) → Calls C Res β
  | .ret a, f => f a
  | .panic p, _ => .panic p
  | .call c k, f => .call c fun r => bind (k r) f

/-- Model only. Execution with an implementation of the methods -/
def run (h : (c : C) → S → Outcome S (Res c)) : Calls C Res α → S → Outcome S α
  | .ret a, s => .ret a s
  | .panic p, _ => .panic p
  | .call c k, s => match h c s with
    | .ret r s' => run h (k r) s'
    | .panic p => .panic p
    | .unspecified => .unspecified

end Calls

/-- Model only. Code with a state of its own (fields of a struct) which can fail -/
structure CT (C : Type) (Res : C → Type) (ε σ α : Type) where
  run : σ → Calls C Res (Except ε α × σ)

namespace CT
variable {C : Type} {Res : C → Type} {ε σ α β : Type}

/-- Model only: a result without calls -/
protected def pure (a : α) : CT C Res ε σ α := ⟨fun s => .ret (.ok a, s)⟩

/-- Model only. The operator `?`: errors are returned to the caller -/
protected def bind (m : CT C Res ε σ α) (f : α → CT C Res ε σ β) : CT C Res ε σ β := ⟨fun s => (m.run s).bind fun
  | (.ok a, s') => (f a).run s'
  | (.error e, s') => .ret (.error e, s')⟩

/-- Model only: `?` and `Ok` as monad -/
instance : Monad (CT C Res ε σ) where
  pure := CT.pure
  bind := CT.bind

/-- Model only: access to the fields -/
def get : CT C Res ε σ σ := ⟨fun s => .ret (.ok s, s)⟩
/-- Model only: assignment to the fields -/
def modify (f : σ → σ) : CT C Res ε σ Unit := ⟨fun s => .ret (.ok (), f s)⟩
/-- Model only: `Err(e)` -/
def fail (e : ε) : CT C Res ε σ α := ⟨fun s => .ret (.error e, s)⟩
/-- Model only: `panic!` -/
def panic (p : CPanic) : CT C Res ε σ α := ⟨fun _ => .panic p⟩
/-- Model only: the result of a method as value, without returning errors to the caller -/
def attempt (m : CT C Res ε σ α) : CT C Res ε σ (Except ε α) := ⟨fun s => (m.run s).bind fun (r, s') => .ret (.ok r, s')⟩
/-- Model only: method of the reader -/
def call (c : C) : CT C Res ε σ (Res c) := ⟨fun s => .call c fun r => .ret (.ok r, s)⟩
/-- Model only: `r?` for a result `r` -/
def ofExcept : Except ε α → CT C Res ε σ α
  | .ok a => pure a
  | .error e => fail e

end CT

namespace Reader
variable {σ : Type} [ByteSource σ]

/-- reader/mod.rs 744: the trait `JsonReader`. The results of the methods of a `JsonReader`, see `Op` -/
abbrev OpRes : Op → Type := fun _ => Except RErr Out

/-- stream_reader.rs 1933–2374: implementation of `JsonReader`. A method of a `JsonStreamReader`. The state is `none` when the reader must not be used any further: after a syntax or IO error (see `RErr.fatal`) and after
`consume_trailing_whitespace`, which consumes the reader. -/
def handle (op : Op) : Option (RState σ) → Outcome (Option (RState σ)) (OpRes op)
  | none => .unspecified
  | some s => match (runOp op).run s with
    | .ok o s' => .ret (.ok o) (if op = .consumeTrailingWhitespace then none else some s')
    | .err (.panic p) _ => .panic (.reader p)
    | .err e s' => .ret (.error e) (if e.fatal || op = .consumeTrailingWhitespace then none else some s')

end Reader
end Verif
