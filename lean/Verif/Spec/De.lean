import Verif.Model.De
import Verif.Spec.Answer
import Verif.Spec.Cursor
import Verif.Spec.Ser
/-!
# Specification: deserializing from a JSON value

What an implementation of `Deserialize` (`De.De`, see `Verif/Model/De.lean`) gets when the JSON value is known. There is no reader here, only the value; the only
settings of the reader which matter are its limits. Of the model only the types are used, and the functions for texts (map keys and variant names, see below).
-/

namespace Verif.DeSpec
open Json Cursor
open De hiding method
open Writer (IntTy)

/-- Errors without positions -/
inductive DKind where
  | custom (msg : Text)
  | invalidType (u : Unexp)
  | invalidLength (len expected : Nat)
  | maxNestingDepthExceeded (n : Nat)
  | reader (e : Kind)
  | invalidNumber
deriving Repr, DecidableEq

def kind : DErr → DKind
  | .custom msg => .custom msg
  | .invalidType u => .invalidType u
  | .invalidLength len expected => .invalidLength len expected
  | .maxNestingDepthExceeded n => .maxNestingDepthExceeded n
  | .reader e => .reader (kindOf e)
  | .invalidNumber => .invalidNumber

/-- Result for a value. Misuse is for example to read two keys without a value in between. -/
abbrev Ans := Answer DKind

/-- result of the implementation -/
def Ans.of {α : Type} : Except DErr α → Ans α
  | .ok a => .ok a
  | .error e => .err (kind e)

/-! ## Numbers -/

/-- the number denoted by decimal digits -/
def natValue (ds : Text) : Option Nat :=
  if ds ≠ [] ∧ ∀ c ∈ ds, '0' ≤ c ∧ c ≤ '9' then some (ds.foldl (fun n c => 10 * n + (c.toNat - '0'.toNat)) 0) else none

/-- the integer denoted by the text: digits, with an optional sign (JSON numbers do not begin with `+`) -/
def intValue : Text → Option Int
  | '-' :: ds => (natValue ds).map fun (n : Nat) => -(n : Int)
  | '+' :: ds => (natValue ds).map fun (n : Nat) => (n : Int)
  | ds => (natValue ds).map fun (n : Nat) => (n : Int)

/-- the number has a fraction or an exponent -/
def isFloat (t : Text) : Bool := t.contains '.' || t.contains 'e' || t.contains 'E'

/-- The value is in the range of the type -/
def fits (ty : IntTy) (i : Int) : Bool := decide (ty.min ≤ i) && decide (i ≤ ty.max)

/-- the text as integer of the given type; an unsigned integer must not have a sign -/
def asInt (ty : IntTy) (t : Text) : Ans Int := match intValue t with
  | some i => if (ty.signed || t.head? != some '-') && fits ty i then .ok i else .err .invalidNumber
  | none => .err .invalidNumber

/-- What `deserialize_any` gives to the visitor for a number: `f64` if there is a fraction or an exponent, otherwise `i64` or else `i128` if it is negative, and `u64` or
else `u128` if it is not negative -/
def anyNumber (t : Text) : Ans Prim :=
  if isFloat t then .ok (.f64 t)
  else match intValue t with
    | none => .err .invalidNumber
    | some i =>
      let (small, big) := if t.head? = some '-' then (IntTy.i64, IntTy.i128) else (IntTy.u64, IntTy.u128)
      if fits small i then .ok (.int small i)
      else if fits big i then .ok (.int big i)
      else .err .invalidNumber

/-! ## Values -/

/-- Settings of the reader, limit of the deserializer, number of open arrays and objects (of the reader and of the deserializer) -/
structure Env where
  st : Settings
  max : Nat
  opened : Nat
  depth : Nat

def Env.inside (e : Env) : Env := { e with opened := e.opened + 1, depth := e.depth + 1 }

variable {V : Type}

def wrongType {α : Type} (expected : ValueType) (v : JVal) : Ans α := .err (.reader (.type expected (typeOf v)))

/-- the text of a number, which is rejected by the number restriction of the reader -/
def number (env : Env) (v : JVal) : Ans Text := match v with
  | .num t => if env.st.restrictNumberValues && unsupportedNumber t then .err (.reader (.number t)) else .ok t
  | v => wrongType .number v

def string (v : JVal) : Ans Text := match v with
  | .str t => .ok t
  | v => wrongType .string v

/-- An array or object can only be started if both limits permit it; the one of the deserializer is checked even before the type of the value -/
def start {α : Type} (env : Env) (isContainer : Bool) (expected : ValueType) (v : JVal) (k : Ans α) : Ans α :=
  if env.max ≤ env.depth then .err (.maxNestingDepthExceeded env.max)
  else if !isContainer then wrongType expected v
  else match env.st.maxNestingDepth with
    | some n => if n ≤ env.opened then .err (.reader (.depth n)) else k
    | none => k

def isArr : JVal → Bool
  | .arr _ => true
  | _ => false
def isObj : JVal → Bool
  | .obj _ => true
  | _ => false
def items : JVal → List JVal
  | .arr vs => vs
  | _ => []
def members : JVal → List (Text × JVal)
  | .obj ms => ms
  | _ => []

/-- all elements must have been read -/
def noneLeft {α : Type} (rest : List α) : Ans Unit := match rest with
  | [] => .ok ()
  | _ => .err (.reader (.structure .moreElementsThanExpected))

/-- The visitor: the meaning of its methods, see `De.Visitor`. The results of `seq` and `map` include the elements which have not been read. -/
structure VisSem (V : Type) where
  prim : Prim → Ans V
  some : Env → JVal → Ans V
  newtype : Env → JVal → Ans V
  seq : Env → Option Nat → Nat → List JVal → Ans (V × Nat × List JVal)
  map : Env → List (Text × JVal) → Ans (V × List (Text × JVal))
  enum : Env → List (Text × JVal) → Ans (V × List (Text × JVal))
  unitEnum : Env → JVal → Ans V

/-- a sequence, with the expected number of elements -/
def seq (env : Env) (expected : Option Nat) (vis : VisSem V) (v : JVal) : Ans V :=
  start env (isArr v) .array v do
    let (x, len, rest) ← vis.seq env.inside expected 0 (items v)
    match expected with
    | some n => if len < n then Answer.err (.invalidLength len n) else pure ()
    | none => pure ()
    noneLeft rest
    pure x

def map (env : Env) (vis : VisSem V) (v : JVal) : Ans V :=
  start env (isObj v) .object v do
    let (x, rest) ← vis.map env.inside (members v)
    noneLeft rest
    pure x

/-- a variant is an object with one member, or a string -/
def enum (env : Env) (vis : VisSem V) (v : JVal) : Ans V := match v with
  | .obj ms => start env true .object v do
    let (x, rest) ← vis.enum env.inside ms
    noneLeft rest
    pure x
  | .str _ => vis.unitEnum env v
  | v => .err (.invalidType (mapToUnexpected (typeOf v)))

/-- What the methods of the deserializer do -/
def method (env : Env) (m : Method) (vis : VisSem V) (v : JVal) : Ans V := match m with
  | .any => match v with
    | .arr _ => seq env none vis v
    | .obj _ => map env vis v
    | .str t => vis.prim (.string t)
    | .bool b => vis.prim (.bool b)
    | .null => vis.prim .unit
    | .num _ => do
      let t ← number env v
      let p ← anyNumber t
      vis.prim p
  | .bool => match v with
    | .bool b => vis.prim (.bool b)
    | v => wrongType .boolean v
  | .int ty => do
    let t ← number env v
    let i ← asInt ty t
    vis.prim (.int ty i)
  | .f32 => do
    let t ← number env v
    vis.prim (.f32 t)
  | .f64 => do
    let t ← number env v
    vis.prim (.f64 t)
  | .char | .str | .identifier => do
    let t ← string v
    vis.prim (.str t)
  | .string => do
    let t ← string v
    vis.prim (.string t)
  | .bytes => match v with
    | .str t => vis.prim (.bytes (enc t))
    | .arr _ => seq env none vis v
    | v => .err (.invalidType (mapToUnexpected (typeOf v)))
  | .byteBuf => match v with
    | .str t => vis.prim (.byteBuf (enc t))
    | .arr _ => seq env none vis v
    | v => .err (.invalidType (mapToUnexpected (typeOf v)))
  | .option => match v with
    | .null => vis.prim .none
    | v => vis.some env v
  | .unit | .unitStruct => match v with
    | .null => vis.prim .unit
    | v => wrongType .null v
  | .newtypeStruct => vis.newtype env v
  | .seq => seq env none vis v
  | .tuple n | .tupleStruct n => seq env (some n) vis v
  | .map => map env vis v
  | .struct => match v with
    | .arr _ => seq env none vis v
    | .obj _ => map env vis v
    | v => .err (.invalidType (mapToUnexpected (typeOf v)))
  | .enum => enum env vis v
  | .ignoredAny => match env.st.maxNestingDepth with
    | some n => if n < env.opened + depth v then .err (.reader (.depth n)) else vis.prim .unit
    | none => vis.prim .unit

mutual
/-- `deserialize` for a value. If it does not use the deserializer then the value is not consumed, which is not specified. -/
def value (env : Env) (v : JVal) : De V → Ans V
  | .ret (.ok _) => .misuse
  | .ret (.error e) => .err (kind e)
  | .call m vis k => do
    let x ← method env m (sem vis) v
    Ans.of (k (.ok x))
def sem : Vis V → VisSem V
  | .mk prim opt newtype seq map enum =>
    { prim := fun p => Ans.of (prim p), some := fun env v => value env v opt, newtype := fun env v => value env v newtype,
      seq := fun env expected len vs => seqItems env expected len vs seq, map := fun env ms => mapKeys env ms map, enum := fun env ms => enumObj env ms enum,
      unitEnum := fun env v => enumStr env v enum }
/-- `visit_seq` for the remaining items, of which `len` have been counted -/
def seqItems (env : Env) (expected : Option Nat) (len : Nat) (vs : List JVal) : SeqC V → Ans (V × Nat × List JVal)
  | .ret r => do
    let x ← Ans.of r
    pure (x, len, vs)
  | .next seed k => match vs with
    | [] => seqItems env expected len [] (k (.ok none))
    | v :: vs => match expected with
      | some n =>
        if n ≤ len then .err (.invalidLength (len + 1) n)
        else do
          let x ← value env v seed
          seqItems env expected (len + 1) vs (k (.ok (some x)))
      | none => do
        let x ← value env v seed
        seqItems env expected len vs (k (.ok (some x)))
/-- `visit_map` for the remaining members, in front of a key -/
def mapKeys (env : Env) (ms : List (Text × JVal)) : MapC V → Ans (V × List (Text × JVal))
  | .ret r => do
    let x ← Ans.of r
    pure (x, ms)
  | .key seed k => match ms with
    | [] => mapKeys env [] (k (.ok none))
    | (name, v) :: ms => do
      let x ← Ans.of (keyDe name seed)
      mapValue env v ms (k (.ok (some x)))
  | .value _ _ => .misuse
/-- behind a key, `v` is its value -/
def mapValue (env : Env) (v : JVal) (ms : List (Text × JVal)) : MapC V → Ans (V × List (Text × JVal))
  | .ret (.ok _) => .misuse
  | .ret (.error e) => .err (kind e)
  | .key _ _ => .misuse
  | .value seed k => do
    let x ← value env v seed
    mapKeys env ms (k (.ok x))
/-- `visit_enum` for an object -/
def enumObj (env : Env) (ms : List (Text × JVal)) : EnumC V → Ans (V × List (Text × JVal))
  | .ret (.ok _) => .misuse
  | .ret (.error e) => .err (kind e)
  | .variant seed _ k => match ms with
    | [] => .err (.reader (.structure .fewerElementsThanExpected))
    | (name, v) :: ms => do
      let x ← Ans.of (strDe name seed)
      let y ← variant env v (k x)
      pure (y, ms)
/-- the value of the variant -/
def variant (env : Env) (v : JVal) : VarC V → Ans V
  | .ret (.ok _) => .misuse
  | .ret (.error e) => .err (kind e)
  | .unit k => match v with
    | .null => Ans.of (k (.ok ()))
    | v => wrongType .null v
  | .newtype seed k => do
    let x ← value env v seed
    Ans.of (k (.ok x))
  | .tuple n vis k => do
    let x ← method env (.tuple n) (sem vis) v
    Ans.of (k (.ok x))
  | .struct vis k => do
    let x ← method env .struct (sem vis) v
    Ans.of (k (.ok x))
/-- `visit_enum` for a string -/
def enumStr (env : Env) (v : JVal) : EnumC V → Ans V
  | .ret (.ok _) => .misuse
  | .ret (.error e) => .err (kind e)
  | .variant seed _ k => do
    let x ← value env v seed
    unitVariant (k x)
/-- a variant without value -/
def unitVariant : VarC V → Ans V
  | .ret (.ok _) => .misuse
  | .ret (.error e) => .err (kind e)
  | .unit k => Ans.of (k (.ok ()))
  | _ => .err (.invalidType .unitVariant)
end

/-! ## What is demanded of implementations -/

mutual
/-- All errors of the deserializer are passed on to the caller; `P e e'`: the error `e` may be passed on as `e'` -/
def Aborts (P : DErr → DErr → Prop) : De V → Prop
  | .ret _ => True
  | .call _ v k => AbortsVis P v ∧ ∀ e, ∃ e', k (.error e) = .error e' ∧ P e e'
def AbortsVis (P : DErr → DErr → Prop) : Vis V → Prop
  | .mk _ opt newtype seq map enum => Aborts P opt ∧ Aborts P newtype ∧ AbortsSeq P seq ∧ AbortsMap P map ∧ AbortsEnum P enum
def AbortsSeq (P : DErr → DErr → Prop) : SeqC V → Prop
  | .ret _ => True
  | .next seed k => Aborts P seed ∧ (∀ x, AbortsSeq P (k (.ok x))) ∧ ∀ e, ∃ e', k (.error e) = .ret (.error e') ∧ P e e'
def AbortsMap (P : DErr → DErr → Prop) : MapC V → Prop
  | .ret _ => True
  | .key seed k => Aborts P seed ∧ (∀ x, AbortsMap P (k (.ok x))) ∧ ∀ e, ∃ e', k (.error e) = .ret (.error e') ∧ P e e'
  | .value seed k => Aborts P seed ∧ (∀ x, AbortsMap P (k (.ok x))) ∧ ∀ e, ∃ e', k (.error e) = .ret (.error e') ∧ P e e'
def AbortsEnum (P : DErr → DErr → Prop) : EnumC V → Prop
  | .ret _ => True
  | .variant seed onError k => Aborts P seed ∧ (∀ x, AbortsVar P (k x)) ∧ ∀ e, ∃ e', onError e = .error e' ∧ P e e'
def AbortsVar (P : DErr → DErr → Prop) : VarC V → Prop
  | .ret _ => True
  | .unit k => ∀ e, ∃ e', k (.error e) = .error e' ∧ P e e'
  | .newtype seed k => Aborts P seed ∧ ∀ e, ∃ e', k (.error e) = .error e' ∧ P e e'
  | .tuple _ v k => AbortsVis P v ∧ ∀ e, ∃ e', k (.error e) = .error e' ∧ P e e'
  | .struct v k => AbortsVis P v ∧ ∀ e, ∃ e', k (.error e) = .error e' ∧ P e e'
end

/-- errors are passed on unchanged (the operator `?` of Rust) -/
abbrev Propagates (d : De V) : Prop := Aborts (fun e e' => kind e = kind e') d

/-! ## Executions of code which is generic in the reader -/

/-- A sequence of calls with their results which can occur -/
inductive Trace {C : Type} {Res : C → Type} {α : Type} : Calls C Res α → List ((c : C) × Res c) → Prop where
  | nil (t : Calls C Res α) : Trace t []
  | call (c : C) (k : Res c → Calls C Res α) (r : Res c) (tr : List ((c : C) × Res c)) : Trace (k r) tr → Trace (.call c k) (⟨c, r⟩ :: tr)

/-- A complete execution: the calls with their results, and the result -/
inductive Done {C : Type} {Res : C → Type} {α : Type} : Calls C Res α → List ((c : C) × Res c) → α → Prop where
  | ret (a : α) : Done (.ret a) [] a
  | call (c : C) (k : Res c → Calls C Res α) (r : Res c) (tr : List ((c : C) × Res c)) (a : α) : Done (k r) tr a → Done (.call c k) (⟨c, r⟩ :: tr) a

/-- the number of arrays and objects which have been started and not ended -/
def openAfter : List ((op : Reader.Op) × Reader.OpRes op) → Int
  | [] => 0
  | ⟨.beginArray, .ok _⟩ :: tr => openAfter tr + 1
  | ⟨.beginObject, .ok _⟩ :: tr => openAfter tr + 1
  | ⟨.endArray, .ok _⟩ :: tr => openAfter tr - 1
  | ⟨.endObject, .ok _⟩ :: tr => openAfter tr - 1
  | _ :: tr => openAfter tr

/-- methods which do not start or end arrays or objects (except those which they end themselves) -/
def neutral : Reader.Op → Bool
  | .beginArray | .beginObject | .endArray | .endObject => false
  | .seekTo _ | .seekBack _ | .skipToTopLevel | .consumeTrailingWhitespace => false
  | _ => true

end Verif.DeSpec
