import Verif.Model.De
/-!
# Model of the Simple reader API, src/reader/simple.rs

The API is generic in the `JsonReader`, so it is modelled as tree of calls of the methods of the reader (`Calls`). The closures given to the API are arbitrary
programs: after each call they continue depending on its result, and finally they return a result. `V` is the type of all values they create. A closure which is
called several times (`FnMut`) is given the result of its previous call, which represents the variables it can change; simplification: this is lost when the
method to which the closure has been given fails.

The number of iterations of each loop is bounded by `fuel`; the panic `outOfFuel` does not exist in the code.

The conversions of `MultiJsonPathPiece` and the macro `multi_json_path!` are in `Verif.Model.Macros`.

Not modelled: the text of error messages, and `transfer_to` of the internal
`ErrorSafeJsonReader`, which the API does not use.
-/

namespace Verif.SimpleReader
open Reader
open De (De DErr)

/-! ## Errors -/

/-- The field `error` of `ErrorSafeJsonReader` (simple.rs 1334). `clone`: `rough_clone` of the error. `io`: the `IoError` created by `clone_original_io_error` (1253–1262).
`dummy`: the error created by `create_dummy_error` (1265–1272), a `SyntaxError`; `none` is the unknown position (1275–1277). -/
inductive Stored where
  | clone (e : RErr)
  | io (e : RErr)
  | dummy (loc : Option Position)
deriving Repr, DecidableEq

/-- Errors (`ReaderError`, `DeserializerError`, `IoError` of the string value reader, and `Box<dyn Error>`). `string e`: the `IoError` returned by the string value reader
of the delegate, which wraps `e`. `stored`: the stored error is returned instead of calling a method. `noMatch`: simple.rs 1239–1242. `closure`: an error
created by a closure. -/
inductive SErr where
  | reader (e : RErr)
  | de (e : DErr)
  | string (e : RErr)
  | stored (s : Stored)
  | noMatch (loc : Option Position)
  | closure (msg : Text)
deriving Repr, DecidableEq

/-- The error which is stored: simple.rs 1300–1318, for `deserialize_next` 1420–1428, for the string value reader 1504–1509. -/
def toStore : SErr → Stored
  | .reader (.io e loc) => .io (.io e loc)
  | .reader (.unexpectedValueType _ _ loc) => .dummy (some loc)
  | .reader (.unexpectedStructure _ loc) => .dummy (some loc)
  | .reader e => .clone e
  | .de (.reader e) => .clone e
  | .de _ => .dummy none
  | .string e => .io e
  | .stored s => s
  | .noMatch loc => .dummy loc
  | .closure _ => .dummy none

/-- reader/simple.rs 1337–1477: The methods of `JsonReader`. `op`: all but the following ones. `stringStart`: `next_string_reader`. `stringRead`: `read` of the string value reader, with a buffer
of the given size. `deserialize`: `deserialize_next`. -/
inductive SCall (V : Type) where
  | op (op : Op)
  | stringStart
  | stringRead (len : Nat)
  | deserialize (d : De V)

/-- reader/simple.rs 1337–1477. Results of the methods. For `stringRead` the error is the one which is wrapped by the `IoError`. -/
abbrev SRes (V : Type) : SCall V → Type
  | .op _ => Except RErr Out
  | .stringStart => Except RErr Unit
  | .stringRead _ => Except RErr Bytes
  | .deserialize _ => Except DErr V

/-! ## Closures -/

/-- simple.rs 57–103: `MultiJsonPathPiece` -/
inductive MultiPiece where
  | arrayItem (index : Nat)
  | allArrayItems (allowEmpty : Bool)
  | objectMember (name : Text)
  | optionalObjectMember (name : Text)
  | allObjectMembers (allowEmpty : Bool)
deriving Repr, DecidableEq

/-- reader/simple.rs 462–863. Results of the methods of `ValueReader`. `val`: the result of a closure, or a deserialized value -/
inductive Got (V : Type) where
  | unit
  | bool (b : Bool)
  | text (t : Text)
  | val (v : V)

mutual
/-- The methods of `ValueReader` which read a value, simple.rs 367–863. `read_number` parses the text, which is left to the caller here (`next_number` of `JsonReader`,
reader/mod.rs 1162–1165, calls `next_number_as_str`). -/
inductive ValOp (V : Type) where
  | null
  | bool
  | str (f : Text → Except SErr V)
  | string
  | stringReader (f : StrC V)
  | number
  | numberString
  | deserialize (d : De V)
  | skip
  | array (f : ArrC V)
  | arrayItems (init : V) (f : V → ValC V)
  | objectBorrowed (init : V) (f : V → MemC V)
  | objectOwned (init : V) (f : V → Text → ValC V)
  | seeked (path : List PathPiece) (f : ValC V)
  | seekedMulti (path : List MultiPiece) (atLeastOne : Bool) (init : V) (f : V → ValC V)
/-- Model only, user of reader/simple.rs 2202–2212: Closure with a `StringValueReader` -/
inductive StrC (V : Type) where
  | ret (r : Except SErr V)
  | read (len : Nat) (k : Except SErr Bytes → StrC V)
/-- Model only, user of reader/simple.rs 1783–1900: Closure with an `ArrayReader` -/
inductive ArrC (V : Type) where
  | ret (r : Except SErr V)
  | hasNext (k : Except SErr Bool → ArrC V)
  | peek (k : Except SErr ValueType → ArrC V)
  | op (o : ValOp V) (k : Except SErr (Got V) → ArrC V)
/-- Model only, user of reader/simple.rs 1908–2015: Closure with a `SingleValueReader`, which is consumed by the methods which read a value -/
inductive ValC (V : Type) where
  | ret (r : Except SErr V)
  | peek (k : Except SErr ValueType → ValC V)
  | op (o : ValOp V) (k : Except SErr (Got V) → Except SErr V)
/-- Model only, user of reader/simple.rs 2022–2195: Closure with a `MemberReader`, which is consumed by the methods which read a value -/
inductive MemC (V : Type) where
  | ret (r : Except SErr V)
  | readName (k : Except SErr Text → MemC V)
  | peek (k : Except SErr ValueType → MemC V)
  | op (o : ValOp V) (k : Except SErr (Got V) → Except SErr V)
end

/-- Model only, user of reader/simple.rs 1547–1775: Usage of a `SimpleJsonReader`, which is consumed by the methods which read a value -/
inductive TopC (V : Type) where
  | ret (r : Except SErr V)
  | seekTo (path : List PathPiece) (k : Except SErr Unit → TopC V)
  | peek (k : Except SErr ValueType → TopC V)
  | op (o : ValOp V) (k : Except SErr (Got V) → Except SErr V)

/-! ## `ErrorSafeJsonReader` -/

/-- reader/simple.rs 1332–1335. Code which uses an `ErrorSafeJsonReader`; the state is its field `error` -/
abbrev X (V : Type) := CT (SCall V) (SRes V) SErr (Option Stored)

variable {V : Type}

/-- simple.rs 1282–1322: `use_delegate!`; `f` is the result of the call -/
def useDelegate {α : Type} (c : SCall V) (f : SRes V c → Except SErr α) : X V α := do
  match ← CT.get with
  | some e => CT.fail (.stored e)
  | none => do
    match f (← CT.call c) with
    | .ok a => pure a
    | .error e => do
      CT.modify fun _ => some (toStore e)
      CT.fail e

/-- Model only. Results of the methods; the other cases are excluded by the types of the methods of `JsonReader` -/
def outUnit : Except RErr Out → Except SErr Unit
  | .ok _ => .ok ()
  | .error e => .error (.reader e)
/-- Model only: as `outUnit` -/
def outBool : Except RErr Out → Except SErr Bool
  | .ok (.bool b) => .ok b
  | .ok _ => .error (.reader .outOfFuel)
  | .error e => .error (.reader e)
/-- Model only: as `outUnit` -/
def outText : Except RErr Out → Except SErr Text
  | .ok (.text t) => .ok t
  | .ok _ => .error (.reader .outOfFuel)
  | .error e => .error (.reader e)
/-- Model only: as `outUnit` -/
def outType : Except RErr Out → Except SErr ValueType
  | .ok (.type t) => .ok t
  | .ok _ => .error (.reader .outOfFuel)
  | .error e => .error (.reader e)

/-- simple.rs 1337–1478: methods of `ErrorSafeJsonReader` -/
def unitCall (op : Op) : X V Unit := useDelegate (.op op) outUnit
/-- reader/simple.rs 1358 and 1403: methods which return a `bool` -/
def boolCall (op : Op) : X V Bool := useDelegate (.op op) outBool
/-- reader/simple.rs 1362–1376 and 1391–1401: methods which return a string -/
def textCall (op : Op) : X V Text := useDelegate (.op op) outText
/-- reader/simple.rs 1338: `peek` -/
def peek : X V ValueType := useDelegate (.op .peek) outType
/-- reader/simple.rs 1379–1389: `next_string_reader` -/
def nextStringReader : X V Unit := useDelegate .stringStart (Except.mapError .reader)
/-- reader/simple.rs 1412–1431: `deserialize_next` -/
def deserializeNext (d : De V) : X V V := useDelegate (.deserialize d) (Except.mapError .de)

/-- simple.rs 1458–1461: `current_position`, which is also called if there is an error -/
def currentPosition (includePath : Bool) : X V (Option Position) := do
  let r : Except RErr Out ← CT.call (SCall.op (.currentPosition includePath))
  match r with
  | .ok (.position p) => pure (some p)
  | _ => pure none

/-- simple.rs 1471–1477: `consume_trailing_whitespace`, which consumes `self` and therefore does not store the error -/
def consumeTrailingWhitespace : X V Unit := do
  match ← CT.get with
  | some e => CT.fail (.stored e)
  | none => do
    match outUnit (← CT.call (.op .consumeTrailingWhitespace)) with
    | .ok () => pure ()
    | .error e => CT.fail e

/-- simple.rs 1486–1517: `read` of `ErrorSafeStringValueReader`; its `error` is the one of the `ErrorSafeJsonReader` -/
def stringRead (len : Nat) : X V Bytes := do
  match ← CT.get with
  | some (.io e) => CT.fail (.stored (.io e))
  | some (.clone (.io e loc)) => CT.fail (.stored (.clone (.io e loc)))
  | some _ => CT.panic .unexpectedErrorType
  | none => do
    let r : Except RErr Bytes ← CT.call (SCall.stringRead len)
    match r with
    | .ok bs => pure bs
    | .error e => do
      CT.modify fun _ => some (toStore (.string e))
      CT.fail (.string e)

/-! ## Strings -/

/-- closure with a `StringValueReader`, simple.rs 2202–2212 -/
def strC : StrC V → X V V
  | .ret r => CT.ofExcept r
  | .read len k => do
    let r ← CT.attempt (stringRead len)
    strC (k r)

/-- simple.rs 946–948: the loop at the end of `read_string_with_reader` -/
def skipString (fuel : Nat) : X V Unit := do
  let bs ← stringRead 512
  if bs.length > 0 then
    match fuel with
    | 0 => CT.panic .outOfFuel
    | fuel + 1 => skipString fuel
  else pure ()

/-- simple.rs 924–952: `read_string_with_reader` -/
def readStringWithReader (fuel : Nat) (f : StrC V) : X V V := do
  nextStringReader
  let result ← strC f
  match ← CT.get with
  | some e => CT.fail (.stored e)
  | none => do
    let bs ← stringRead Utf8.maxBytesPerChar
    if bs.length > 0 then skipString fuel else pure ()
    pure result

/-! ## Arrays and objects -/

/-- simple.rs 2053–2059: `check_skip_name` of `MemberReader` -/
def checkSkipName (consumedName : Bool) : X V Unit :=
  if !consumedName then unitCall .skipName else pure ()

/-- simple.rs 955–971: `read_value`; the result of the closure includes `consumed_value` -/
def readValue (f : X V (V × Bool)) : X V V := do
  let (result, consumedValue) ← f
  if !consumedValue then unitCall .skipValue else pure ()
  pure result

/-- simple.rs 672–674: the loop of `read_array_items`; also 1180–1182 -/
def itemsLoop (f : V → X V (V × Bool)) (fuel : Nat) (v : V) : X V V := do
  if ← boolCall .hasNext then
    match fuel with
    | 0 => CT.panic .outOfFuel
    | fuel + 1 => do
      let v ← readValue (f v)
      itemsLoop f fuel v
  else pure v

/-- simple.rs 881–897: the loop of `read_object_borrowed_names`; the result of the closure includes `consumed_name` and `consumed_value` -/
def borrowedLoop (f : V → X V (V × Bool × Bool)) (fuel : Nat) (v : V) : X V V := do
  if ← boolCall .hasNext then
    match fuel with
    | 0 => CT.panic .outOfFuel
    | fuel + 1 => do
      let (v, consumedName, consumedValue) ← f v
      if !consumedName then unitCall .skipName else pure ()
      if !consumedValue then unitCall .skipValue else pure ()
      borrowedLoop f fuel v
  else pure v

/-- simple.rs 907–919: the loop of `read_object_owned_names` -/
def ownedLoop (f : V → Text → X V (V × Bool)) (fuel : Nat) (v : V) : X V V := do
  if ← boolCall .hasNext then
    match fuel with
    | 0 => CT.panic .outOfFuel
    | fuel + 1 => do
      let name ← textCall .nextNameOwned
      let (v, consumedValue) ← f v name
      if !consumedValue then unitCall .skipValue else pure ()
      ownedLoop f fuel v
  else pure v

/-! ## Multi path -/

/-- simple.rs 995–1000: `PartialPath` -/
inductive PartialPath where
  | jsonPath (path : List PathPiece)
  | allArrayItems (allowEmpty : Bool)
  | optionalObjectMember (name : Text)
  | allObjectMembers (allowEmpty : Bool)
deriving Repr, DecidableEq

/-- reader/simple.rs 1004–1047: `if let Some(current_section) = current_section.take() { converted_path.push(PartialPath::JsonPath(current_section)); }` -/
def pushSection (converted : List PartialPath) : Option (List PathPiece) → List PartialPath
  | some section_ => converted ++ [.jsonPath section_]
  | none => converted

/-- simple.rs 1008–1046: the loop of `convert_path` -/
def convertLoop (converted : List PartialPath) (currentSection : Option (List PathPiece)) : List MultiPiece → List PartialPath
  | [] => pushSection converted currentSection
  | .arrayItem index :: ps => convertLoop converted (some (currentSection.getD [] ++ [.arrayItem index])) ps
  | .objectMember name :: ps => convertLoop converted (some (currentSection.getD [] ++ [.objectMember name])) ps
  | .allArrayItems allowEmpty :: ps => convertLoop (pushSection converted currentSection ++ [.allArrayItems allowEmpty]) none ps
  | .optionalObjectMember name :: ps => convertLoop (pushSection converted currentSection ++ [.optionalObjectMember name]) none ps
  | .allObjectMembers allowEmpty :: ps => convertLoop (pushSection converted currentSection ++ [.allObjectMembers allowEmpty]) none ps

/-- simple.rs 1004–1047: `convert_path` -/
def convertPath (path : List MultiPiece) : List PartialPath := convertLoop [] none path

/-- simple.rs 1109–1118: search for the member; the result is `found_member` -/
def findMember (name : Text) (fuel : Nat) : X V Bool := do
  if ← boolCall .hasNext then
    match fuel with
    | 0 => CT.panic .outOfFuel
    | fuel + 1 => do
      let memberName ← textCall .nextName
      if memberName = name then pure true
      else do
        unitCall .skipValue
        findMember name fuel
  else pure false

/-- simple.rs 1127–1130: skip the remaining members -/
def skipMembers (fuel : Nat) : X V Unit := do
  if ← boolCall .hasNext then
    match fuel with
    | 0 => CT.panic .outOfFuel
    | fuel + 1 => do
      unitCall .skipName
      unitCall .skipValue
      skipMembers fuel
  else pure ()

/-- simple.rs 1187–1190: read the remaining members -/
def membersLoop (f : V → X V (V × Bool)) (fuel : Nat) (v : V) : X V V := do
  if ← boolCall .hasNext then
    match fuel with
    | 0 => CT.panic .outOfFuel
    | fuel + 1 => do
      unitCall .skipName
      let v ← readValue (f v)
      membersLoop f fuel v
  else pure v

/-- simple.rs 1083–1093 and 1142–1152: an array or object which must not be empty; `op` is called to get the error -/
def checkNotEmpty {α : Type} (allowEmpty : Bool) (op : X V α) : X V Unit :=
  if !allowEmpty then do
    if !(← boolCall .hasNext) then do
      match ← CT.attempt op with
      | .ok _ => CT.panic .expectErr
      | .error e => CT.fail e
    else pure ()
  else pure ()

/-- simple.rs 1065–1165: the `match` in the main loop; the result are the new values of `path_index` and `is_moving_down` -/
def multiPiece (fuel : Nat) (index : Nat) (down : Bool) : PartialPath → X V (Nat × Bool)
  | .jsonPath path =>
    if down then do
      unitCall (.seekTo path)
      pure (index + 1, true)
    else do
      unitCall (.seekBack path)
      pure (index, false)
  | .allArrayItems allowEmpty => do
    if down then do
      unitCall .beginArray
      checkNotEmpty allowEmpty peek
    else pure ()
    if ← boolCall .hasNext then pure (index + 1, true)
    else do
      unitCall .endArray
      pure (index, false)
  | .optionalObjectMember name =>
    if down then do
      unitCall .beginObject
      if ← findMember name fuel then pure (index + 1, true)
      else do
        unitCall .endObject
        pure (index, false)
    else do
      skipMembers fuel
      unitCall .endObject
      pure (index, false)
  | .allObjectMembers allowEmpty => do
    if down then do
      unitCall .beginObject
      checkNotEmpty allowEmpty (unitCall .skipName)
    else pure ()
    if ← boolCall .hasNext then do
      unitCall .skipName
      pure (index + 1, true)
    else do
      unitCall .endObject
      pure (index, false)

/-- simple.rs 1171–1193: the desired value was found -/
def multiMatch (fuel : Nat) (path : List PartialPath) (f : V → X V (V × Bool)) (index : Nat) (v : V) : X V V := do
  let v ← readValue (f v)
  match path[index - 1]? with
  | none => CT.panic .index
  | some (.jsonPath _) => pure v
  | some (.optionalObjectMember _) => pure v
  | some (.allArrayItems _) => itemsLoop f fuel v
  | some (.allObjectMembers _) => membersLoop f fuel v

/-- simple.rs 1064–1207: the main loop; the result includes `has_match` -/
def multiLoop (fuel : Nat) (path : List PartialPath) (f : V → X V (V × Bool)) (n : Nat) (index : Nat) (down hasMatch : Bool) (v : V) : X V (V × Bool) := do
  match path[index]? with
  | none => CT.panic .index
  | some piece => do
    let (index, down) ← multiPiece fuel index down piece
    match n with
    | 0 => CT.panic .outOfFuel
    | n + 1 => do
      let (down, hasMatch, v) ← if down && index ≥ path.length then do
          let v ← multiMatch fuel path f index v
          pure (false, true, v)
        else pure (down, hasMatch, v)
      if !down && index = 0 then pure (v, hasMatch)
      else multiLoop fuel path f n (if down then index else index - 1) down hasMatch v

/-- simple.rs 1232–1237 -/
def storeNoMatch (loc : Option Position) : X V Unit := CT.modify fun
  | some e => some e
  | none => some (.dummy loc)

/-- simple.rs 984–1246: `read_seeked_multi` -/
def readSeekedMulti (fuel : Nat) (originalPath : List MultiPiece) (atLeastOne : Bool) (f : V → X V (V × Bool)) (v : V) : X V V :=
  if originalPath.isEmpty then readValue (f v)
  else do
    let originalLocation ← if atLeastOne then currentPosition true else pure none
    let (v, hasMatch) ← multiLoop fuel (convertPath originalPath) f fuel 0 true false v
    if atLeastOne && !hasMatch then do
      storeNoMatch originalLocation
      CT.fail (.noMatch originalLocation)
    else pure v

/-! ## The API -/

mutual
/-- Methods of `ArrayReader`, simple.rs 1812–1899, which are the same for `SingleValueReader` (1912–2013) and `MemberReader` (2063–2184), except for `consumed_name` and
`consumed_value`. `read_array`: 865–874, `read_array_items`: 664–677, `read_object_borrowed_names`: 876–900, `read_object_owned_names`: 902–922, `read_seeked`: 973–982. -/
def value (fuel : Nat) : ValOp V → X V (Got V)
  | .null => do
    unitCall .nextNull
    pure .unit
  | .bool => do
    let b ← boolCall .nextBool
    pure (.bool b)
  | .str f => do
    let t ← textCall .nextStr
    let v ← CT.ofExcept (f t)
    pure (.val v)
  | .string => do
    let t ← textCall .nextString
    pure (.text t)
  | .stringReader f => do
    let v ← readStringWithReader fuel f
    pure (.val v)
  | .number => do
    let t ← textCall .nextNumberAsStr
    pure (.text t)
  | .numberString => do
    let t ← textCall .nextNumberAsString
    pure (.text t)
  | .deserialize d => do
    let v ← deserializeNext d
    pure (.val v)
  | .skip => do
    unitCall .skipValue
    pure .unit
  | .array f => do
    unitCall .beginArray
    let v ← arrC fuel f
    unitCall .endArray
    pure (.val v)
  | .arrayItems init f => do
    unitCall .beginArray
    let v ← itemsLoop (fun v => valC fuel (f v)) fuel init
    unitCall .endArray
    pure (.val v)
  | .objectBorrowed init f => do
    unitCall .beginObject
    let v ← borrowedLoop (fun v => memC fuel false (f v)) fuel init
    unitCall .endObject
    pure (.val v)
  | .objectOwned init f => do
    unitCall .beginObject
    let v ← ownedLoop (fun v name => valC fuel (f v name)) fuel init
    unitCall .endObject
    pure (.val v)
  | .seeked path f => do
    unitCall (.seekTo path)
    let v ← readValue (valC fuel f)
    unitCall (.seekBack path)
    pure (.val v)
  | .seekedMulti path atLeastOne init f => do
    let v ← readSeekedMulti fuel path atLeastOne (fun v => valC fuel (f v)) init
    pure (.val v)
/-- closure with an `ArrayReader`, simple.rs 1783–1899 -/
def arrC (fuel : Nat) : ArrC V → X V V
  | .ret r => CT.ofExcept r
  | .hasNext k => do
    let r ← CT.attempt (boolCall .hasNext)
    arrC fuel (k r)
  | .peek k => do
    let r ← CT.attempt peek
    arrC fuel (k r)
  | .op o k => do
    let r ← CT.attempt (value fuel o)
    arrC fuel (k r)
/-- closure with a `SingleValueReader`, simple.rs 1908–2013; the result includes `consumed_value` -/
def valC (fuel : Nat) : ValC V → X V (V × Bool)
  | .ret r => do
    let v ← CT.ofExcept r
    pure (v, false)
  | .peek k => do
    let r ← CT.attempt peek
    valC fuel (k r)
  | .op o k => do
    let r ← CT.attempt (value fuel o)
    let v ← CT.ofExcept (k r)
    pure (v, true)
/-- closure with a `MemberReader`, simple.rs 2022–2184; the result includes `consumed_name` and `consumed_value` -/
def memC (fuel : Nat) (consumedName : Bool) : MemC V → X V (V × Bool × Bool)
  | .ret r => do
    let v ← CT.ofExcept r
    pure (v, consumedName, false)
  | .readName k =>
    if consumedName then CT.panic .nameConsumed
    else do
      let r ← CT.attempt (textCall .nextName)
      memC fuel true (k r)
  | .peek k => do
    let r ← CT.attempt (do
      checkSkipName consumedName
      peek)
    memC fuel true (k r)
  | .op o k => do
    match ← CT.attempt (checkSkipName consumedName) with
    | .error e => do
      let v ← CT.ofExcept (k (.error e))
      pure (v, true, false)
    | .ok () => do
      let r ← CT.attempt (value fuel o)
      let v ← CT.ofExcept (k r)
      pure (v, true, true)
end

/-- simple.rs 1642–1649: `finish` of `SimpleJsonReader` -/
def finish (hasSeeked : Bool) : X V Unit := do
  if hasSeeked then unitCall .skipToTopLevel else pure ()
  consumeTrailingWhitespace

/-- simple.rs 1669–1776: a method of `SimpleJsonReader` which reads a value -/
def readTop (fuel : Nat) (hasSeeked : Bool) (o : ValOp V) : X V (Got V) := do
  let g ← value fuel o
  finish hasSeeked
  pure g

/-- reader/simple.rs 1547–1775. Usage of a `SimpleJsonReader`: `seek_to` 1637–1640, `peek_value` 1665–1667 -/
def topC (fuel : Nat) (hasSeeked : Bool) : TopC V → X V V
  | .ret r => CT.ofExcept r
  | .seekTo path k => do
    let r ← CT.attempt (unitCall (.seekTo path))
    topC fuel true (k r)
  | .peek k => do
    let r ← CT.attempt peek
    topC fuel hasSeeked (k r)
  | .op o k => do
    let r ← CT.attempt (readTop fuel hasSeeked o)
    CT.ofExcept (k r)

/-- A new `SimpleJsonReader` (simple.rs 1583–1591: `from_json_reader`) and its usage -/
def run (fuel : Nat) (c : TopC V) : Calls (SCall V) (SRes V) (Except SErr V) := ((topC fuel false c).run none).bind fun (r, _) => .ret r

/-! ## Execution with a `JsonStreamReader` -/

section
variable {σ : Type} [ByteSource σ]

/-- Model only. The reader, and the string value reader which has been created last -/
structure Rd (σ : Type) where
  rd : RState σ
  sr : StrReader

/-- see `JsonReaderPosition::unknown_position`, reader/mod.rs 358–364 -/
def unknownPosition : Position := ⟨none, 0, 0, 0⟩

/-- Model only: result of a call, with the string value reader -/
def withReader {α : Type} (sr : StrReader) : Outcome (Option (RState σ)) α → Outcome (Option (Rd σ)) α
  | .ret r s => .ret r (s.map fun rd => ⟨rd, sr⟩)
  | .panic p => .panic p
  | .unspecified => .unspecified

/-- Model only. The methods of a `JsonStreamReader`. The state is `none` when the reader must not be used any further (see `Reader.handle`); then only `current_position` may be
called (simplification: its result is then the unknown position). -/
def perform : (c : SCall V) → Option (Rd σ) → Outcome (Option (Rd σ)) (SRes V c)
  | .op (.currentPosition _), none => .ret (.ok (.position unknownPosition)) none
  | _, none => .unspecified
  | .op op, some s => withReader s.sr (Reader.handle op (some s.rd))
  | .stringStart, some s => match Reader.nextStringReader.run s.rd with
    | .ok sr rd => .ret (.ok ()) (some ⟨rd, sr⟩)
    | .err (.panic p) _ => .panic (.reader p)
    | .err e rd => .ret (.error e) (if e.fatal then none else some ⟨rd, s.sr⟩)
  | .stringRead len, some s => match (strRead len s.sr).run s.rd with
    | .ok (sr, .ok bytes) rd => .ret (.ok bytes) (some ⟨rd, sr⟩)
    | .ok (_, .err e) _ => .ret (.error e) none
    | .ok (_, .previous e) _ => .ret (.error e) none
    | .err (.panic p) _ => .panic (.reader p)
    | .err e _ => .ret (.error e) none
  | .deserialize d, some s => withReader s.sr ((De.deserializeNext d).run Reader.handle (some s.rd))

end

/-- reader/simple.rs 1583. The API with a new `JsonStreamReader` -/
def execSimple (N : Nat) (st : Settings) (sched : List ReadEvent) (fuel : Nat) (c : TopC V) : Outcome Unit (Except SErr V) :=
  ((run fuel c).run perform (some (⟨new (BufSrc.new N sched) st, StrReader.new⟩ : Rd (BufSrc N)))).forget

end Verif.SimpleReader
