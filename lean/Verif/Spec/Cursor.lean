import Verif.Model.Run
import Verif.Spec.Json
/-!
# Specification: a cursor in a sequence of JSON values

What a reader has to do, described on the level of JSON values: a cursor is a place in a sequence of top-level values, and each call has a result and
moves the cursor. Bytes, whitespace, buffers and positions (lines, columns) do not occur here; the only connection to the input is that it is a
document which denotes the values. Calls which are not allowed by the documentation of `JsonReader` (reader/mod.rs 586–1680) are not specified here
(`Step.misuse`).
-/

namespace Verif.Cursor
open Reader Json

/-! ## JSON values -/

def typeOf : JVal → ValueType
  | .null => .null
  | .bool _ => .boolean
  | .num _ => .number
  | .str _ => .string
  | .arr _ => .array
  | .obj _ => .object

mutual
/-- nesting depth -/
def depth : JVal → Nat
  | .arr vs => depthItems vs + 1
  | .obj ms => depthMembers ms + 1
  | .null => 0
  | .bool _ => 0
  | .num _ => 0
  | .str _ => 0
def depthItems : List JVal → Nat
  | [] => 0
  | v :: vs => max (depth v) (depthItems vs)
def depthMembers : List (Text × JVal) → Nat
  | [] => 0
  | (_, v) :: ms => max (depth v) (depthMembers ms)
end

mutual
/-- the texts of all numbers -/
def numbers : JVal → List Text
  | .num t => [t]
  | .arr vs => numbersItems vs
  | .obj ms => numbersMembers ms
  | .null => []
  | .bool _ => []
  | .str _ => []
def numbersItems : List JVal → List Text
  | [] => []
  | v :: vs => numbers v ++ numbersItems vs
def numbersMembers : List (Text × JVal) → List Text
  | [] => []
  | (_, v) :: ms => numbers v ++ numbersMembers ms
end

def dropSign : Text → Text
  | [] => []
  | c :: cs => if c == '+' || c == '-' then cs else c :: cs

/-- The number is rejected by the number restriction: more than 100 characters, or, after the `e` or `E`, ignoring sign and leading zeros, more than two
digits -/
def unsupportedNumber (t : Text) : Bool :=
  let exponent := (t.dropWhile fun c => c != 'e' && c != 'E').tail
  t.length > 100 || ((dropSign exponent).dropWhile (· == '0')).length > 2

/-- consecutive pieces of the given sizes, the last ones may be shorter or empty -/
def chunks : List Nat → Bytes → List Bytes
  | [], _ => []
  | len :: lens, bs => bs.take len :: chunks lens (bs.drop len)

/-! ## Cursor -/

/-- An open array or object. `array index rest`: `index` items have been consumed, `rest` are the other ones. `names last rest`: in front of a name or
the end of the object, `last` is the previous name. `value name v rest`: behind the name of a member with value `v`. -/
inductive Frame where
  | array (index : Nat) (rest : List JVal)
  | names (last : Text) (rest : List (Text × JVal))
  | value (name : Text) (v : JVal) (rest : List (Text × JVal))

def Frame.piece : Frame → PathPiece
  | .array index _ => .arrayItem index
  | .names last _ => .objectMember last
  | .value name _ _ => .objectMember name

/-- `frames`: open arrays and objects, innermost first. An open array or object which is not the innermost one still has the element which contains the
inner one as its next element. `started`: a top-level value has been consumed. `tops`: the top-level values which have not been consumed completely.
`str`: a string reader is active. -/
structure Cur where
  frames : List Frame
  started : Bool
  tops : List JVal
  str : Bool

/-- In front of the first value -/
def Cur.init (vs : List JVal) : Cur := ⟨[], false, vs, false⟩

namespace Cur

/-- The next value -/
def next (c : Cur) : Option JVal := match c.frames with
  | [] => c.tops.head?
  | .array _ rest :: _ => rest.head?
  | .names _ _ :: _ => none
  | .value _ v _ :: _ => some v

/-- Behind the next value -/
def advance (c : Cur) : Cur := match c.frames with
  | [] => { c with tops := c.tops.tail, started := true }
  | .array i rest :: fs => { c with frames := .array (i + 1) rest.tail :: fs }
  | .names _ _ :: _ => c
  | .value n _ rest :: fs => { c with frames := .names n rest :: fs }

/-- Inside the next value -/
def push (c : Cur) (f : Frame) : Cur := { c with frames := f :: c.frames }

/-- Behind the innermost array or object -/
def pop (c : Cur) : Cur := advance { c with frames := c.frames.tail }

/-- Is an array or object with nesting depth `d` too deep here? -/
def tooDeep (max : Option Nat) (c : Cur) (d : Nat) : Option Nat := match max with
  | none => none
  | some n => if n < c.frames.length + d then some n else none

def path (c : Cur) : List PathPiece := (c.frames.map Frame.piece).reverse

/-- A value may be read: not when a name is expected, not behind the top-level value unless multiple ones are enabled -/
def canValue (multi : Bool) (c : Cur) : Bool := !c.str && match c.frames with
  | [] => !c.started || multi
  | .names _ _ :: _ => false
  | _ => true

end Cur

/-- The frame is a place in the value -/
def Frame.In (v : JVal) : Frame → Prop
  | .array i rest => ∃ vs, v = .arr vs ∧ i ≤ vs.length ∧ rest = vs.drop i
  | .names last rest => ∃ done, v = .obj (done ++ rest) ∧ last = match done.getLast? with
    | some m => m.1
    | none => ['<', '?', '>']
  | .value name w rest => ∃ done, v = .obj (done ++ (name, w) :: rest)

/-- Each frame is a place in the next value of the frames around it -/
def FramesIn (tops : List JVal) : List Frame → Prop
  | [] => True
  | f :: fs => (∃ v, Cur.next ⟨fs, true, tops, false⟩ = some v ∧ f.In v) ∧ FramesIn tops fs

/-- The cursor is a place in the values -/
def Cur.In (vs : List JVal) (c : Cur) : Prop :=
  (∃ done, vs = done ++ c.tops ∧ c.started = !done.isEmpty) ∧ FramesIn c.tops c.frames

/-! ## Results -/

/-- Errors without their locations -/
inductive Kind where
  | syntax (kind : SyntaxKind)
  | type (expected actual : ValueType)
  | structure (kind : StructureKind)
  | depth (max : Nat)
  | number (t : Text)
  | other
deriving Repr, DecidableEq

/-- Returned values; of a position only the path -/
inductive Val where
  | unit
  | type (t : ValueType)
  | bool (b : Bool)
  | text (t : Text)
  | reads (rs : List Bytes)
  | path (p : Option (List PathPiece))
deriving Repr, DecidableEq

def kindOf : RErr → Kind
  | .syntax k _ => .syntax k
  | .unexpectedValueType e a _ => .type e a
  | .unexpectedStructure k _ => .structure k
  | .maxNestingDepthExceeded n _ => .depth n
  | .unsupportedNumberValue t _ => .number t
  | .io _ _ => .other
  | .panic _ => .other
  | .outOfFuel => .other

def valOf : Out → Val
  | .unit => .unit
  | .type t => .type t
  | .bool b => .bool b
  | .text t => .text t
  | .reads rs => .reads rs
  | .position p => .path p.path

/-- Result of a call, without positions -/
def view : Except RErr Out → Except Kind Val
  | .ok o => .ok (valOf o)
  | .error e => .error (kindOf e)

/-- What a call does: `ok`: a value is returned. `err`: an error is returned, and the cursor is still at a known place. `stop`: an error is returned,
afterwards nothing is specified. `misuse`: not specified. -/
inductive Step where
  | ok (v : Val) (c : Cur)
  | err (k : Kind) (c : Cur)
  | stop (k : Kind)
  | misuse

variable (st : Settings) (c : Cur)

/-- The next value is needed -/
def withValue (f : JVal → Step) : Step :=
  if !c.canValue st.allowMultipleTopLevel then .misuse
  else match c.next with
    | some v => f v
    | none => if c.frames.isEmpty && !c.started then .stop (.syntax .incompleteDocument) else .err (.structure .fewerElementsThanExpected) c

/-- The value has another type -/
def wrongType (expected : ValueType) (v : JVal) : Step := .err (.type expected (typeOf v)) c

/-- Begin an array or object -/
def beginStep (f : Frame) : Step := match c.tooDeep st.maxNestingDepth 1 with
  | some n => .err (.depth n) c
  | none => .ok .unit (c.push f)

/-- The values can be skipped at the cursor -/
def skippable (vs : List JVal) : Option Nat := c.tooDeep st.maxNestingDepth (depthItems vs)

/-- Skip the rest of the innermost array or object -/
def finish : Step := match c.frames with
  | [] => .misuse
  | .array _ rest :: _ => match skippable st c rest with
    | some n => .stop (.depth n)
    | none => .ok .unit c.pop
  | .names _ rest :: _ => match skippable st c (rest.map Prod.snd) with
    | some n => .stop (.depth n)
    | none => .ok .unit c.pop
  | .value _ _ _ :: _ => .misuse

/-- Skip the rest of `n` arrays and objects -/
def finishAll : Nat → Cur → Step
  | 0, c => .ok .unit c
  | n + 1, c => match finish st c with
    | .ok _ c' => finishAll n c'
    | s => s

/-- Find the first member with the name: the values in front of it, the value, and the members behind it -/
def splitMembers (name : Text) : List (Text × JVal) → List JVal × Option (JVal × List (Text × JVal))
  | [] => ([], none)
  | (n, v) :: ms => if n = name then ([], some (v, ms)) else (v :: (splitMembers name ms).1, (splitMembers name ms).2)

/-- Move into arrays and objects -/
def seek : List PathPiece → Cur → Step
  | [], c => .ok .unit c
  | .arrayItem i :: ps, c => withValue st c fun
    | .arr vs => match c.tooDeep st.maxNestingDepth 1, skippable st (c.push (.array 0 vs)) (vs.take i) with
      | some n, _ => .stop (.depth n)
      | none, some n => .stop (.depth n)
      | none, none => if i < vs.length then seek ps (c.push (.array i (vs.drop i))) else .stop (.structure (.tooShortArray i))
    | v => .stop (.type .array (typeOf v))
  | .objectMember name :: ps, c => withValue st c fun
    | .obj ms => match c.tooDeep st.maxNestingDepth 1, skippable st (c.push (.names name ms)) (splitMembers name ms).1 with
      | some n, _ => .stop (.depth n)
      | none, some n => .stop (.depth n)
      | none, none => match (splitMembers name ms).2 with
        | some (v, rest) => seek ps (c.push (.value name v rest))
        | none => .stop (.structure (.missingObjectMember name))
    | v => .stop (.type .object (typeOf v))

/-- Move back out of arrays and objects, innermost piece first -/
def back : List PathPiece → Cur → Step
  | [], c => .ok .unit c
  | p :: ps, c => match p, c.frames with
    | .arrayItem _, .array _ _ :: _ | .objectMember _, .names _ _ :: _ => match finish st c with
      | .ok _ c' => back ps c'
      | s => s
    | _, _ => .misuse

/-- Result of a call -/
def step : Op → Step
  | .peek => withValue st c fun v => .ok (.type (typeOf v)) c
  | .beginArray => withValue st c fun
    | .arr vs => beginStep st c (.array 0 vs)
    | v => wrongType c .array v
  | .beginObject => withValue st c fun
    | .obj ms => beginStep st c (.names ['<', '?', '>'] ms)
    | v => wrongType c .object v
  | .nextString | .nextStr => withValue st c fun
    | .str t => .ok (.text t) c.advance
    | v => wrongType c .string v
  | .stringReader lens => withValue st c fun
    | .str t => .ok (.reads (chunks lens (enc t))) (if (enc t).length < lens.sum then c.advance else { c with str := true })
    | v => wrongType c .string v
  | .nextNumberAsStr | .nextNumberAsString => withValue st c fun
    | .num t => if st.restrictNumberValues && unsupportedNumber t then .stop (.number t) else .ok (.text t) c.advance
    | v => wrongType c .number v
  | .nextBool => withValue st c fun
    | .bool b => .ok (.bool b) c.advance
    | v => wrongType c .boolean v
  | .nextNull => withValue st c fun
    | .null => .ok .unit c.advance
    | v => wrongType c .null v
  | .skipValue => withValue st c fun v => match c.tooDeep st.maxNestingDepth (depth v) with
    | some n => .stop (.depth n)
    | none => .ok .unit c.advance
  | .nextName | .nextNameOwned => if c.str then .misuse else match c.frames with
    | .names _ ((n, v) :: rest) :: fs => .ok (.text n) { c with frames := .value n v rest :: fs }
    | .names _ [] :: _ => .err (.structure .fewerElementsThanExpected) c
    | _ => .misuse
  | .skipName => if c.str then .misuse else match c.frames with
    | .names _ ((n, v) :: rest) :: fs => .ok .unit { c with frames := .value n v rest :: fs }
    | .names _ [] :: _ => .err (.structure .fewerElementsThanExpected) c
    | _ => .misuse
  | .endArray => if c.str then .misuse else match c.frames with
    | .array _ [] :: _ => .ok .unit c.pop
    | .array _ (_ :: _) :: _ => .err (.structure .moreElementsThanExpected) c
    | _ => .misuse
  | .endObject => if c.str then .misuse else match c.frames with
    | .names _ [] :: _ => .ok .unit c.pop
    | .names _ (_ :: _) :: _ => .err (.structure .moreElementsThanExpected) c
    | _ => .misuse
  | .hasNext => if c.str then .misuse else match c.frames with
    | [] => if c.started && st.allowMultipleTopLevel then .ok (.bool !c.tops.isEmpty) c else .misuse
    | .array _ rest :: _ => .ok (.bool !rest.isEmpty) c
    | .names _ rest :: _ => .ok (.bool !rest.isEmpty) c
    | .value _ _ _ :: _ => .misuse
  | .skipToTopLevel => if c.str then .misuse else match c.frames with
    | .value _ v _ :: _ => match c.tooDeep st.maxNestingDepth (depth v) with
      | some n => .stop (.depth n)
      | none => finishAll st c.frames.length c.advance
    | _ => finishAll st c.frames.length c
  | .seekTo path => withValue st c fun _ => seek st path c
  | .seekBack path => if c.str then .misuse else back st path.reverse c
  | .currentPosition includePath => .ok (.path (if includePath && st.trackPath then some c.path else none)) c
  | .consumeTrailingWhitespace => if !c.str && c.frames.isEmpty && c.started && c.tops.isEmpty then .ok .unit c else .misuse

/-- Results of a sequence of calls, up to the first one which is not specified -/
def run : List Op → Cur → List (Except Kind Val)
  | [], _ => []
  | op :: ops, c => match step st c op with
    | .ok v c' => .ok v :: if op = .consumeTrailingWhitespace then [] else run ops c'
    | .err k c' => .error k :: run ops c'
    | .stop k => [.error k]
    | .misuse => []

/-- The cursor after calls which are all specified -/
def reach : List Op → Cur → Option Cur
  | [], c => some c
  | op :: ops, c => match step st c op with
    | .ok _ c' => if op = .consumeTrailingWhitespace then none else reach ops c'
    | .err _ c' => reach ops c'
    | .stop _ => none
    | .misuse => none

/-- The value to which a path leads, or where the path leaves the value -/
def find : List PathPiece → JVal → Except Kind JVal
  | [], v => .ok v
  | .arrayItem i :: ps, .arr vs => match vs[i]? with
    | some v => find ps v
    | none => .error (.structure (.tooShortArray i))
  | .arrayItem _ :: _, v => .error (.type .array (typeOf v))
  | .objectMember name :: ps, .obj ms => match ms.find? fun m => m.1 = name with
    | some m => find ps m.2
    | none => .error (.structure (.missingObjectMember name))
  | .objectMember _ :: _, v => .error (.type .object (typeOf v))

end Verif.Cursor
