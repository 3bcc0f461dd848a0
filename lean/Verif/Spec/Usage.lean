import Verif.Model.Run
/-!
# Specification: documented usage rules of `JsonReader` (reader/mod.rs 586–1680)

The documentation of the `JsonReader` methods says when a method may be called ("# Panics" sections). Here these rules are an automaton: the
mode is computed from the calls so far and their results, and it determines which calls are allowed. The automaton knows nothing about the
JSON data except for what the results of the calls tell.
-/

namespace Verif.Usage
open Reader

/-- An open array or object: array; object where a name (or the end) is expected; object where the value of a member is expected -/
inductive Frame where
  | array
  | objectName
  | objectValue
deriving Repr, DecidableEq

/-- `frames`: open arrays and objects, innermost first. `started`: at least one top-level value has been consumed. `str`: a string value reader
has not been read to the end. -/
structure Mode where
  frames : List Frame
  started : Bool
  str : Bool
deriving Repr, DecidableEq

def Mode.init : Mode := ⟨[], false, false⟩

namespace Mode

/-- A value has been consumed -/
def valueDone (m : Mode) : Mode := match m.frames with
  | [] => { m with started := true }
  | .objectValue :: fs => { m with frames := .objectName :: fs }
  | _ => m

/-- The innermost array or object has been ended -/
def pop (m : Mode) : Mode := { m with frames := m.frames.tail }.valueDone

def push (m : Mode) (f : Frame) : Mode := { m with frames := f :: m.frames }

/-- A value may be read: not when a name is expected, not behind the top-level value unless multiple ones are enabled -/
def canValue (multi : Bool) (m : Mode) : Bool := !m.str && match m.frames with
  | [] => !m.started || multi
  | .objectName :: _ => false
  | _ => true

def canName (m : Mode) : Bool := !m.str && match m.frames with
  | .objectName :: _ => true
  | _ => false

def canEndArray (m : Mode) : Bool := !m.str && match m.frames with
  | .array :: _ => true
  | _ => false

def canHasNext (multi : Bool) (m : Mode) : Bool := !m.str && match m.frames with
  | [] => m.started && multi
  | .objectValue :: _ => false
  | _ => true

/-- The pieces of a reversed path are the open arrays and objects, and no member value is missing -/
def canSeekBack : List PathPiece → Mode → Bool
  | [], _ => true
  | .arrayItem _ :: ps, m => m.canEndArray && canSeekBack ps m.pop
  | .objectMember _ :: ps, m => m.canName && canSeekBack ps m.pop

/-- Is the call allowed? -/
def allowed (multi : Bool) (m : Mode) : Op → Bool
  | .peek | .beginArray | .beginObject | .nextString | .nextStr | .stringReader _ | .nextNumberAsStr | .nextNumberAsString
  | .nextBool | .nextNull | .skipValue | .seekTo _ => m.canValue multi
  | .nextName | .nextNameOwned | .skipName | .endObject => m.canName
  | .endArray => m.canEndArray
  | .hasNext => m.canHasNext multi
  | .skipToTopLevel => !m.str
  | .seekBack path => canSeekBack path.reverse m
  | .currentPosition _ => true
  | .consumeTrailingWhitespace => !m.str && m.frames.isEmpty && m.started

def pieceFrame : PathPiece → Frame
  | .arrayItem _ => .array
  | .objectMember _ => .objectValue

/-- A string value reader has been read to the end if it returned less than was requested -/
def strDone (lens : List Nat) : Out → Bool
  | .reads rs => rs.flatten.length < lens.sum
  | _ => false

/-- Mode after a successful call -/
def next (m : Mode) (o : Out) : Op → Mode
  | .peek | .hasNext | .currentPosition _ | .consumeTrailingWhitespace => m
  | .beginArray => m.push .array
  | .beginObject => m.push .objectName
  | .endArray | .endObject => m.pop
  | .nextName | .nextNameOwned | .skipName => { m with frames := .objectValue :: m.frames.tail }
  | .nextString | .nextStr | .nextNumberAsStr | .nextNumberAsString | .nextBool | .nextNull | .skipValue => m.valueDone
  | .stringReader lens => if strDone lens o then m.valueDone else { m with str := true }
  | .skipToTopLevel => if m.frames.isEmpty then m else { m with frames := [], started := true }
  | .seekTo path => { m with frames := path.reverse.map pieceFrame ++ m.frames }
  | .seekBack path => path.foldl (fun m _ => m.pop) m

/-- The methods which consist of several steps: after an error in the middle it is not specified where the reader is -/
def composite : Op → Bool
  | .skipValue | .skipToTopLevel | .seekTo _ | .seekBack _ => true
  | _ => false

/-- Mode after calls with the given results; `none` if there was a fatal error (see `RErr.fatal`), an error of a composite method, or the reader
was given up by `consume_trailing_whitespace` -/
def after : Mode → List Op → List (Except RErr Out) → Option Mode
  | m, [], [] => some m
  | m, op :: ops, .ok o :: rs => if op = .consumeTrailingWhitespace then none else after (m.next o op) ops rs
  | m, op :: ops, .error e :: rs => if e.fatal || composite op || op = .consumeTrailingWhitespace then none else after m ops rs
  | _, _, _ => none

/-- All calls are allowed -/
def abides (multi : Bool) : Mode → List Op → List (Except RErr Out) → Bool
  | m, op :: ops, .ok o :: rs => m.allowed multi op && (op = .consumeTrailingWhitespace || abides multi (m.next o op) ops rs)
  | m, op :: ops, .error e :: rs => m.allowed multi op && (e.fatal || op = .consumeTrailingWhitespace || if composite op then ops.isEmpty else abides multi m ops rs)
  | _, _, _ => true

end Mode
end Verif.Usage
