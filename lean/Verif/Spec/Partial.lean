import Verif.Spec.Json
import Verif.Spec.Usage
/-!
# Specification: partially consumed documents

`Ctx` describes the beginning of a document up to some point between two tokens: the open arrays and objects with their complete elements. From
it follow the bytes in front of the point, the JSON path of the point and the usage mode.
-/

namespace Verif.Abs
open Reader Json

/-- consumed object member -/
structure Mem where
  sep : Sep
  name : Str
  w1 : Ws
  w2 : Ws
  v : Cst

/-- bytes in front of a token -/
inductive Lead where
  | ws (w : Ws)
  | sep (s : Sep)
  | colon (w1 w2 : Ws)

def Lead.bytes : Lead → Bytes
  | .ws w => w.bytes
  | .sep s => s.bytes
  | .colon w1 w2 => w1.bytes ++ 0x3A :: w2.bytes

/-- consumed part of a document; `arr up lead done`: an array whose bracket is preceded by `lead`, in the context `up`; `val`: behind a member name -/
inductive Ctx where
  | top (done : List (Ws × Cst))
  | arr (up : Ctx) (lead : Lead) (done : List (Sep × Cst))
  | obj (up : Ctx) (lead : Lead) (done : List Mem)
  | val (up : Ctx) (lead : Lead) (done : List Mem) (sep : Sep) (name : Str)

def topBytes (x : Ws × Cst) : Bytes := x.1.bytes ++ x.2.bytes
def itemBytes (x : Sep × Cst) : Bytes := x.1.bytes ++ x.2.bytes
def Mem.bytes (m : Mem) : Bytes := m.sep.bytes ++ (m.name.bytes ++ (m.w1.bytes ++ (0x3A :: (m.w2.bytes ++ m.v.bytes))))

def Ctx.bytes : Ctx → Bytes
  | .top done => done.flatMap topBytes
  | .arr up lead done => up.bytes ++ (lead.bytes ++ 0x5B :: done.flatMap itemBytes)
  | .obj up lead done => up.bytes ++ (lead.bytes ++ 0x7B :: done.flatMap Mem.bytes)
  | .val up lead done sep name => up.bytes ++ (lead.bytes ++ 0x7B :: (done.flatMap Mem.bytes ++ (sep.bytes ++ name.bytes)))

def lastName (done : List Mem) : Text := (done.getLast?.map (·.name.text)).getD pathPlaceholder

/-- path, innermost piece first -/
def Ctx.path : Ctx → List PathPiece
  | .top _ => []
  | .arr up _ done => .arrayItem done.length :: up.path
  | .obj up _ done => .objectMember (lastName done) :: up.path
  | .val up _ _ _ name => .objectMember name.text :: up.path

/-- add a value -/
def Ctx.add : Ctx → Lead → Cst → Ctx
  | .top done, .ws w, v => .top (done ++ [(w, v)])
  | .arr up l done, .sep s, v => .arr up l (done ++ [(s, v)])
  | .val up l done s n, .colon w1 w2, v => .obj up l (done ++ [⟨s, n, w1, w2, v⟩])
  | c, _, _ => c

/-- open arrays and objects -/
def Ctx.frames : Ctx → List Usage.Frame
  | .top _ => []
  | .arr up _ _ => .array :: up.frames
  | .obj up _ _ => .objectName :: up.frames
  | .val up _ _ _ _ => .objectValue :: up.frames

/-- nesting depth of the deepest of some values -/
def maxDepth : List Cst → Nat
  | [] => 0
  | v :: vs => max v.depth (maxDepth vs)

/-- nesting depth of the consumed part: the largest number of arrays and objects which were open at the same time -/
def Ctx.depth : Ctx → Nat
  | .top done => maxDepth (done.map (·.2))
  | .arr up _ done => max up.depth (up.frames.length + 1 + maxDepth (done.map (·.2)))
  | .obj up _ done => max up.depth (up.frames.length + 1 + maxDepth (done.map (·.v)))
  | .val up _ done _ _ => max up.depth (up.frames.length + 1 + maxDepth (done.map (·.v)))

/-- the completely consumed top-level values -/
def Ctx.root : Ctx → List (Ws × Cst)
  | .top done => done
  | .arr up _ _ => up.root
  | .obj up _ _ => up.root
  | .val up _ _ _ _ => up.root

/-- mode of the specification of the usage rules -/
def Ctx.mode (c : Ctx) : Usage.Mode := ⟨c.frames, !c.root.isEmpty, false⟩

def cfgOf (st : Settings) : Cfg := ⟨st.allowComments, st.allowTrailingComma⟩

/-- the token starts a value -/
def isValue : Peeked → Bool
  | .null | .booleanTrue | .booleanFalse | .numberStart | .stringStart | .arrayStart | .objectStart => true
  | _ => false

/-- the last value is a number or literal -/
def bareLast (done : List (Ws × Cst)) : Bool := match done.getLast? with
  | some (_, v) => v.isBare
  | none => false

/-- allowed bytes in front of the token -/
def Ctx.LeadFor (st : Settings) : Ctx → Peeked → Lead → Prop
  | .top done, p, .ws w => isValue p = true ∧ w.Ok st.allowComments ∧ (done = [] ∨ st.allowMultipleTopLevel = true) ∧ (bareLast done = true → w ≠ [])
  | .arr _ _ done, p, .sep s => (p = .arrayEnd ∧ s.OkEnd (cfgOf st) done.isEmpty) ∨ (isValue p = true ∧ s.Ok (cfgOf st) done.isEmpty)
  | .obj _ _ done, p, .sep s => (p = .objectEnd ∧ s.OkEnd (cfgOf st) done.isEmpty) ∨ (p = .nameStart ∧ s.Ok (cfgOf st) done.isEmpty)
  | .val _ _ _ _ _, p, .colon w1 w2 => isValue p = true ∧ w1.Ok st.allowComments ∧ w2.Ok st.allowComments
  | _, _, _ => False

def ItemsOk (cfg : Cfg) : Bool → List (Sep × Cst) → Prop
  | _, [] => True
  | first, x :: xs => x.1.Ok cfg first ∧ x.2.Ok cfg ∧ ItemsOk cfg false xs

def Mem.Ok (cfg : Cfg) (first : Bool) (m : Mem) : Prop :=
  m.sep.Ok cfg first ∧ m.name.Ok ∧ m.w1.Ok cfg.comments ∧ m.w2.Ok cfg.comments ∧ m.v.Ok cfg

def MemsOk (cfg : Cfg) : Bool → List Mem → Prop
  | _, [] => True
  | first, x :: xs => x.Ok cfg first ∧ MemsOk cfg false xs

def TopsOk (cfg : Cfg) : Bool → List (Ws × Cst) → Prop
  | _, [] => True
  | bare, x :: xs => x.1.Ok cfg.comments ∧ (bare = true → x.1 ≠ []) ∧ x.2.Ok cfg ∧ TopsOk cfg x.2.isBare xs

def Ctx.Ok (st : Settings) : Ctx → Prop
  | .top done => TopsOk (cfgOf st) false done ∧ (done.length ≤ 1 ∨ st.allowMultipleTopLevel = true)
  | .arr up l done => up.Ok st ∧ up.LeadFor st .arrayStart l ∧ ItemsOk (cfgOf st) true done
  | .obj up l done => up.Ok st ∧ up.LeadFor st .objectStart l ∧ MemsOk (cfgOf st) true done
  | .val up l done sep name => up.Ok st ∧ up.LeadFor st .objectStart l ∧ MemsOk (cfgOf st) true done ∧ sep.Ok (cfgOf st) done.isEmpty ∧ name.Ok

end Verif.Abs
