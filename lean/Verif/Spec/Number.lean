import Verif.Spec.Utf8
/-!
# Specification: the JSON number grammar (RFC 8259, section 6)

```
number = [ minus ] int [ frac ] [ exp ]
int    = zero / ( digit1-9 *DIGIT )
frac   = decimal-point 1*DIGIT
exp    = e [ minus / plus ] 1*DIGIT
```
-/

namespace Verif

/-- `DIGIT` -/
def isDigit (b : UInt8) : Bool := 0x30 ≤ b && b ≤ 0x39

/-- `1*DIGIT` -/
def Digits (bs : Bytes) : Prop := bs ≠ [] ∧ ∀ b ∈ bs, isDigit b = true

/-- The parts of a number. `frac` and the digits of `exp` do not include the leading `.` resp. `e` and sign. -/
structure NumParts where
  minus : Bool
  int : Bytes
  frac : Option Bytes
  exp : Option (UInt8 × Option UInt8 × Bytes)

namespace NumParts

/-- `int` -/
def ValidInt (bs : Bytes) : Prop := bs = [0x30] ∨ ∃ d ds, bs = d :: ds ∧ isDigit d = true ∧ d ≠ 0x30 ∧ ∀ b ∈ ds, isDigit b = true

/-- The grammar -/
structure Valid (p : NumParts) : Prop where
  int : ValidInt p.int
  frac : ∀ ds, p.frac = some ds → Digits ds
  exp : ∀ e sg ds, p.exp = some (e, sg, ds) →
    (e = 0x65 ∨ e = 0x45) ∧ (∀ c, sg = some c → c = 0x2B ∨ c = 0x2D) ∧ Digits ds

def fracText : Option Bytes → Bytes
  | none => []
  | some ds => 0x2E :: ds

def expText : Option (UInt8 × Option UInt8 × Bytes) → Bytes
  | none => []
  | some (e, sg, ds) => e :: (sg.toList ++ ds)

def signText (m : Bool) : Bytes := if m then [0x2D] else []

/-- The text of the number -/
def text (p : NumParts) : Bytes := signText p.minus ++ (p.int ++ (fracText p.frac ++ expText p.exp))

/-- Number of exponent digits, ignoring leading zeros -/
def expDigits (p : NumParts) : Nat :=
  match p.exp with
  | none => 0
  | some (_, _, ds) => (ds.dropWhile (· == 0x30)).length

end NumParts

/-- The bytes are a JSON number -/
def IsNumber (bs : Bytes) : Prop := ∃ p : NumParts, p.Valid ∧ p.text = bs

/-- Numbers which are rejected by the number restriction: more than 100 characters, or an exponent with more than two digits (ignoring sign and
leading zeros) -/
def UnsupportedNumber (bs : Bytes) : Prop := bs.length > 100 ∨ ∃ p : NumParts, p.Valid ∧ p.text = bs ∧ p.expDigits > 2

/-- A character which can occur in a number -/
def isNumberChar (b : UInt8) : Bool :=
  isDigit b || b == 0x2D || b == 0x2B || b == 0x2E || b == 0x65 || b == 0x45

end Verif
