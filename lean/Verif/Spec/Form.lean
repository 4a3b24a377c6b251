import Verif.Model.Io
/-!
# Specification: `application/x-www-form-urlencoded` (URL standard, section 5.2), for one field

What a browser sends for a form with one named field.  Independent of the model of puck's code.
-/
namespace Form
open Puck (Bytes)

/-- ASCII letters and digits, and `*`, `-`, `.`, `_`: sent as they are. -/
def Plain (b : UInt8) : Bool := (48 ≤ b && b ≤ 57) || (65 ≤ b && b ≤ 90) || (97 ≤ b && b ≤ 122) || b == 42 || b == 45 || b == 46 || b == 95

/-- An upper-case hexadecimal digit. -/
def hexDigit (n : UInt8) : UInt8 := if n < 10 then 48 + n else 55 + n

/-- One byte. -/
def encodeByte (b : UInt8) : Bytes := if Plain b then [b] else if b = 32 then [43] else [37, hexDigit (b / 16), hexDigit (b % 16)]

/-- A field's value. -/
def encode (b : Bytes) : Bytes := b.flatMap encodeByte

end Form
