import Verif.Model.Io
/-!
# Specification: ASCII letters

Independent of the model of puck's code: the two alphabets are written out.
-/
namespace Ascii
open Puck (Bytes strBytes)

/-- The 26 capital letters and the 26 small letters. -/
def capitals : Bytes := strBytes "ABCDEFGHIJKLMNOPQRSTUVWXYZ"
def smalls : Bytes := strBytes "abcdefghijklmnopqrstuvwxyz"

/-- The small letter of a capital one; every other byte stands for itself. -/
def small (b : UInt8) : UInt8 := ((capitals.zip smalls).find? (·.1 == b)).elim b (·.2)

/-- A string with its capital letters made small, as bytes: two strings agree here iff they are equal up to the
case of ASCII letters. -/
def lowered (s : String) : Bytes := (strBytes s).map small

example : lowered "Content-LENGTH zZ@[`{" = strBytes "content-length zz@[`{" := by decide +kernel

end Ascii
