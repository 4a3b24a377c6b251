import Verif.Model.Io
/-!
# Specification: where an HTTP head ends

Independent of the model of puck's code.
-/
namespace Http
open Puck (Bytes)

/-- CR LF CR LF. -/
def blank : Bytes := [13, 10, 13, 10]

/-- `h` is the part of `a` up to and including the first blank line, `rest` what follows it. -/
def FirstBlank (a h rest : Bytes) : Prop :=
  a = h ++ rest ∧ blank <:+ h ∧ ∀ h' rest', a = h' ++ rest' → blank <:+ h' → h.length ≤ h'.length

/-- There is no blank line in `a`. -/
def NoBlank (a : Bytes) : Prop := ∀ h rest, a = h ++ rest → ¬ blank <:+ h

/-- The value of the last occurrence of a name in a list of header fields. -/
def lastValue (hs : List (String × Bytes)) (k : String) : Option Bytes :=
  (hs.reverse.find? fun p => p.1 == k).map (·.2)

end Http
