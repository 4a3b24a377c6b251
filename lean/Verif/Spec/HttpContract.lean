import Verif.Model.Request
import Verif.Spec.HttpGrammar
/-!
# Specification: what is assumed of the external header parser

`httparse` is not part of the repository.  Where a property needs to know what it returns, the theorem
assumes one of these contracts: on a head that follows the grammar and has at most 20 fields
(`MAX_HEADERS`), it returns the pieces.  `Props/RoundTrip` exhibits parsers that satisfy them.
-/
namespace Http
open Puck (Bytes strBytes HpRequest HpResponse)

/-- A field that the grammar allows, without white space around its value. -/
def GoodField (p : String × Bytes) : Prop := Token (strBytes p.1) ∧ Text p.2 ∧ Trimmed p.2

/-- A field name and value as bytes. -/
def rawField (p : String × Bytes) : Bytes × Bytes := (strBytes p.1, p.2)

/-- Contract of the response parser. -/
def ResponseContract (hp : Bytes → HpResponse) : Prop :=
  ∀ (code : Nat) (reason : String) (fs : List (String × Bytes)), 100 ≤ code → code < 1000 →
    AsciiText (strBytes reason) → (∀ p ∈ fs, GoodField p) → fs.length ≤ 20 →
    hp (head (statusLine (code3 code) (strBytes reason)) (fs.map rawField)) = ⟨some code, some reason, fs⟩

/-- Contract of the request parser. -/
def RequestContract (hp : Bytes → Option HpRequest) : Prop :=
  ∀ (method target : String) (fs : List (String × Bytes)), Token (strBytes method) → Target (strBytes target) →
    (∀ p ∈ fs, GoodField p) → fs.length ≤ 20 →
    hp (head (requestLine (strBytes method) (strBytes target)) (fs.map rawField)) =
      some ⟨some method, some target, fs⟩

end Http
