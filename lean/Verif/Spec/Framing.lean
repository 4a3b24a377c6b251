import Verif.Spec.Http
import Verif.Spec.Decimal
import Verif.Spec.Ascii
/-!
# Specification: which bytes are the body of a request or of a response (RFC 9112 section 6.3)
-/
namespace Http
open Puck (Bytes strBytes)

/-- A chunk size, in hexadecimal digits (RFC 9112 7.1). -/
def hexBytes (n : Nat) : Bytes := (Nat.toDigits 16 n).map fun c => UInt8.ofNat c.toNat

/-- One chunk: size, CR LF, data, CR LF. -/
def chunk (data : Bytes) : Bytes := hexBytes data.length ++ [13, 10] ++ data ++ [13, 10]

/-- The chunked coding of a body sent in these (non-empty) chunks: the chunks, a last chunk of size 0, no trailers. -/
def chunked (chunks : List Bytes) : Bytes := (chunks.map chunk).flatten ++ [48, 13, 10, 13, 10]

/-- The header fields contain one of this name (in any case). -/
def Given (fs : List (String × Bytes)) (name : String) : Prop := ∃ p ∈ fs, Ascii.lowered p.1 = strBytes name

/-- The body of a request with these header fields, followed by these bytes: with Transfer-Encoding chunked, the decoded content; else with a
Content-Length, that many bytes (fields that disagree are an error); else nothing. -/
inductive FramedBody (fs : List (String × Bytes)) (after : Bytes) : Bytes → Prop
  | chunked (chunks : List Bytes) (next : Bytes) : (∃ p ∈ fs, Ascii.lowered p.1 = strBytes "transfer-encoding" ∧ p.2 = strBytes "chunked") →
      (∀ p ∈ fs, Ascii.lowered p.1 = strBytes "transfer-encoding" → p.2 = strBytes "chunked") → (∀ c ∈ chunks, c ≠ []) →
      after = Http.chunked chunks ++ next → FramedBody fs after chunks.flatten
  | length (n : Nat) : ¬ Given fs "transfer-encoding" → Given fs "content-length" →
      (∀ p ∈ fs, Ascii.lowered p.1 = strBytes "content-length" → Decimal.Digits p.2 ∧ Decimal.value p.2 = n) → n ≤ after.length → FramedBody fs after (after.take n)
  | empty : ¬ Given fs "transfer-encoding" → ¬ Given fs "content-length" → FramedBody fs after []

/-- ASCII lower case. -/
def lower (b : Bytes) : Bytes := b.map fun c => if 65 ≤ c ∧ c ≤ 90 then c + 32 else c

/-- The header fields of a message, as a client has read them, contain one of this name (in any case). -/
def Has (fs : List (Bytes × Bytes)) (name : String) : Prop := ∃ p ∈ fs, lower p.1 = strBytes name

/-- The responses that never have a body (rule 1): 1xx, 204 and 304. -/
def Bodiless (code : Nat) : Prop := (100 ≤ code ∧ code < 200) ∨ code = 204 ∨ code = 304

/-- How a client divides what follows the head of a response to a GET or POST request into the body of this response and what comes after it: nothing is the
body of a bodiless response (rule 1); with Transfer-Encoding chunked the chunks are, with whatever else the fields say (rules 3 and 4); else with a
Content-Length that many bytes (rule 6; fields that are no numbers or disagree are an error, rule 5); else everything until the connection is closed (rule 8).
Not covered: other transfer codings. -/
inductive SplitResponse (code : Nat) (fs : List (Bytes × Bytes)) (after : Bytes) : Bytes → Bytes → Prop
  | none : Bodiless code → SplitResponse code fs after [] after
  | chunked (chunks : List Bytes) (next : Bytes) : ¬ Bodiless code → Has fs "transfer-encoding" →
      (∀ p ∈ fs, lower p.1 = strBytes "transfer-encoding" → p.2 = strBytes "chunked") → (∀ c ∈ chunks, c ≠ []) →
      after = Http.chunked chunks ++ next → SplitResponse code fs after chunks.flatten next
  | length (n : Nat) : ¬ Bodiless code → ¬ Has fs "transfer-encoding" → Has fs "content-length" →
      (∀ p ∈ fs, lower p.1 = strBytes "content-length" → Decimal.Digits p.2 ∧ Decimal.value p.2 = n) → n ≤ after.length →
      SplitResponse code fs after (after.take n) (after.drop n)
  | close : ¬ Bodiless code → ¬ Has fs "transfer-encoding" → ¬ Has fs "content-length" → SplitResponse code fs after after []

end Http
