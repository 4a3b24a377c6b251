import Verif.Model.Io
/-!
# Specification: HTTP/1.1 message heads (RFC 7230 3)

What a head looks like on the wire, and an independent reader of responses and requests.
Nothing here refers to the model of puck's code.
-/
namespace Http
open Puck (Bytes)

/-- CR LF. -/
def crlf : Bytes := [13, 10]

/-- RFC 7230 3.2.6 `tchar`. -/
def tchar (c : UInt8) : Bool :=
  (48 ≤ c && c ≤ 57) || (65 ≤ c && c ≤ 90) || (97 ≤ c && c ≤ 122) ||
  [33, 35, 36, 37, 38, 39, 42, 43, 45, 46, 94, 95, 96, 124, 126].contains c

/-- RFC 7230 3.2.6 `token`. -/
def Token (b : Bytes) : Prop := b ≠ [] ∧ ∀ c ∈ b, tchar c = true

/-- Optional white space. -/
def ws (c : UInt8) : Bool := c == 32 || c == 9

/-- Text that can stand in a field value or reason phrase: no control characters except TAB. -/
def Text (b : Bytes) : Prop := ∀ c ∈ b, c = 9 ∨ (32 ≤ c ∧ c ≠ 127)

/-- Visible ASCII and blanks only. -/
def AsciiText (b : Bytes) : Prop := ∀ c ∈ b, c = 9 ∨ (32 ≤ c ∧ c < 127)

/-- Does not begin or end with white space. -/
def Trimmed (b : Bytes) : Prop := (∀ c, b.head? = some c → ws c = false) ∧ ∀ c, b.getLast? = some c → ws c = false

/-- The characters of RFC 3986: letters, digits, `-._~`, `:/?#[]@`, `!$&'()*+,;=` and `%`. -/
def uriChar (c : UInt8) : Bool :=
  (48 ≤ c && c ≤ 57) || (65 ≤ c && c ≤ 90) || (97 ≤ c && c ≤ 122) ||
  [45, 46, 95, 126, 58, 47, 63, 35, 91, 93, 64, 33, 36, 38, 39, 40, 41, 42, 43, 44, 59, 61, 37].contains c

/-- A request target: characters that URIs consist of. -/
def Target (b : Bytes) : Prop := b ≠ [] ∧ ∀ c ∈ b, uriChar c = true

/-- `name: value CRLF`. -/
def fieldLine (p : Bytes × Bytes) : Bytes := p.1 ++ [58, 32] ++ p.2 ++ crlf

/-- A message head: start line, field lines, blank line. -/
def head (start : Bytes) (fields : List (Bytes × Bytes)) : Bytes :=
  start ++ crlf ++ (fields.map fieldLine).flatten ++ crlf

/-- `HTTP/1.1 code reason`. -/
def statusLine (code reason : Bytes) : Bytes :=
  [72, 84, 84, 80, 47, 49, 46, 49, 32] ++ code ++ [32] ++ reason

/-- `method target HTTP/1.1`. -/
def requestLine (method target : Bytes) : Bytes :=
  method ++ [32] ++ target ++ [32, 72, 84, 84, 80, 47, 49, 46, 49]

/-- A status code: three digits. -/
def code3 (n : Nat) : Bytes := [UInt8.ofNat (48 + n / 100), UInt8.ofNat (48 + n / 10 % 10), UInt8.ofNat (48 + n % 10)]

/-! ## An independent reader -/

/-- The bytes up to the first CR LF, and what follows it. -/
def line : Bytes → Option (Bytes × Bytes)
  | [] => none
  | [_] => none
  | a :: b :: t =>
    if a = 13 ∧ b = 10 then some ([], t)
    else (line (b :: t)).map fun p => (a :: p.1, p.2)

/-- Remove white space at both ends. -/
def trim (b : Bytes) : Bytes := ((b.dropWhile ws).reverse.dropWhile ws).reverse

/-- Split at the first occurrence of a byte. -/
def splitAt (d : UInt8) : Bytes → Option (Bytes × Bytes)
  | [] => none
  | c :: t => if c = d then some ([], t) else (splitAt d t).map fun p => (c :: p.1, p.2)

/-- A field line: a token, a colon, a value. -/
def readField (l : Bytes) : Option (Bytes × Bytes) :=
  match splitAt 58 l with
  | none => none
  | some (n, v) => if n ≠ [] ∧ n.all tchar = true then some (n, trim v) else none

/-- Field lines up to the blank line (at most as many as the first argument), and what follows. -/
def readFields : Nat → Bytes → Option (List (Bytes × Bytes) × Bytes)
  | 0, _ => none
  | k + 1, b =>
    match line b with
    | none => none
    | some ([], rest) => some ([], rest)
    | some (l, rest) =>
      match readField l, readFields k rest with
      | some f, some (fs, body) => some (f :: fs, body)
      | _, _ => none

/-- A decimal digit. -/
def digit (c : UInt8) : Option Nat := if 48 ≤ c ∧ c ≤ 57 then some (c.toNat - 48) else none

/-- Status code and reason of a status line. -/
def readStatus (l : Bytes) : Option (Nat × Bytes) :=
  match l with
  | 72 :: 84 :: 84 :: 80 :: 47 :: 49 :: 46 :: 49 :: 32 :: a :: b :: c :: 32 :: reason =>
    match digit a, digit b, digit c with
    | some a, some b, some c => some (100 * a + 10 * b + c, reason)
    | _, _, _ => none
  | _ => none

/-- What a reader makes of a response: code, reason, fields, and the bytes after the head. -/
structure ReadResponse where
  code : Nat
  reason : Bytes
  fields : List (Bytes × Bytes)
  rest : Bytes
  deriving DecidableEq, Repr

/-- An HTTP/1.1 response reader. -/
def readResponse (b : Bytes) : Option ReadResponse :=
  match line b with
  | none => none
  | some (l, rest) =>
    match readStatus l, readFields (rest.length + 1) rest with
    | some (code, reason), some (fs, body) => some ⟨code, reason, fs, body⟩
    | _, _ => none

/-- What a reader makes of a request: method, target, fields, and the bytes after the head. -/
structure ReadRequest where
  method : Bytes
  target : Bytes
  fields : List (Bytes × Bytes)
  rest : Bytes
  deriving DecidableEq, Repr

/-- An HTTP/1.1 request reader. -/
def readRequest (b : Bytes) : Option ReadRequest :=
  match line b with
  | none => none
  | some (l, rest) =>
    match splitAt 32 l with
    | none => none
    | some (m, l') =>
      match splitAt 32 l' with
      | none => none
      | some (t, version) =>
        if version = [72, 84, 84, 80, 47, 49, 46, 49] then
          match readFields (rest.length + 1) rest with
          | some (fs, body) => some ⟨m, t, fs, body⟩
          | none => none
        else none

end Http
