import Verif.Model.Io
/-!
# `puck/src/body/mime.rs`
-/
namespace Puck

/-- puck/src/body/mime.rs:13-19 `Mime` (`basetype`, `subtype` are never read). -/
structure Mime where
  essence : String
  isUtf8 : Bool
  params : List (String × String)
  deriving DecidableEq, Repr

/-- puck/src/body/mime.rs:45-51 `HTML`. -/
def Mime.html : Mime := ⟨"text/html", true, []⟩
/-- puck/src/body/mime.rs:53-59 `PLAIN`. -/
def Mime.plain : Mime := ⟨"text/plain", true, []⟩
/-- puck/src/body/mime.rs:61-67 `BYTE_STREAM`. -/
def Mime.byteStream : Mime := ⟨"application/octet-stream", false, []⟩

/-- puck/src/body/mime.rs:146-166 `is_http_token_code_point`. -/
def isTokenChar (c : Char) : Bool :=
  "!#$%&'*+-.^_`|~".toList.contains c || (('a' ≤ c && c ≤ 'z') || ('A' ≤ c && c ≤ 'Z') || ('0' ≤ c && c ≤ '9'))

/-- puck/src/body/mime.rs:80-87, 94-143: `flat_map` of `EscapeMimeValue`. -/
def escapeMime (cs : List Char) : List Char :=
  cs.flatMap fun c => if c == '"' || c == '\\' then ['\\', c] else [c]

/-- puck/src/body/mime.rs:76-90: one parameter. -/
def Mime.fmtParam (p : String × String) : List Char :=
  if p.2.toList.all isTokenChar && !p.2.isEmpty then
    ';' :: p.1.toList ++ '=' :: p.2.toList
  else
    ';' :: p.1.toList ++ '=' :: '"' :: escapeMime p.2.toList ++ ['"']

/-- puck/src/body/mime.rs:71-92 `format` (what `to_string()` returns). -/
def Mime.toStr (m : Mime) : String :=
  m.essence ++ (if m.isUtf8 then ";charset=utf-8" else "") ++
    String.ofList ((m.params.map Mime.fmtParam).flatten)

end Puck
