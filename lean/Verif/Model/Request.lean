import Verif.Model.Body
import Verif.Model.Text
/-!
# `puck/src/request/`
-/
namespace Puck

/-- `url::Url`, as far as puck uses it: the path and the query; `base` stands for everything else. Used for puck/src/request/mod.rs:27, :121. -/
structure Url where
  base : String
  path : String
  query : Option String
  deriving DecidableEq, Repr

/-- puck/src/request/mod.rs:210-218 `Method`. -/
inductive Method where
  | get | post | head
  | other (name : String)
  deriving DecidableEq, Repr

/-- puck/src/request/mod.rs:222-228 `Method::new_from_str`. -/
def Method.newFromStr (s : String) : Method :=
  if lowerAscii s = strBytes "get" then .get
  else if lowerAscii s = strBytes "post" then .post
  else .other s

/-- puck/src/request/mod.rs:231-239 `Method::write`: the text written. -/
def Method.text : Method → String
  | .get => "GET"
  | .post => "POST"
  | .head => "HEAD /"
  | .other name => name

/-- puck/src/request/mod.rs:23-28 `Request`. -/
structure Request where
  headers : Headers
  method : Method
  body : Body
  url : Url
  deriving DecidableEq, Repr

/-- The result of `httparse::Request::parse` (external crate): `none` is an error; otherwise (complete or
partial) the fields it filled in. Used for puck/src/request/mod.rs:48-49, :71-72. -/
structure HpRequest where
  method : Option String
  path : Option String
  headers : List (String × Bytes)
  deriving DecidableEq, Repr

/-- The fields `httparse::Response::parse` left behind (its result is ignored, response/mod.rs:78). -/
structure HpResponse where
  code : Option Nat
  reason : Option String
  headers : List (String × Bytes)
  deriving DecidableEq, Repr

/-- The external world of the HTTP code: the crates `httparse` and `url`, the iteration order of
`HashMap`s and the width of `usize`. Used for puck/src/request/mod.rs:48-49, :71, :84-96, :103-106, :123. -/
structure HttpEnv where
  httparse : Bytes → Option HpRequest
  httparseRes : Bytes → HpResponse
  parseUrl : String → Option Url
  ord : Headers → Headers
  W : Nat

/-- puck/src/request/mod.rs:169-190 `RequestParseError`. -/
inductive RequestParseError where
  | couldNotParse | utf8Error | ioError | invalidUrl
  | missingHeader (name : String)
  | missingMethod
  deriving DecidableEq, Repr

/-- puck/src/request/mod.rs:65-66 (and response/mod.rs:72-73): `idx >= 3 && &buf[idx-3..=idx] == b"\r\n\r\n"` for
`idx = buf.len() - 1`. -/
def endsBlank (buf : Bytes) : Bool :=
  decide (buf.length - 1 ≥ 3) && (buf.drop (buf.length - 1 - 3) == [13, 10, 13, 10])

/-- puck/src/request/mod.rs:54-69 (identical to response/mod.rs:61-76): read lines until the buffer ends with
a blank line.  `none` is `Err(IoError)`, `some none` is the early `Ok(None)`. -/
def headLoop (cap : Nat) (acc : Bytes) (r : Buf) : Option (Option Bytes) × Buf :=
  match _h : r.readUntil cap 10 [] with
  | (none, r') => (none, r')
  | (some b, r') =>
    if _hb : b = [] then (some none, r')
    else if endsBlank (acc ++ b) then (some (some (acc ++ b)), r')
    else headLoop cap (acc ++ b) r'
termination_by r.buf.length + r.raw.size
decreasing_by exact Buf.readUntil_size_lt _h _hb

/-- puck/src/request/mod.rs:73-82 (and response/mod.rs:80-93): the header map; `none` is `Utf8Error`. -/
def collectHeaders : List (String × Bytes) → Headers → Option Headers
  | [], h => some h
  | (k, v) :: t, h =>
    match fromUtf8 v with
    | none => none
    | some v => collectHeaders t (h.insert k v)

/-- puck/src/request/mod.rs:85, 103-105: the first header, in iteration order, whose name matches. -/
def findIgnoreCase (env : HttpEnv) (h : Headers) (name : String) : Option String :=
  ((env.ord h).find? fun p => eqIgnoreCase p.1 name).map (·.2)

/-- puck/src/request/mod.rs:86-96: the URL. -/
def requestUrl (env : HttpEnv) (method host : String) (path : Option String) : Option Url :=
  match path with
  | none => none
  | some url =>
    if (strBytes "http://").isPrefixOf (strBytes url) || (strBytes "https://").isPrefixOf (strBytes url) then
      env.parseUrl url
    else if (strBytes "/").isPrefixOf (strBytes url) then env.parseUrl ("http://" ++ host ++ url)
    else if eqIgnoreCase method "connect" then env.parseUrl ("http://" ++ host ++ "/")
    else none

/-- puck/src/request/mod.rs:51: capacity of the reader. -/
def requestCap : Nat := 10000

/-- puck/src/request/mod.rs:71-114: from the head to the request; `r` is the reader after the head. -/
def Request.ofHead (env : HttpEnv) (head : Bytes) (r : Buf) : Except RequestParseError Request :=
  match env.httparse head with
  | none => .error .couldNotParse
  | some req =>
    match req.method with
    | none => .error .missingMethod
    | some m =>
      match collectHeaders req.headers [] with
      | none => .error .utf8Error
      | some headers =>
        match findIgnoreCase env headers "host" with
        | none => .error (.missingHeader "Host")
        | some host =>
          match requestUrl env m host req.path with
          | none => .error .invalidUrl
          | some url =>
            .ok ⟨headers, Method.newFromStr m,
              Body.fromReader (.buf requestCap r)
                ((findIgnoreCase env headers "content-length").bind (parseUsize env.W)), url⟩

/-- puck/src/request/mod.rs:47-115 `Request::parse`. -/
def Request.parse (env : HttpEnv) (raw : Raw) : Except RequestParseError (Option Request) :=
  match headLoop requestCap [] ⟨[], raw⟩ with
  | (none, _) => .error .ioError
  | (some none, _) => .ok none
  | (some (some head), r) => (Request.ofHead env head r).map some

/-- One `"{}: {}\r\n"` line (puck/src/request/mod.rs:124, response/encoder.rs:29). -/
def headerLine (p : String × String) : Bytes := strBytes (p.1 ++ ": " ++ p.2 ++ "\r\n")

/-- A loop of `write!`s with `?`: `true` if all succeeded. Used for puck/src/request/mod.rs:123-125, puck/src/response/encoder.rs:28-30. -/
def Sink.writeEach : List Bytes → Sink → Bool × Sink
  | [], s => (true, s)
  | b :: bs, s =>
    match s.writeAll b with
    | (false, s') => (false, s')
    | (true, s') => Sink.writeEach bs s'

/-- `std::io::copy`'s block size (`DEFAULT_BUF_SIZE` = 8 KiB), minus one. Used for puck/src/request/mod.rs:128, puck/src/response/encoder.rs:32. -/
def copyBlk : Nat := 8191

/-- puck/src/request/mod.rs:119-129 `Request::write`. -/
def Request.write (env : HttpEnv) (r : Request) (s : Sink) : Outcome Unit Unit × Request × Sink :=
  match Sink.writeEach ([strBytes r.method.text, strBytes (" " ++ r.url.path ++ " "), strBytes "HTTP/1.1\r\n"] ++
      (env.ord r.headers).map headerLine ++ [strBytes "\r\n"]) s with
  | (false, s') => (.err (), r, s')
  | (true, s') =>
    match r.body.copyTo copyBlk s' with
    | (o, b, s'') => (o, { r with body := b }, s'')

/-- puck/src/request/mod.rs:147-161 `replace_body` (with `copy_content_type_from_body`). -/
def Request.replaceBody (r : Request) (b : Body) : Body × Request :=
  (r.body, { r with body := b, headers := r.headers.insert "Content-Type" b.mime.toStr })

/-- puck/src/request/mod.rs:154-156 `take_body`. -/
def Request.takeBody (r : Request) : Body × Request := r.replaceBody Body.empty

/-- puck/src/request/builder.rs:14-19 `RequestBuilder`. -/
structure RequestBuilder where
  headers : Headers
  method : Option Method
  body : Option Body
  url : Url
  deriving DecidableEq, Repr

/-- puck/src/request/builder.rs:30-37 `try_new` (`new`, lines 24-26, panics where this is `none`). -/
def RequestBuilder.tryNew (env : HttpEnv) (url : String) : Option RequestBuilder :=
  (env.parseUrl url).map fun u => ⟨[], none, none, u⟩

/-- puck/src/request/builder.rs:40-43 `header`. -/
def RequestBuilder.header (b : RequestBuilder) (k v : String) : RequestBuilder :=
  { b with headers := b.headers.insert k v }

/-- puck/src/request/builder.rs:47-50 `headers`. -/
def RequestBuilder.addHeaders (b : RequestBuilder) (new : List (String × String)) : RequestBuilder :=
  { b with headers := b.headers.extend new }

/-- puck/src/request/builder.rs:53-56 `body`. -/
def RequestBuilder.setBody (b : RequestBuilder) (body : Body) : RequestBuilder := { b with body := some body }

/-- puck/src/request/builder.rs:59-62 `method`. -/
def RequestBuilder.setMethod (b : RequestBuilder) (m : Method) : RequestBuilder := { b with method := some m }

/-- puck/src/request/builder.rs:71-81 `try_build` (`build`, lines 65-68, panics where this is `none`). -/
def RequestBuilder.tryBuild (b : RequestBuilder) : Option Request :=
  match b.method with
  | none => none
  | some m => some ⟨b.headers, m, b.body.getD Body.empty, b.url⟩

end Puck
