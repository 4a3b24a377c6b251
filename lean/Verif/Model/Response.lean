import Verif.Model.Request
/-!
# `puck/src/response/`, `puck/src/lib.rs`
-/
namespace Puck

/-- puck/src/response/mod.rs:21-26 `Response` (`status` is a `u16`). -/
structure Response where
  headers : Headers
  body : Body
  status : Nat
  reason : String
  deriving DecidableEq, Repr

/-- puck/src/response/mod.rs:142-151 `ParseResponseError`. -/
inductive ParseResponseError where
  | ioError | missingStatusCode | missingReason | utf8Error
  deriving DecidableEq, Repr

/-- puck/src/response/mod.rs:55: capacity of the reader. -/
def responseCap : Nat := 1000

/-- puck/src/response/mod.rs:78-120: from the head to the response.  Note line 111: the length is taken
from the *content-type* header. -/
def Response.ofHead (env : HttpEnv) (head : Bytes) (r : Buf) : Except ParseResponseError Response :=
  let res := env.httparseRes head
  match collectHeaders res.headers [] with
  | none => .error .utf8Error
  | some headers =>
    match res.code with
    | none => .error .missingStatusCode
    | some status =>
      match res.reason with
      | none => .error .missingReason
      | some reason =>
        .ok ⟨headers, Body.fromReader (.buf responseCap r)
          ((findIgnoreCase env headers "content-type").bind (parseUsize env.W)), status, reason⟩

/-- puck/src/response/mod.rs:54-121 `Response::parse`. -/
def Response.parse (env : HttpEnv) (raw : Raw) : Except ParseResponseError (Option Response) :=
  match headLoop responseCap [] ⟨[], raw⟩ with
  | (none, _) => .error .ioError
  | (some none, _) => .ok none
  | (some (some head), r) => (Response.ofHead env head r).map some

/-- puck/src/response/mod.rs:29-39 `replace_body`. -/
def Response.replaceBody (r : Response) (b : Body) : Body × Response :=
  (r.body, { r with body := b, headers := r.headers.insert "Content-Type" b.mime.toStr })

/-- puck/src/response/mod.rs:42-44 `take_body`. -/
def Response.takeBody (r : Response) : Body × Response := r.replaceBody Body.empty

/-- puck/src/response/encoder.rs:26-27: the headers in iteration order, sorted by name (byte order). -/
def sortHeaders (h : Headers) : Headers := h.mergeSort fun a b => bytesLe (strBytes a.1) (strBytes b.1)

/-- puck/src/response/encoder.rs:20-34 `Encoder::write_tcp_stream`. -/
def Response.encode (env : HttpEnv) (r : Response) (s : Sink) : Outcome Unit Unit × Response × Sink :=
  match Sink.writeEach ([strBytes ("HTTP/1.1 " ++ toString r.status ++ " " ++ r.reason ++ "\r\n")] ++
      (sortHeaders (env.ord r.headers)).map headerLine ++ [strBytes "\r\n"]) s with
  | (false, s') => (.err (), r, s')
  | (true, s') =>
    match r.body.copyTo copyBlk s' with
    | (o, b, s'') => (o, { r with body := b }, s'')

/-- puck/src/response/builder.rs:10-17 `ResponseBuilder` (`method` is never set or read). -/
structure ResponseBuilder where
  headers : Headers
  body : Option Body
  status : Option Nat
  reason : Option String
  deriving DecidableEq, Repr

/-- puck/src/response/builder.rs:32-34 `new`. -/
def ResponseBuilder.new : ResponseBuilder := ⟨[], none, none, none⟩

/-- puck/src/response/builder.rs:37-40 `header`. -/
def ResponseBuilder.header (b : ResponseBuilder) (k v : String) : ResponseBuilder :=
  { b with headers := b.headers.insert k v }

/-- puck/src/response/builder.rs:43-46 `headers`. -/
def ResponseBuilder.addHeaders (b : ResponseBuilder) (new : List (String × String)) : ResponseBuilder :=
  { b with headers := b.headers.extend new }

/-- puck/src/response/builder.rs:49-52 `body`. -/
def ResponseBuilder.setBody (b : ResponseBuilder) (body : Body) : ResponseBuilder := { b with body := some body }

/-- puck/src/response/builder.rs:55-59 `status`. -/
def ResponseBuilder.setStatus (b : ResponseBuilder) (code : Nat) (reason : String) : ResponseBuilder :=
  { b with status := some code, reason := some reason }

/-- puck/src/response/builder.rs:62-69 `build`. -/
def ResponseBuilder.build (b : ResponseBuilder) : Response :=
  ⟨b.headers, b.body.getD Body.empty, b.status.getD 200, b.reason.getD ""⟩

/-- puck/src/lib.rs:26-37 `err_404`. -/
def err404 : Response :=
  ⟨Headers.insert "Content-Type" Mime.html.toStr [], Body.fromString "<h1>404: Not found</h1>", 404, "not found"⟩

/-- puck/src/lib.rs:40-51 `err_400`. -/
def err400 : Response :=
  ⟨Headers.insert "Content-Type" Mime.html.toStr [], Body.fromString "<h1>400: bad request</h1>", 400, "bad request"⟩

/-- puck/src/lib.rs:54-57 `write_response`; `none`: the `unwrap` panicked. -/
def writeResponse (env : HttpEnv) (r : Response) (s : Sink) : Option Unit × Sink :=
  match r.encode env s with
  | (.ok _, _, s') => (some (), s')
  | (_, _, s') => (none, s')

end Puck
