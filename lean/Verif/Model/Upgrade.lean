import Verif.Model.Response
import Verif.Model.Message
/-!
# `puck/src/ws/upgrade.rs` and `puck/src/core/mod.rs` (`Stream`)
-/
namespace Puck

/-- The standard base64 alphabet (`base64::encode` uses the standard, padded configuration). Used for puck/src/ws/upgrade.rs:61. -/
def b64Char (n : Nat) : UInt8 :=
  if n < 26 then UInt8.ofNat (65 + n)
  else if n < 52 then UInt8.ofNat (97 + (n - 26))
  else if n < 62 then UInt8.ofNat (48 + (n - 52))
  else if n = 62 then 43
  else 47

/-- `base64::encode` (external crate, modelled): three bytes become four characters, `=` pads. Used for puck/src/ws/upgrade.rs:61. -/
def base64 : Bytes → Bytes
  | [] => []
  | [a] => [b64Char (a.toNat / 4), b64Char (a.toNat % 4 * 16), 61, 61]
  | [a, b] =>
    [b64Char (a.toNat / 4), b64Char (a.toNat % 4 * 16 + b.toNat / 16), b64Char (b.toNat % 16 * 4), 61]
  | a :: b :: c :: t =>
    b64Char (a.toNat / 4) :: b64Char (a.toNat % 4 * 16 + b.toNat / 16)
      :: b64Char (b.toNat % 16 * 4 + c.toNat / 64) :: b64Char (c.toNat % 64) :: base64 t

/-- ASCII bytes as a string. Used for puck/src/ws/upgrade.rs:61. -/
def asciiString (b : Bytes) : String := String.ofList (b.map fun c => Char.ofNat c.toNat)

/-- puck/src/ws/upgrade.rs:10-21 `should_upgrade`. -/
def shouldUpgrade (r : Request) : Bool :=
  ((r.headers.get "Upgrade").map fun v => lowerAscii v == strBytes "websocket").getD false &&
  ((r.headers.get "Connection").map fun v => containsBytes (strBytes "upgrade") (lowerAscii v)).getD false

/-- puck/src/ws/upgrade.rs:24 `GUID`. -/
def guid : String := "258EAFA5-E914-47DA-95CA-C5AB0DC85B11"

/-- puck/src/ws/upgrade.rs:55-62 `compute_accept_header`; `sha1` is the external digest. -/
def computeAccept (sha1 : Bytes → Bytes) (key : String) : String :=
  asciiString (base64 (sha1 (strBytes (key ++ guid))))

/-- puck/src/ws/upgrade.rs:43-50: the 101 response. -/
def switchingResponse (sha1 : Bytes → Bytes) (key : String) : Response :=
  ((((ResponseBuilder.new.header "Sec-WebSocket-Accept" (computeAccept sha1 key)).header "Upgrade" "websocket").header
    "Connection" "Upgrade").setStatus 101 "Web Socket Protocol Handshake").build

/-- puck/src/ws/upgrade.rs:30-53 `perform_upgrade`; `none`: a panic in `write_response`. -/
def performUpgrade (env : HttpEnv) (sha1 : Bytes → Bytes) (r : Request) (s : Sink) : Option Bool × Sink :=
  match r.headers.get "Sec-WebSocket-Key" with
  | none =>
    match writeResponse env err400 s with
    | (some _, s') => (some false, s')
    | (none, s') => (none, s')
  | some key =>
    match writeResponse env (switchingResponse sha1 key) s with
    | (some _, s') => (some true, s')
    | (none, s') => (none, s')

/-- puck/src/core/mod.rs:166-169 `UsedStream` (is the stream still there?). -/
structure UsedStream where
  hasStream : Bool
  keepAlive : Bool
  deriving DecidableEq, Repr

/-- puck/src/core/mod.rs:151-160 `Stream::respond`; `none` is `Err(io::Error)`. -/
def Stream.respond (env : HttpEnv) (keepAlive : Bool) (r : Response) (s : Sink) : Outcome Unit UsedStream × Sink :=
  match r.encode env s with
  | (.ok _, _, s') => (.ok ⟨true, keepAlive⟩, s')
  | (.err _, _, s') => (.err (), s')
  | (.panic, _, s') => (.panic, s')

/-- puck/src/core/mod.rs:136-148 `Stream::upgrade`. -/
def Stream.upgrade (env : HttpEnv) (sha1 : Bytes → Bytes) (r : Request) (s : Sink) :
    Outcome UsedStream WsState × Sink :=
  if shouldUpgrade r = false then
    match Stream.respond env false err400 s with
    | (.ok u, s') => (.err u, s')
    | (_, s') => (.panic, s')
  else
    match performUpgrade env sha1 r s with
    | (none, s') => (.panic, s')
    | (some false, s') => (.err ⟨false, false⟩, s')
    | (some true, s') => (.ok .open, s')

/-- What the connection still has to give when a handler has the request `req`: puck/src/request/mod.rs:51 wraps a clone of
the connection's stream in a `BufReader` and keeps it in the request's body (:108-112), so the blocks that reader has
already taken from the stream are in its buffer (`r.buf`), and a second reader of the same stream gets the rest only.
(A `Body` that is not made by `Request::parse` does not read the connection; then this is not used.) -/
def Request.socketInput (req : Request) : Raw :=
  match req.body.reader with
  | .buf _ r => r.raw
  | .other r => r
  | .cursor _ => []

/-- puck/src/core/mod.rs:136-148 `Stream::upgrade`, the socket it returns: line 147 is `WebSocket::new(self.stream)`, which
reads and writes the connection's stream itself (not the reader kept in the request). -/
def upgradedSocket (env : HttpEnv) (sha1 : Bytes → Bytes) (req : Request) (s : Sink) : Option (WsState × Conn) :=
  match Stream.upgrade env sha1 req s with
  | (.ok st, s') => some (st, ⟨req.socketInput, s'⟩)
  | _ => none

end Puck
