import Verif.Lemmas.Shrink
/-!
# `puck/src/ws/message.rs` and `puck/src/ws/websocket.rs`
-/
namespace Puck

/-- puck/src/ws/message.rs:106-114 `DecodeMessageError`. -/
inductive DecodeMessageError where
  | clientProtocolViolationError
  | clientSentCloseFrame
  deriving DecidableEq, Repr

/-- puck/src/ws/message.rs:35-58 and 82-100: the two identical `match`es that turn the opcode of the
first frame and the whole payload into a message. -/
def messageOf (op : OpCode) (payload : Bytes) : Outcome DecodeMessageError Message :=
  match op with
  | .binary => .ok (.binary payload)
  | .text =>
    match fromUtf8 payload with
    | some s => .ok (.text s)
    | none => .err .clientProtocolViolationError
  | .ping => .ok (.ping (if !payload.isEmpty then some payload else none))
  | .pong => .ok (.pong (if !payload.isEmpty then some payload else none))
  | _ => .err .clientProtocolViolationError

/-- puck/src/ws/message.rs:65-102: the loop over continuation frames.  `?` converts every
`ParseFrameError` to `ClientProtocolViolationError` (lines 116-120). -/
def nextLoop (W : Nat) (op : OpCode) (payload : Bytes) (raw : Raw) :
    Outcome DecodeMessageError Message × Raw :=
  match _h : Frame.parse W raw with
  | (.err _, raw') => (.err .clientProtocolViolationError, raw')
  | (.panic, raw') => (.panic, raw')
  | (.ok msg, raw') =>
    if msg.opCode = .terminate then (.err .clientSentCloseFrame, raw')
    else if msg.opCode ≠ .continue then (.err .clientProtocolViolationError, raw')
    else
      if msg.fin then (messageOf op (payload ++ msg.decoded), raw')
      else nextLoop W op (payload ++ msg.decoded) raw'
termination_by raw.size
decreasing_by exact parse_shrinks _h

/-- puck/src/ws/message.rs:25-103 `Message::next`. -/
def Message.next (W : Nat) (raw : Raw) : Outcome DecodeMessageError Message × Raw :=
  match Frame.parse W raw with
  | (.err _, raw') => (.err .clientProtocolViolationError, raw')
  | (.panic, raw') => (.panic, raw')
  | (.ok first, raw') =>
    if first.opCode = .terminate then (.err .clientSentCloseFrame, raw')
    else if first.fin then (messageOf first.opCode first.decoded, raw')
    else nextLoop W first.opCode first.decoded raw'

/-- puck/src/ws/websocket.rs:25-32 `WebSocketState`. -/
inductive WsState where
  | «open» | closed
  deriving DecidableEq, Repr

/-- puck/src/ws/websocket.rs:121-130 `NextMessageError`. -/
inductive NextMessageError where
  | clientError
  | connectionClosed
  deriving DecidableEq, Repr

/-- The TCP connection behind a `WebSocket` (`lunatic::net::TcpStream`, puck/src/ws/websocket.rs:20-23):
`TcpStream::clone` shares it, so it is separate from the socket's own state. -/
structure Conn where
  inp : Raw
  out : Sink
  deriving DecidableEq, Repr

/-- puck/src/ws/websocket.rs:134-145: the close frame. -/
def closeFrame : Frame := ⟨true, false, false, false, .terminate, []⟩

/-- puck/src/ws/websocket.rs:92-99: the pong frame answering a ping. -/
def pongFrame (payload : Option Bytes) : Frame := ⟨true, false, false, false, .pong, payload.getD []⟩

/-- puck/src/ws/websocket.rs:85-118 `<WebSocket as Iterator>::next`; the iterator never returns `None`,
so the item itself is the outcome.  `panic`: the `expect`s of lines 101 and 145, or a panic of the frame
parser. -/
def WebSocket.next (W : Nat) (st : WsState) (c : Conn) :
    Outcome NextMessageError Message × WsState × Conn :=
  match st with
  | .closed => (.err .connectionClosed, .closed, c)
  | .open =>
    match Message.next W c.inp with
    | (.ok msg, inp) =>
      match msg with
      | .ping payload =>
        match sendFrame (pongFrame payload) c.out with
        | (true, out) => (.ok msg, .open, ⟨inp, out⟩)
        | (false, out) => (.panic, .open, ⟨inp, out⟩)
      | _ => (.ok msg, .open, ⟨inp, c.out⟩)
    | (.err .clientProtocolViolationError, inp) => (.err .clientError, .open, ⟨inp, c.out⟩)
    | (.err .clientSentCloseFrame, inp) =>
      match sendFrame closeFrame c.out with
      | (true, out) => (.err .connectionClosed, .closed, ⟨inp, out⟩)
      | (false, out) => (.panic, .closed, ⟨inp, out⟩)
    | (.panic, inp) => (.panic, .open, ⟨inp, c.out⟩)

/-- puck/src/ws/websocket.rs:44-46 `WebSocket::send`: the state is not consulted. -/
def WebSocket.send (m : Message) (c : Conn) : Bool × Conn :=
  let (ok, out) := Puck.send m c.out
  (ok, ⟨c.inp, out⟩)

/-- puck/src/ws/websocket.rs:59-71 `WebSocket::close`; `none`: the `expect` panicked. -/
def WebSocket.close (st : WsState) (c : Conn) : Option Unit × Conn :=
  match st with
  | .open =>
    match sendFrame closeFrame c.out with
    | (true, out) => (some (), ⟨c.inp, out⟩)
    | (false, out) => (none, ⟨c.inp, out⟩)
  | .closed => (some (), c)

end Puck
