import Verif.Model.Message
/-!
# `Message::next` on readers other than a TCP stream

`Message::next` is public and takes any `impl Read + Clone` (puck/src/ws/message.rs:25).  It never reads from the reader it is given, only from
clones of it, one per frame.  `Model/Message.lean` is the case of `lunatic::net::TcpStream`, whose clones share the connection.
-/
namespace Puck

/-- What `Clone` means for a reader: the clones share one position (`TcpStream`), or each clone has its own (`Cursor<Vec<u8>>`, `&[u8]`,
`std::io::Repeat`, ...). Used for puck/src/ws/message.rs:25-27, :66. -/
inductive Cloning where
  | shared
  | copied
  deriving DecidableEq, Repr

/-- Where the original stands after a clone of it, taken at `raw`, was read until `raw'`. Used for puck/src/ws/message.rs:27, :66. -/
def Cloning.left : Cloning → (raw raw' : Raw) → Raw
  | .shared, _, raw' => raw'
  | .copied, raw, _ => raw

/-- puck/src/ws/message.rs:65-102, the loop over continuation frames, at most `fuel` rounds; `none`: it has not returned by then. -/
def nextLoopClone (k : Cloning) (W : Nat) (op : OpCode) : (fuel : Nat) → (payload : Bytes) → (raw : Raw) →
    Option (Outcome DecodeMessageError Message × Raw)
  | 0, _, _ => none
  | fuel + 1, payload, raw =>
    match Frame.parse W raw with
    | (.err _, raw') => some (.err .clientProtocolViolationError, k.left raw raw')
    | (.panic, raw') => some (.panic, k.left raw raw')
    | (.ok msg, raw') =>
      if msg.opCode = .terminate then some (.err .clientSentCloseFrame, k.left raw raw')
      else if msg.opCode ≠ .continue then some (.err .clientProtocolViolationError, k.left raw raw')
      else
        if msg.fin then some (messageOf op (payload ++ msg.decoded), k.left raw raw')
        else nextLoopClone k W op fuel (payload ++ msg.decoded) (k.left raw raw')

/-- puck/src/ws/message.rs:25-103 `Message::next` on a reader whose clones behave as `k` says; `none`: it has not returned after `fuel` rounds of
its loop. -/
def Message.nextClone (k : Cloning) (W : Nat) (fuel : Nat) (raw : Raw) : Option (Outcome DecodeMessageError Message × Raw) :=
  match Frame.parse W raw with
  | (.err _, raw') => some (.err .clientProtocolViolationError, k.left raw raw')
  | (.panic, raw') => some (.panic, k.left raw raw')
  | (.ok first, raw') =>
    if first.opCode = .terminate then some (.err .clientSentCloseFrame, k.left raw raw')
    else if first.fin then some (messageOf first.opCode first.decoded, k.left raw raw')
    else nextLoopClone k W first.opCode fuel first.decoded (k.left raw raw')

end Puck
