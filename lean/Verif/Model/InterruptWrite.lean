import Verif.Model.Request
import Verif.Model.Writes
/-!
# `write_all` in terms of `write`
-/
namespace Puck

/-- What the calls of `write` on a connection return, one after the other: it has room for `k` bytes (which may be fewer than offered; `Ok(0)` if there is none), an error of kind
`Interrupted`, or another error. Used for puck/src/ws/frame.rs:130, puck/src/request/mod.rs:121-126, puck/src/response/encoder.rs:21-31. -/
inductive WEv where
  | room (k : Nat)
  | intr
  | fail
  deriving DecidableEq, Repr

/-- A writer: what has been written, and what is going to happen (after that, everything is accepted). Used for puck/src/ws/send.rs:12, puck/src/request/mod.rs:119. -/
structure WSink where
  out : Bytes
  sched : List WEv
  deriving DecidableEq, Repr

/-- The loop of std's `write_all`: `Ok(0)` is the error `WriteZero`, an interrupted `write` is repeated, after a short one the rest is offered; if the writer has room for more than
is offered, the room stays.  `true` is `Ok(())`. Used for puck/src/ws/frame.rs:130, puck/src/ws/send.rs:14, puck/src/request/mod.rs:121-126, puck/src/response/encoder.rs:21-31. -/
def writeAllGo (b out : Bytes) : List WEv → Bool × WSink
  | [] => (true, ⟨out ++ b, []⟩)
  | .intr :: s => if b = [] then (true, ⟨out, .intr :: s⟩) else writeAllGo b out s
  | .fail :: s => if b = [] then (true, ⟨out, .fail :: s⟩) else (false, ⟨out, s⟩)
  | .room k :: s =>
    if b = [] then (true, ⟨out, .room k :: s⟩)
    else if k = 0 then (false, ⟨out, s⟩)
    else if b.length < k then (true, ⟨out ++ b, .room (k - b.length) :: s⟩)
    else writeAllGo (b.drop k) (out ++ b.take k) s

/-- `Write::write_all`. Used for puck/src/ws/frame.rs:130, puck/src/request/mod.rs:121-126, puck/src/response/encoder.rs:21-31. -/
def WSink.writeAll (b : Bytes) (w : WSink) : Bool × WSink := writeAllGo b w.out w.sched

/-- A sequence of `write_all`s with `?`, as `Sink.writeEach`. Used for puck/src/ws/send.rs:13-14, puck/src/request/mod.rs:120-126, puck/src/response/encoder.rs:21-31. -/
def WSink.writeEach : List Bytes → WSink → Bool × WSink
  | [], w => (true, w)
  | b :: bs, w =>
    match w.writeAll b with
    | (false, w') => (false, w')
    | (true, w') => WSink.writeEach bs w'

/-- puck/src/ws/send.rs:8-17 `send`, on such a writer: `true` is `Ok(())`. -/
def WSink.send (m : Message) (w : WSink) : Bool × WSink := w.writeEach (frameWrites (Frame.ofMessage m))

/-- Messages sent one after the other, whatever becomes of them: puck_liveview/src/component/mod.rs:200 ignores the result of sending and carries on. -/
def WSink.sendAll : List Message → WSink → List Bool × WSink
  | [], w => ([], w)
  | m :: ms, w => ((w.send m).1 :: (WSink.sendAll ms (w.send m).2).1, (WSink.sendAll ms (w.send m).2).2)

/-- How many bytes a writer accepts before it fails (`none`: it never does), as in `Sink`. Used for puck/src/ws/frame.rs:130, puck/src/request/mod.rs:121-126. -/
def roomLeft : List WEv → Option Nat
  | [] => none
  | .intr :: s => roomLeft s
  | .fail :: _ => some 0
  | .room k :: s => if k = 0 then some 0 else (roomLeft s).map (k + ·)

/-- The writer as the other modules see it. Used for puck/src/ws/frame.rs:130, puck/src/request/mod.rs:121-126. -/
def WSink.whole (w : WSink) : Sink := ⟨w.out, roomLeft w.sched⟩

end Puck
