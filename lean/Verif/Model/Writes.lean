import Verif.Model.Frame
/-!
# Two processes writing to one connection

`puck_liveview` gives the component loop a copy of the reader's `WebSocket` (component/mod.rs:64, websocket.rs:74-79), so both
write to the same TCP connection: the loop sends changesets, the reader pongs and the close frame.
-/
namespace Puck

/-- puck/src/ws/send.rs:12-17 and puck/src/ws/frame.rs:119-141: the `write_all` calls by which a frame is sent, in order. -/
def frameWrites (f : Frame) : List Bytes :=
  [[f.byteOne, formatLength f.decoded.length]] ++
  (if 126 ≤ f.decoded.length then [extLength f.decoded.length] else []) ++
  [f.decoded]

/-- `cs` is an order in which the calls `as` of one process and `bs` of another may happen.  Simplified: a `write_all` call
is taken to be atomic. Used for puck_liveview/src/component/mod.rs:63, :70 (both processes hold the stream). -/
inductive Merge {α : Type} : List α → List α → List α → Prop
  | nil : Merge [] [] []
  | left {a as bs cs} : Merge as bs cs → Merge (a :: as) bs (a :: cs)
  | right {b as bs cs} : Merge as bs cs → Merge as (b :: bs) (b :: cs)

end Puck
