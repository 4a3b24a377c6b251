import Verif.Model.Chat
/-!
# `examples/chat/src/main.rs`: requests as messages

`Model/Chat.lean` treats `orchestrator.request(...)` as one instantaneous call.  Here the coordinator is a process of its own: a request is a message into its
mailbox, the component's process waits (while its own mailbox goes on filling), the coordinator takes one request at a time, sends its broadcasts one by
one, and then its reply (lunatic's `ProcessRef::request`, which waits for the reply's tag and leaves other messages in the mailbox).
-/
namespace Puck.Chat

/-- examples/chat/src/main.rs:111-138 and :153-172: the request that `update` makes, if it makes one. -/
def Live.ask : Live → LiveviewInput → Nat → Option CoordinatorInput
  | .uninitialized username, .browserRequest .initializeUser, me => some (.registerNewUser username me)
  | .initialized _ id _ composing, .browserRequest .sendTextMessage, _ => some (.sendMessage id composing)
  | _, _, _ => none

/-- examples/chat/src/main.rs:124-134 (registration: `unreachable!()` unless it is a `UserRegistered`) and :169 (`self.update(res, context)`): what `update` does
with the reply.  Simplified: a reply that is itself the browser's wish to send would be asked again; the coordinator makes no such reply. -/
def Live.answer : Live → LiveviewInput → LiveviewInput → Option Live
  | .uninitialized _, .browserRequest .initializeUser, .userRegistered id username => some (.initialized username id [] "")
  | .uninitialized _, .browserRequest .initializeUser, _ => none
  | l, _, reply => l.updateLocal reply

/-- examples/chat/src/main.rs:57-326 as a `Component` without the coordinator: its effects are the requests it makes, and `reply` is what comes back. -/
def asker (reply : LiveviewInput) : Component Unit LiveviewInput (Option Live) CoordinatorInput Nat where
  new := fun _ _ => (some (.uninitialized ""), [])
  update := fun s i me =>
    match s with
    | none => (none, [])
    | some l =>
      match l.ask i me with
      | none => (l.updateLocal i, [])
      | some q => (l.answer i reply, [q])
  render := fun s =>
    match s with
    | none => (.blank 0 "", fun _ => none)
    | some l => l.render

/-- A component's loop, without the coordinator. Used for puck_liveview/src/component/mod.rs:90-186. -/
abbrev FinePhase := Phase Unit LiveviewInput (Option Live) Nat

/-- The first request among the outputs. Used for examples/chat/src/main.rs:65-189. -/
def firstRequest : List (Out CoordinatorInput) → Option CoordinatorInput
  | [] => none
  | .effect q :: _ => some q
  | _ :: os => firstRequest os

/-- The request that the loop makes while it handles message `m`: in `update`, or, when the loop returns, in `drop` (examples/chat/src/main.rs:328-346).  No
request depends on its own reply, so any reply will do here. -/
def requestOf (parse : String → Option ClientMessage) (firstSend : Bool) (ph : FinePhase) (m : Mail LiveviewInput Nat) : Option CoordinatorInput :=
  match ph, (loopStep (asker .closed) parse firstSend ph m).1 with
  | .running st, .stopped =>
    match st.comp with
    | some (.initialized _ id _ _) => some (.removeUser id)
    | _ => none
  | _, _ => firstRequest (loopStep (asker .closed) parse firstSend ph m).2

/-- Where a component's process is with respect to the coordinator: not waiting; waiting for the reply to the request it made while handling `m`; or the
reply has arrived in its mailbox. Used for examples/chat/src/main.rs:342. -/
inductive Talk where
  | free
  | asked (m : Mail LiveviewInput Nat)
  | answered (m : Mail LiveviewInput Nat) (reply : LiveviewInput)

/-- What there is for one connection (compare `UserProcs`); `alive` is false when the component's process has been killed.
Used for puck_liveview/src/component/mod.rs:51-88. -/
structure FineProcs where
  inbox : List LiveviewInput
  loop : FinePhase
  loopBox : List (Mail LiveviewInput Nat)
  talk : Talk
  alive : Bool
  sent : List (List WireOp)

/-- What the coordinator is doing: whose request it is serving, the reply to be sent at the end, and the broadcasts still to be sent.
Used for examples/chat/src/main.rs:431-466. -/
structure Serving where
  client : Nat
  reply : LiveviewInput
  outbox : List Delivery

/-- The whole application: the coordinator's state, its mailbox, what it is doing, whether it has panicked, and the connections.
Used for examples/chat/src/main.rs:412-416. -/
structure FineNet where
  srv : ChatServer
  queue : List (Nat × CoordinatorInput)
  serving : Option Serving
  dead : Bool
  users : Nat → Option FineProcs

/-- The beginning. Used for examples/chat/src/main.rs:423-425, :470. -/
def FineNet.init : FineNet := ⟨.init, [], none, false, fun _ => none⟩

/-- Replace one connection. Used for puck_liveview/src/component/mod.rs:57-87. -/
def FineNet.set (n : FineNet) (k : Nat) (u : FineProcs) : FineNet := { n with users := fun j => if j = k then some u else n.users j }

/-- `proc.send(msg)`. Used for examples/chat/src/main.rs:454. -/
def FineNet.deliver (n : FineNet) (d : Delivery) : FineNet :=
  match n.users d.to with
  | none => n
  | some u => n.set d.to { u with inbox := u.inbox ++ [d.msg] }

/-- One step of one process. Used for puck_liveview/src/component/mod.rs:51-186 and examples/chat/src/main.rs:431-466. -/
inductive FineStep (parse : String → Option ClientMessage) (firstSend : Nat → Bool) : FineNet → FineNet → Prop
  /-- a browser connects: `manage` starts the processes and sends the loop its identity (component/mod.rs:51-88) -/
  | connect (n : FineNet) (k : Nat) : n.users k = none →
      FineStep parse firstSend n (n.set k ⟨[], .waiting (), [.whoAmI k], .free, true, []⟩)
  /-- the managing process forwards a message (component/mod.rs:83-86) -/
  | forward (n : FineNet) (k : Nat) (u : FineProcs) (i : LiveviewInput) (rest : List LiveviewInput) : n.users k = some u → u.inbox = i :: rest →
      FineStep parse firstSend n (n.set k { u with inbox := rest, loopBox := u.loopBox ++ [.input i] })
  /-- the reader process passes on whatever the browser sent, or an error (component/mod.rs:70-80) -/
  | read (n : FineNet) (k : Nat) (u : FineProcs) (m : Except NextMessageError Message) : n.users k = some u →
      FineStep parse firstSend n (n.set k { u with loopBox := u.loopBox ++ [.ws m] })
  /-- the component's loop takes a message and handles it without a request -/
  | work (n : FineNet) (k : Nat) (u : FineProcs) (m : Mail LiveviewInput Nat) (rest : List (Mail LiveviewInput Nat)) : n.users k = some u →
      u.alive = true → u.talk = .free → u.loopBox = m :: rest → requestOf parse (firstSend k) u.loop m = none →
      FineStep parse firstSend n (n.set k { u with
        loop := (loopStep (asker .closed) parse (firstSend k) u.loop m).1
        loopBox := rest
        sent := u.sent ++ sends (loopStep (asker .closed) parse (firstSend k) u.loop m).2 })
  /-- the component's loop takes a message, makes a request, and waits -/
  | ask (n : FineNet) (k : Nat) (u : FineProcs) (m : Mail LiveviewInput Nat) (rest : List (Mail LiveviewInput Nat)) (q : CoordinatorInput) :
      n.users k = some u → u.alive = true → u.talk = .free → u.loopBox = m :: rest → requestOf parse (firstSend k) u.loop m = some q →
      FineStep parse firstSend n { n.set k { u with loopBox := rest, talk := .asked m } with queue := n.queue ++ [(k, q)] }
  /-- the coordinator takes a request and works out its new state, its broadcasts and its reply (examples/chat/src/main.rs:431-466) -/
  | serve (n : FineNet) (k : Nat) (q : CoordinatorInput) (queue : List (Nat × CoordinatorInput)) (srv : ChatServer) (reply : LiveviewInput)
      (ds : List Delivery) : n.dead = false → n.serving = none → n.queue = (k, q) :: queue → n.srv.handle q = some (srv, reply, ds) →
      FineStep parse firstSend n { n with srv := srv, queue := queue, serving := some ⟨k, reply, ds⟩ }
  /-- the coordinator panics at the `unwrap` of line 448 -/
  | panic (n : FineNet) (k : Nat) (q : CoordinatorInput) (queue : List (Nat × CoordinatorInput)) : n.dead = false → n.serving = none →
      n.queue = (k, q) :: queue → n.srv.handle q = none →
      FineStep parse firstSend n { n with dead := true, queue := queue }
  /-- the coordinator sends one of its broadcasts (line 454) -/
  | send (n : FineNet) (k : Nat) (reply : LiveviewInput) (d : Delivery) (ds : List Delivery) : n.serving = some ⟨k, reply, d :: ds⟩ →
      FineStep parse firstSend n ({ n with serving := some ⟨k, reply, ds⟩ }.deliver d)
  /-- the coordinator sends its reply -/
  | reply (n : FineNet) (k : Nat) (r : LiveviewInput) (u : FineProcs) (m : Mail LiveviewInput Nat) : n.serving = some ⟨k, r, []⟩ →
      n.users k = some u → u.talk = .asked m →
      FineStep parse firstSend n ({ n with serving := none }.set k { u with talk := .answered m r })
  /-- the component's process receives the reply and finishes what it was doing -/
  | resume (n : FineNet) (k : Nat) (u : FineProcs) (m : Mail LiveviewInput Nat) (r : LiveviewInput) : n.users k = some u → u.alive = true →
      u.talk = .answered m r →
      FineStep parse firstSend n (n.set k { u with
        loop := (loopStep (asker r) parse (firstSend k) u.loop m).1
        talk := .free
        sent := u.sent ++ sends (loopStep (asker r) parse (firstSend k) u.loop m).2 })
  /-- a component's process is killed from outside, at any moment: nothing is dropped, and a request it has made stays where it is -/
  | die (n : FineNet) (k : Nat) (u : FineProcs) : n.users k = some u → FineStep parse firstSend n (n.set k { u with alive := false })
  /-- the iteration order of the coordinator's map changes -/
  | shuffle (n : FineNet) (users : List (Nat × String × Nat)) : n.srv.users.Perm users →
      FineStep parse firstSend n { n with srv := { n.srv with users := users } }

/-- Any number of steps. Used for puck_liveview/src/component/mod.rs:51-186. -/
inductive FineSteps (parse : String → Option ClientMessage) (firstSend : Nat → Bool) : FineNet → FineNet → Prop
  | refl (n) : FineSteps parse firstSend n n
  | snoc {a b c} : FineSteps parse firstSend a b → FineStep parse firstSend b c → FineSteps parse firstSend a c

end Puck.Chat
