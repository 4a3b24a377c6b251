import Verif.Model.Component
/-!
# `examples/chat/src/main.rs`

The coordinator (`ChatServerState`) is one process; every browser connection has the processes of `manage`
(component/mod.rs) around a `LiveviewComponent`.

Not modelled: overflow of the `u64` in `get_id`.  The routes of `main` (lines 469-495) are `chatRoutes` in Model/Init.lean.
-/
namespace Puck.Chat

/-- examples/chat/src/main.rs:19-25 `ChatMessage` (`UserId` is a number, `Username` a string: lines 381-385). -/
structure ChatMessage where
  sender : Nat
  username : String
  contents : String
  deriving DecidableEq, Repr

/-- examples/chat/src/main.rs:364-371 `BrowserRequest`. -/
inductive BrowserRequest where
  | updateInitializeUsernameTextField (v : String)
  | initializeUser
  | updateMessageContentsTextField (v : String)
  | sendTextMessage
  deriving DecidableEq, Repr

/-- examples/chat/src/main.rs:355-362 `LiveviewInput`. -/
inductive LiveviewInput where
  | userRegistered (id : Nat) (username : String)
  | updatedUsername (username : String)
  | receiveMessage (m : ChatMessage)
  | browserRequest (r : BrowserRequest)
  | closed
  deriving DecidableEq, Repr

/-- examples/chat/src/main.rs:373-379 `CoordinatorInput`; a process handle is a number. -/
inductive CoordinatorInput where
  | registerNewUser (username : String) (proc : Nat)
  | setUsername (id : Nat) (username : String)
  | sendMessage (id : Nat) (contents : String)
  | removeUser (id : Nat)
  deriving DecidableEq, Repr

/-- examples/chat/src/main.rs:387-392 `UserIdCreator`: `inUse` is a `HashSet` (no repetitions, order irrelevant); `recycle` is a `Vec`, kept here with its last
element first. -/
structure UserIdCreator where
  inUse : List Nat
  recycle : List Nat
  head : Nat
  deriving DecidableEq, Repr

/-- `#[derive(Default)]`, examples/chat/src/main.rs:387. -/
def UserIdCreator.default : UserIdCreator := ⟨[], [], 0⟩

/-- `HashSet::insert`. Used for examples/chat/src/main.rs:401. -/
def setInsert (id : Nat) (l : List Nat) : List Nat := if id ∈ l then l else id :: l

/-- examples/chat/src/main.rs:395-403 `get_id`. -/
def UserIdCreator.getId (c : UserIdCreator) : Nat × UserIdCreator :=
  match c.recycle with
  | id :: rest => (id, ⟨setInsert id c.inUse, rest, c.head⟩)
  | [] => (c.head, ⟨setInsert c.head c.inUse, [], c.head + 1⟩)

/-- examples/chat/src/main.rs:405-409 `release_id`. -/
def UserIdCreator.releaseId (id : Nat) (c : UserIdCreator) : UserIdCreator :=
  if id ∈ c.inUse then ⟨c.inUse.filter (· != id), id :: c.recycle, c.head⟩ else c

/-- examples/chat/src/main.rs:412-416 `ChatServerState`.  `users` is a `HashMap`: an association list with distinct keys in iteration order, which may be any
order (`Serves.shuffle`, `ChatStep.shuffle`).  `log` and `joined` are history, which nobody looks at: the messages accepted so far, and for each
registration the process and how many messages had been accepted before. -/
structure ChatServer where
  users : List (Nat × String × Nat)
  idGen : UserIdCreator
  log : List ChatMessage
  joined : List (Nat × Nat)
  deriving DecidableEq, Repr

/-- examples/chat/src/main.rs:423-425 `init`. -/
def ChatServer.init : ChatServer := ⟨[], .default, [], []⟩

/-- `HashMap::get`. Used for examples/chat/src/main.rs:448. -/
def getUser (id : Nat) (users : List (Nat × String × Nat)) : Option (String × Nat) := (users.find? fun u => u.1 == id).map (·.2)

/-- `HashMap::insert`. Used for examples/chat/src/main.rs:435. -/
def insertUser (id : Nat) (v : String × Nat) : List (Nat × String × Nat) → List (Nat × String × Nat)
  | [] => [(id, v)]
  | u :: us => if u.1 = id then (id, v) :: us else u :: insertUser id v us

/-- A message to a process: examples/chat/src/main.rs:454 `proc.send`. -/
structure Delivery where
  to : Nat
  msg : LiveviewInput
  deriving DecidableEq, Repr

/-- examples/chat/src/main.rs:431-466 `handle`: the new state, the response and the messages sent, in order.  `none` is the panic of the `unwrap` on line 448. -/
def ChatServer.handle (s : ChatServer) : CoordinatorInput → Option (ChatServer × LiveviewInput × List Delivery)
  | .registerNewUser username proc =>
    let g := s.idGen.getId
    some (⟨insertUser g.1 (username, proc) s.users, g.2, s.log, s.joined ++ [(proc, s.log.length)]⟩, .userRegistered g.1 username, [])
  | .setUsername id username =>
    some (⟨s.users.map fun u => if u.1 = id then (u.1, username, u.2.2) else u, s.idGen, s.log, s.joined⟩, .updatedUsername username, [])
  | .sendMessage id message =>
    match getUser id s.users with
    | none => none
    | some u =>
      let m : ChatMessage := ⟨id, u.1, message⟩
      some (⟨s.users, s.idGen, s.log ++ [m], s.joined⟩, .receiveMessage m, (s.users.filter fun u => u.1 != id).map fun u => ⟨u.2.2, .receiveMessage m⟩)
  | .removeUser id => some (⟨s.users.filter fun u => u.1 != id, s.idGen.releaseId id, s.log, s.joined⟩, .closed, [])

/-- examples/chat/src/main.rs:27-39 `LiveviewComponent` (without `orchestrator`: there is one coordinator). -/
inductive Live where
  | uninitialized (username : String)
  | initialized (username : String) (userId : Nat) (messages : List ChatMessage) (composing : String)
  deriving DecidableEq, Repr

/-- examples/chat/src/main.rs:65-189 `update` for the inputs that make no request; `none` is the `unreachable!()` of line 186.  The arms are tried in the
order of the code. -/
def Live.updateLocal : Live → LiveviewInput → Option Live
  | .uninitialized _, .userRegistered id username => some (.initialized username id [] "")
  | .initialized u id ms c, .receiveMessage m => some (.initialized u id (ms ++ [m]) c)
  | .uninitialized u, .receiveMessage _ => some (.uninitialized u)
  | .initialized _ id ms c, .updatedUsername new => some (.initialized new id ms c)
  | .uninitialized _, .browserRequest (.updateInitializeUsernameTextField v) => some (.uninitialized v)
  | l, .closed => some l
  | .initialized u id ms _, .browserRequest (.updateMessageContentsTextField v) => some (.initialized u id ms v)
  | _, _ => none

/-- examples/chat/src/main.rs:65-189 `update`, in process `me`, together with the coordinator, whose answer the component waits for.  `none`: one of the
two panics (`unreachable!()` in the component; `unwrap` in the coordinator). -/
def Live.update (l : Live) (i : LiveviewInput) (me : Nat) (srv : ChatServer) : Option (Live × ChatServer × List Delivery) :=
  match l, i with
  | .uninitialized username, .browserRequest .initializeUser =>
    match srv.handle (.registerNewUser username me) with
    | some (srv', .userRegistered id username', ds) => some (.initialized username' id [] "", srv', ds)
    | _ => none
  | .initialized u id ms c, .browserRequest .sendTextMessage =>
    match srv.handle (.sendMessage id c) with
    | some (srv', res, ds) => (Live.updateLocal (.initialized u id ms c) res).map fun l' => (l', srv', ds)
    | none => none
  | l, i => (l.updateLocal i).map fun l' => (l', srv, [])

/-- examples/chat/src/main.rs:204-221, :262-284: an input inside a `div`. -/
def inputDiv (attrs : Headers) (l : ListenerRef) : WrappedBodyNode :=
  (BodyNode.wrap (.div [])).child ((BodyNode.wrap (.input attrs)).listener l)

/-- examples/chat/src/main.rs:285-296: one message. -/
def messageDiv (m : ChatMessage) : WrappedBodyNode :=
  ((BodyNode.wrap (.div [])).child
      (BodyNode.wrap (.h3 ⟨[], "Message from " ++ m.username ++ " (user id: " ++ toString m.sender ++ ")"⟩))).child
    (BodyNode.wrap (.p ⟨[], m.contents⟩))

/-- examples/chat/src/main.rs:191-297 `render`: the view (before `into_element`). -/
def Live.view : Live → WrappedBodyNode
  | .uninitialized username =>
    ((BodyNode.wrap (.div [])).child
        (inputDiv [("type", "text"), ("placeholder", "username..."), ("value", username)] ⟨"set_username", "input"⟩)).child
      (inputDiv [("type", "submit")] ⟨"initialize_username", "click"⟩)
  | .initialized username id messages composing =>
    ((BodyNode.wrap (.div [])).child
        ((((BodyNode.wrap (.div [])).child
            (BodyNode.wrap (.p ⟨[], "Hello " ++ username ++ " (user_id: " ++ toString id ++ ")!"⟩))).child
          (inputDiv [("value", composing), ("type", "text"), ("placeholder", "send a new message...")]
            ⟨"update_message_contents", "input"⟩)).child
          (inputDiv [("type", "submit"), ("value", "send message")] ⟨"submit_message", "click"⟩))).withChildren
      (messages.map messageDiv)

/-- examples/chat/src/main.rs:223-244 and :298-322: the listeners. -/
def Live.listeners : Live → String → Option (Listener LiveviewInput)
  | .uninitialized _, name =>
    if name = "set_username" then some (.input fun v => .browserRequest (.updateInitializeUsernameTextField v))
    else if name = "initialize_username" then some (.click (.browserRequest .initializeUser))
    else none
  | .initialized _ _ _ _, name =>
    if name = "update_message_contents" then some (.input fun v => .browserRequest (.updateMessageContentsTextField v))
    else if name = "submit_message" then some (.click (.browserRequest .sendTextMessage))
    else none

/-- examples/chat/src/main.rs:191-325 `render`.  `into_element` never panics here (`view_element`), so the default is not used. -/
def Live.render (l : Live) : Element × (String → Option (Listener LiveviewInput)) :=
  (((intoElement l.view 0).map (·.1)).getD (.blank 0 ""), l.listeners)

/-- examples/chat/src/main.rs:57-326 as a `Component`, seen together with the coordinator: its state is the component's and the coordinator's state (`none`: one of
them has panicked), its effects are the messages the coordinator sends. -/
def chatComponent : Component ChatServer LiveviewInput (Option (Live × ChatServer)) Delivery Nat where
  new := fun srv _ => (some (.uninitialized "", srv), [])
  update := fun s i me =>
    match s with
    | none => (none, [])
    | some (l, srv) =>
      match l.update i me srv with
      | none => (none, [])
      | some (l', srv', ds) => (some (l', srv'), ds)
  render := fun s =>
    match s with
    | none => (.blank 0 "", fun _ => none)
    | some (l, _) => l.render

/-- What there is for one connection: the inbox of the managing process, the component loop, and its mailbox; and, as history, what has been sent to the browser.
Used for puck_liveview/src/component/mod.rs:51-88. -/
structure UserProcs where
  inbox : List LiveviewInput
  loop : Phase ChatServer LiveviewInput (Option (Live × ChatServer)) Nat
  loopBox : List (Mail LiveviewInput Nat)
  sent : List (List WireOp)

/-- The whole application: the coordinator and the connections so far, by the handle of their managing process.
Used for examples/chat/src/main.rs:412-416, :469-495. -/
structure ChatNet where
  srv : ChatServer
  users : Nat → Option UserProcs

/-- The beginning. Used for examples/chat/src/main.rs:423-425, :470. -/
def ChatNet.init : ChatNet := ⟨.init, fun _ => none⟩

/-- Replace one connection. Used for puck_liveview/src/component/mod.rs:57-87. -/
def ChatNet.set (n : ChatNet) (k : Nat) (u : UserProcs) : ChatNet := { n with users := fun j => if j = k then some u else n.users j }

/-- `proc.send(msg)`: into the inbox; a handle that is not a process swallows the message. Used for examples/chat/src/main.rs:454. -/
def ChatNet.deliver (n : ChatNet) (d : Delivery) : ChatNet :=
  match n.users d.to with
  | none => n
  | some u => n.set d.to { u with inbox := u.inbox ++ [d.msg] }

/-- The messages among the outputs. Used for examples/chat/src/main.rs:452-456. -/
def effects : List (Out Delivery) → List Delivery
  | [] => []
  | .effect d :: os => d :: effects os
  | _ :: os => effects os

/-- The component loop works on the coordinator as it is now. Used for examples/chat/src/main.rs:342, :431. -/
def withServer (srv : ChatServer) : Phase ChatServer LiveviewInput (Option (Live × ChatServer)) Nat →
    Phase ChatServer LiveviewInput (Option (Live × ChatServer)) Nat
  | .waiting _ => .waiting srv
  | .running st => .running { st with comp := st.comp.map fun c => (c.1, srv) }
  | ph => ph

/-- The coordinator afterwards.  When the loop has returned, the component has been dropped: examples/chat/src/main.rs:328-346 `drop` (the component is the one
before the step). -/
def serverAfter (srv : ChatServer) (before after : Phase ChatServer LiveviewInput (Option (Live × ChatServer)) Nat) : ChatServer :=
  match before, after with
  | _, .running st => (st.comp.map (·.2)).getD srv
  | .running st, .stopped =>
    match st.comp with
    | some (.initialized _ id _ _, _) => ((srv.handle (.removeUser id)).map (·.1)).getD srv
    | _ => srv
  | _, _ => srv

/-- The component loop of connection `k` handles message `m`, leaving `rest` in its mailbox: puck_liveview/src/component/mod.rs:90-186 for one message, with
what `update`, `send` and `drop` do to the coordinator and the other connections (examples/chat/src/main.rs:65-189, :328-346, :431-466). -/
def ChatNet.receive (n : ChatNet) (parse : String → Option ClientMessage) (firstSend : Nat → Bool) (k : Nat) (u : UserProcs)
    (m : Mail LiveviewInput Nat) (rest : List (Mail LiveviewInput Nat)) : ChatNet :=
  (effects (loopStep chatComponent parse (firstSend k) (withServer n.srv u.loop) m).2).foldl ChatNet.deliver
    ((⟨serverAfter n.srv u.loop (loopStep chatComponent parse (firstSend k) (withServer n.srv u.loop) m).1, n.users⟩ : ChatNet).set k
      ⟨u.inbox, (loopStep chatComponent parse (firstSend k) (withServer n.srv u.loop) m).1, rest,
        u.sent ++ sends (loopStep chatComponent parse (firstSend k) (withServer n.srv u.loop) m).2⟩)

/-- One step of the application: component/mod.rs:51-88 for each connection (see `NetStep`), with the coordinator.  A component's step is one
step together with the request it makes, since it waits for the answer and makes at most one request. -/
inductive ChatStep (parse : String → Option ClientMessage) (firstSend : Nat → Bool) : ChatNet → ChatNet → Prop
  /-- a browser connects: `manage` starts the processes and sends the loop its identity -/
  | connect (n : ChatNet) (k : Nat) : n.users k = none →
      ChatStep parse firstSend n (n.set k ⟨[], .waiting n.srv, [.whoAmI k], []⟩)
  /-- the managing process forwards a message -/
  | forward (n : ChatNet) (k : Nat) (u : UserProcs) (i : LiveviewInput) (rest : List LiveviewInput) : n.users k = some u → u.inbox = i :: rest →
      ChatStep parse firstSend n (n.set k { u with inbox := rest, loopBox := u.loopBox ++ [.input i] })
  /-- the reader process passes on whatever the browser sent, or an error -/
  | read (n : ChatNet) (k : Nat) (u : UserProcs) (m : Except NextMessageError Message) : n.users k = some u →
      ChatStep parse firstSend n (n.set k { u with loopBox := u.loopBox ++ [.ws m] })
  /-- the component loop handles a message -/
  | receive (n : ChatNet) (k : Nat) (u : UserProcs) (m : Mail LiveviewInput Nat) (rest : List (Mail LiveviewInput Nat)) :
      n.users k = some u → u.loopBox = m :: rest →
      ChatStep parse firstSend n (n.receive parse firstSend k u m rest)
  /-- a component's process is killed from outside: it is over, and nothing is dropped -/
  | die (n : ChatNet) (k : Nat) (u : UserProcs) : n.users k = some u → ChatStep parse firstSend n (n.set k { u with loop := .stopped })
  /-- the iteration order of the coordinator's map changes -/
  | shuffle (n : ChatNet) (users : List (Nat × String × Nat)) : n.srv.users.Perm users →
      ChatStep parse firstSend n { n with srv := { n.srv with users := users } }

/-- Any number of steps. Used for puck_liveview/src/component/mod.rs:51-88. -/
inductive ChatSteps (parse : String → Option ClientMessage) (firstSend : Nat → Bool) : ChatNet → ChatNet → Prop
  | refl (n) : ChatSteps parse firstSend n n
  | snoc {a b c} : ChatSteps parse firstSend a b → ChatStep parse firstSend b c → ChatSteps parse firstSend a c

end Puck.Chat
