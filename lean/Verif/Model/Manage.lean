import Verif.Model.Component
/-!
# `puck_liveview/src/component/mod.rs:51-88 manage`: the three processes of a component

Every process is cut at its calls to `send`, `receive`, `spawn` and `websocket.next()`; the processes run in any order
(`NetStep` is one step of one of them).  Mailboxes are first-in first-out, as in Lunatic.
-/
namespace Puck

/-- Where the managing process is (component/mod.rs:60-86). -/
inductive ManagerAt where
  | start | spawned | told | forwarding
  deriving DecidableEq

/-- All processes of one component: the manager and its mailbox; the loop, its mailbox and what it has made visible;
the reader with its socket.  `sent`, `got` and `received` are history, which no process looks at: the inputs sent to
the manager, the results the reader was given, and the messages the loop has received. Used for puck_liveview/src/component/mod.rs:51-88. -/
structure Net (D I S E P R : Type) where
  manager : ManagerAt
  inbox : List I
  loop : Phase D I S P
  loopBox : List (Mail I P)
  outs : List (Out E)
  reader : Option R
  sent : List I
  got : List (Except NextMessageError Message)
  received : List (Mail I P)

variable {D I S E P R : Type}

/-- The moment the manager starts. Used for puck_liveview/src/component/mod.rs:57-67. -/
def Net.init (data : D) : Net D I S E P R := ⟨.start, [], .waiting data, [], [], none, [], [], []⟩

/-- What one component is made of: the component, the JSON reader, whether the first send succeeds, the manager's own handle,
the socket, and how the socket answers `next`. Used for puck_liveview/src/component/mod.rs:51-56, :111-113. -/
structure NetEnv (D I S E P R : Type) where
  comp : Component D I S E P
  parse : String → Option ClientMessage
  firstSend : Bool
  me : P
  socket : R
  next : R → Option (Except NextMessageError Message) → R → Prop

/-- component/mod.rs:51-88: one step of one process. -/
inductive NetStep (N : NetEnv D I S E P R) : Net D I S E P R → Net D I S E P R → Prop
  /-- anyone (also the component itself) sends an input to the process that `manage` returns -/
  | outside (n : Net D I S E P R) (i : I) : NetStep N n { n with inbox := n.inbox ++ [i], sent := n.sent ++ [i] }
  /-- lines 63-66 -/
  | spawnLoop (n : Net D I S E P R) : n.manager = .start → NetStep N n { n with manager := .spawned }
  /-- line 68 -/
  | tell (n : Net D I S E P R) : n.manager = .spawned →
      NetStep N n { n with manager := .told, loopBox := n.loopBox ++ [.whoAmI N.me] }
  /-- lines 70-80 -/
  | spawnReader (n : Net D I S E P R) : n.manager = .told → NetStep N n { n with manager := .forwarding, reader := some N.socket }
  /-- lines 83-86 -/
  | forward (n : Net D I S E P R) (i : I) (rest : List I) : n.manager = .forwarding → n.inbox = i :: rest →
      NetStep N n { n with inbox := rest, loopBox := n.loopBox ++ [.input i] }
  /-- lines 74-77 -/
  | read (n : Net D I S E P R) (r r' : R) (m : Except NextMessageError Message) : n.reader = some r → N.next r (some m) r' →
      NetStep N n { n with reader := some r', loopBox := n.loopBox ++ [.ws m], got := n.got ++ [m] }
  /-- lines 74-75, when `next` returns `None` -/
  | readNone (n : Net D I S E P R) (r r' : R) : n.reader = some r → N.next r none r' → NetStep N n { n with reader := some r' }
  /-- a panic in `next` ends the reader only -/
  | readerDies (n : Net D I S E P R) (r : R) : n.reader = some r → NetStep N n { n with reader := none }
  /-- lines 98 and 117 -/
  | receive (n : Net D I S E P R) (m : Mail I P) (rest : List (Mail I P)) : n.manager ≠ .start → n.loopBox = m :: rest →
      NetStep N n { n with
        loopBox := rest
        loop := (loopStep N.comp N.parse N.firstSend n.loop m).1
        outs := n.outs ++ (loopStep N.comp N.parse N.firstSend n.loop m).2
        received := n.received ++ [m] }

/-- Any number of steps. Used for puck_liveview/src/component/mod.rs:51-88. -/
inductive NetSteps (N : NetEnv D I S E P R) : Net D I S E P R → Net D I S E P R → Prop
  | refl (n) : NetSteps N n n
  | snoc {a b c} : NetSteps N a b → NetStep N b c → NetSteps N a c

/-- puck/src/ws/websocket.rs:85-118 as the reader's socket: its own copy of the state, the shared connection. -/
def socketNext (W : Nat) (r : WsState × Conn) (m : Option (Except NextMessageError Message)) (r' : WsState × Conn) : Prop :=
  match WebSocket.next W r.1 r.2 with
  | (.ok msg, st, c) => m = some (.ok msg) ∧ r' = (st, c)
  | (.err e, st, c) => m = some (.error e) ∧ r' = (st, c)
  | (.panic, _, _) => False

end Puck
