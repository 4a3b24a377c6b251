import Verif.Model.ListApp
import Verif.Model.Init
/-!
# `examples/list/src/main.rs`: the connections' processes and the list process, running concurrently

`Model/ListApp.lean` runs the handlers one after the other.  Here each connection has a process of its own (puck/src/core/mod.rs:45-66) which
reads its request, asks the list process (`ProcessRef::request`: a message to its mailbox, then waiting for the reply) and writes its
answer; the processes are interleaved in any way.  Not modelled: the HTML text of the pages (crate `malvolio`), which is the
parameter `html`.
-/
namespace Puck

/-- The steps of a connection's process. Used for puck/src/core/mod.rs:44-66 with examples/list/src/main.rs:24-130. -/
inductive ListConn where
  /-- spawned: what the client sends, and the socket's output -/
  | fresh (raw : Raw) (s : Sink)
  /-- inside `state.request(msg)`: the message is sent, no reply yet -/
  | waiting (msg : ListMsg) (s : Sink)
  /-- the reply has come -/
  | replied (msg : ListMsg) (reply : ListReply) (s : Sink)
  /-- ended -/
  | done (o : Outcome Unit Unit) (s : Sink)

/-- examples/list/src/main.rs:34-46, :69-79, :105-122: a page, sent with status 200. -/
def listResponse (html : ListPage → String) (page : ListPage) : Response :=
  ((ResponseBuilder.new.addHeaders [("Content-Type", "text/html")]).setBody (Body.fromString (html page))).build

/-- puck/src/core/mod.rs:50-64 and examples/list/src/main.rs:23-130: a connection's process up to its end (`Sum.inl`) or up to the request it
makes of the list process (`Sum.inr`). -/
def listBegin (env : HttpEnv) (html : ListPage → String) (sched : Nat → Nat) (raw : Raw) (s : Sink) :
    (Outcome Unit Unit × Sink) ⊕ ListMsg :=
  match Request.parse env raw with
  | .error _ => .inl (.panic, s)
  | .ok none =>
    match Stream.respond env false err400 s with
    | (.panic, s') => .inl (.panic, s')
    | (_, s') => .inl (.ok (), s')
  | .ok (some req) =>
    if req.method = .get && doesMatch [.static "submit"] req.url then .inl (respondUnwrap env (listResponse html .form) s)
    else if req.method = .post && doesMatch [.static "submit"] req.url then
      match req.body.intoString env.W sched with
      | .ok res =>
        if startsWith "message=" res then
          match splitAtSnd (strBytes "message=").length res with
          | none => .inl (.panic, s)
          | some seg => .inr (.add seg)
        else .inl (respondUnwrap env err400 s)
      | _ => .inl (.panic, s)
    else if doesMatch [.static "read", .intParam] req.url then
      match splitAtSnd (strBytes "/read/").length req.url.path with
      | none => .inl (.panic, s)
      | some segment =>
        match parseUsize env.W segment with
        | none => .inl (.panic, s)
        | some n => .inr (.lastN n)
    else .inl (respondUnwrap env err404 s)

/-- examples/list/src/main.rs:65-82 and :99-124: what the handler that sent `msg` does with the reply. -/
def listEnd (env : HttpEnv) (html : ListPage → String) (msg : ListMsg) (reply : ListReply) (s : Sink) : Outcome Unit Unit × Sink :=
  match msg, reply with
  | .add _, .items _ => (.panic, s)
  | .add _, .added => respondUnwrap env (listResponse html .added) s
  | _, .added => (.panic, s)
  | _, .items l => respondUnwrap env (listResponse html (if l.isEmpty then .noMessages else .messages l)) s

/-- The list process (its items, and its mailbox: who asked, and what) and the connections' processes, in the order accepted.
Used for examples/list/src/main.rs:21, :144-146 and puck/src/core/mod.rs:41-68. -/
structure ListNet where
  items : List String
  mailbox : List (Nat × ListMsg)
  conns : List ListConn

/-- examples/list/src/main.rs:21 `List::start(vec![], None)`. -/
def ListNet.init : ListNet := ⟨[], [], []⟩

/-- What happens next: a connection is accepted; process `k` runs until it waits or ends; the list process handles the first message in its
mailbox; process `k`, having got its reply, runs to its end. Used for puck/src/core/mod.rs:44-66 with examples/list/src/main.rs:158-177. -/
inductive ListAct where
  | accept (raw : Raw) (s : Sink)
  | start (k : Nat)
  | serve
  | finish (k : Nat)

/-- puck/src/core/mod.rs:45-66, examples/list/src/main.rs:20-177: one step of the accept loop, of a connection's process or of the list
process.  A step that is not possible does nothing.  A panic ends the connection's process alone (it is not linked). -/
def ListNet.step (env : HttpEnv) (html : ListPage → String) (sched : Nat → Nat) (n : ListNet) : ListAct → ListNet
  | .accept raw s => { n with conns := n.conns ++ [.fresh raw s] }
  | .start k =>
    match n.conns[k]? with
    | some (.fresh raw s) =>
      match listBegin env html sched raw s with
      | .inl (o, s') => { n with conns := n.conns.set k (.done o s') }
      | .inr msg => { n with conns := n.conns.set k (.waiting msg s), mailbox := n.mailbox ++ [(k, msg)] }
    | _ => n
  | .serve =>
    match n.mailbox with
    | [] => n
    | (k, msg) :: rest =>
      let r := listHandle n.items msg
      match n.conns[k]? with
      | some (.waiting msg' s) => ⟨r.1, rest, n.conns.set k (.replied msg' r.2 s)⟩
      | _ => ⟨r.1, rest, n.conns⟩
  | .finish k =>
    match n.conns[k]? with
    | some (.replied msg r s) =>
      { n with conns := n.conns.set k (.done (listEnd env html msg r s).1 (listEnd env html msg r s).2) }
    | _ => n

/-- A whole history of the list server. Used for puck/src/core/mod.rs:44-67. -/
def ListNet.exec (env : HttpEnv) (html : ListPage → String) (sched : Nat → Nat) (acts : List ListAct) : ListNet :=
  acts.foldl (ListNet.step env html sched) ListNet.init

end Puck
