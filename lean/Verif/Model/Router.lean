import Verif.Model.Upgrade
/-!
# `puck/src/core/` : routing and serving
-/
namespace Puck

/-- puck/src/core/router/match_url.rs:66-73 `Segment`. -/
inductive Segment where
  | static (s : String)
  | param
  | intParam
  deriving DecidableEq, Repr

/-- `str::split('/')` on characters: always at least one piece. Used for puck/src/core/router/match_url.rs:28. -/
def splitSlash : List Char → List (List Char)
  | [] => [[]]
  | c :: cs =>
    if c = '/' then [] :: splitSlash cs
    else
      match splitSlash cs with
      | [] => [[c]]
      | p :: ps => (c :: p) :: ps

/-- `Url::path_segments` (crate `url`): `None` unless the path starts with `/`; otherwise the pieces of
the rest. Used for puck/src/core/router/match_url.rs:28. -/
def Url.pathSegments (u : Url) : Option (List String) :=
  match u.path.toList with
  | '/' :: rest => some ((splitSlash rest).map String.ofList)
  | _ => none

/-- puck/src/core/router/match_url.rs:47-59: one segment. -/
def Segment.accepts : Segment → String → Bool
  | .static s, a => s == a
  | .param, _ => true
  | .intParam, a => (parseI32 a).isSome

/-- puck/src/core/router/match_url.rs:34-60: the loop over both iterators. -/
def matchLoop : List Segment → List String → Bool
  | [], actual => actual.isEmpty
  | _ :: _, [] => false
  | e :: es, a :: as => if e.accepts a then matchLoop es as else false

/-- puck/src/core/router/match_url.rs:26-61 `Match::does_match`. -/
def doesMatch (segs : List Segment) (u : Url) : Bool :=
  match u.pathSegments with
  | none => false
  | some as => matchLoop segs as

/-- puck/src/core/router/mod.rs:16-19 `Route`: the handler is an arbitrary program acting on the
connection's output (its result, `UsedStream`, is dropped by the router). -/
structure Route (σ : Type) where
  matcher : Request → Bool
  handler : Request → σ → Sink → Outcome Unit Unit × Sink

/-- puck/src/core/router/mod.rs:117-124 `Router::respond`. -/
def Router.respond {σ : Type} : List (Route σ) → Request → σ → Sink → Outcome Unit Unit × Sink
  | [], _, _, s => (.ok (), s)
  | route :: routes, req, st, s =>
    if route.matcher req then route.handler req st s else Router.respond routes req st s

/-- puck/src/core/router/mod.rs:54-57 `Router::route` (`routes.push`). -/
def Router.route {σ : Type} (routes : List (Route σ)) (r : Route σ) : List (Route σ) := routes ++ [r]

/-- Code memory: function pointers as integers (`f as *const () as usize`) and back (`transmute`).
Used for puck/src/core/router/mod.rs:60-94, puck/src/core/mod.rs:79-89. -/
structure CodeMem (F : Type) where
  addr : F → Nat
  deref : Nat → F

/-- puck/src/core/router/mod.rs:60-70 `Router::as_ints`. -/
def Router.asInts {M H : Type} (mm : CodeMem M) (hm : CodeMem H) (routes : List (M × H)) : List (Nat × Nat) :=
  routes.map fun r => (mm.addr r.1, hm.addr r.2)

/-- puck/src/core/router/mod.rs:73-94 `Router::from_ints`. -/
def Router.fromInts {M H : Type} (mm : CodeMem M) (hm : CodeMem H) (ints : List (Nat × Nat)) : List (M × H) :=
  ints.map fun i => (mm.deref i.1, hm.deref i.2)

/-- puck/src/core/mod.rs:48-64: the process `serve_router` spawns for one connection: its input stream
and output sink.  The result of `respond` (line 57) is ignored. -/
def serveRouterConn {σ : Type} (env : HttpEnv) (routes : List (Route σ)) (st : σ) (raw : Raw) (s : Sink) :
    Outcome Unit Unit × Sink :=
  match Request.parse env raw with
  | .error _ => (.panic, s)
  | .ok none =>
    match Stream.respond env false err400 s with
    | (.panic, s') => (.panic, s')
    | (_, s') => (.ok (), s')
  | .ok (some req) => Router.respond routes req st s

/-- puck/src/core/router/mod.rs:107-112: the process `Router::run` spawns for one connection. -/
def runRouterConn {σ : Type} (env : HttpEnv) (routes : List (Route σ)) (st : σ) (raw : Raw) (s : Sink) :
    Outcome Unit Unit × Sink :=
  match Request.parse env raw with
  | .ok (some req) => Router.respond routes req st s
  | _ => (.ok (), s)

/-- puck/src/core/mod.rs:83-104: the process `for_each` spawns for one connection (`todo!()` panics). -/
def forEachConn {σ : Type} (env : HttpEnv) (func : Request → σ → Sink → Outcome Unit Unit × Sink) (st : σ)
    (raw : Raw) (s : Sink) : Outcome Unit Unit × Sink :=
  match Request.parse env raw with
  | .ok (some req) => func req st s
  | _ => (.panic, s)

/-- The three ways of serving. Used for puck/src/core/mod.rs:41, :76, puck/src/core/router/mod.rs:97. -/
inductive Serve (σ : Type) where
  | serveRouter (routes : List (Route σ))
  | run (routes : List (Route σ))
  | forEach (func : Request → σ → Sink → Outcome Unit Unit × Sink)

/-- What the process spawned for a connection runs. Used for puck/src/core/mod.rs:48-64, :83-104, puck/src/core/router/mod.rs:107-112. -/
def Serve.conn {σ : Type} (env : HttpEnv) (m : Serve σ) (st : σ) (raw : Raw) (s : Sink) : Outcome Unit Unit × Sink :=
  match m with
  | .serveRouter routes => serveRouterConn env routes st raw s
  | .run routes => runRouterConn env routes st raw s
  | .forEach f => forEachConn env f st raw s

/-- One spawned process: what the peer sends and how much it will take (fixed at accept), the state value it
was given, what has been written so far, and how it ended. Used for puck/src/core/mod.rs:46-48, :81-83, puck/src/core/router/mod.rs:105-107. -/
structure ConnProc (σ : Type) where
  input : Raw
  given : σ
  sink : Sink
  ended : Option (Outcome Unit Unit)

/-- The server: its own copy of the state, and the table of processes spawned so far. Used for puck/src/core/mod.rs:23-26. -/
structure Server (σ : Type) where
  state : σ
  procs : List (ConnProc σ)

/-- What can happen next: `accept` returns a connection and the process is spawned; `accept` fails; `accept`
returns a connection but spawning fails (the error is dropped with `let _ =`); the scheduler runs process `k`.
Used for puck/src/core/mod.rs:45, :78, puck/src/core/router/mod.rs:99-103. -/
inductive ServeEvent where
  | accept (raw : Raw) (s : Sink)
  | acceptFails
  | spawnFails (raw : Raw) (s : Sink)
  | runs (k : Nat)

/-- puck/src/core/mod.rs:45-67, :80-107 and puck/src/core/router/mod.rs:97-115: one turn of the accept loop, or
one process running to its end.  A process is unlinked, so its panic ends it alone; each process has its own
copy of the state (`self.state.clone()`) and its own socket.  Simplified: processes share no data, so their
steps commute and each is run in one event; a process blocked on its socket is one not yet scheduled. -/
def Server.step {σ : Type} (env : HttpEnv) (m : Serve σ) (sv : Server σ) : ServeEvent → Server σ
  | .accept raw s => { sv with procs := sv.procs ++ [⟨raw, sv.state, s, none⟩] }
  | .acceptFails => sv
  | .spawnFails _ _ => sv
  | .runs k =>
    match sv.procs[k]? with
    | none => sv
    | some p =>
      match p.ended with
      | some _ => sv
      | none =>
        let r := m.conn env p.given p.input p.sink
        { sv with procs := sv.procs.set k { p with sink := r.2, ended := some r.1 } }

/-- A whole history of the server. Used for puck/src/core/mod.rs:44-67, :77-107, puck/src/core/router/mod.rs:98-114. -/
def Server.exec {σ : Type} (env : HttpEnv) (m : Serve σ) (sv : Server σ) (es : List ServeEvent) : Server σ :=
  es.foldl (Server.step env m) sv

end Puck
