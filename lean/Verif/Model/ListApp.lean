import Verif.Model.Router
/-!
# `examples/list/src/main.rs`

Not modelled: the HTML text of the pages (crate `malvolio`), and writing the response (`respond(..).unwrap()`, C42 - C47).
-/
namespace Puck

/-- examples/list/src/main.rs:137-142 `Msg`. -/
inductive ListMsg where
  | add (s : String)
  | allItems
  | lastN (n : Nat)
  deriving DecidableEq, Repr

/-- examples/list/src/main.rs:179-183 `Reply`. -/
inductive ListReply where
  | items (l : List String)
  | added
  deriving DecidableEq, Repr

/-- examples/list/src/main.rs:161-176 `List::handle`: one request to the list process. -/
def listHandle (items : List String) : ListMsg → List String × ListReply
  | .add s => (items ++ [s], .added)
  | .allItems => (items, .items items)
  | .lastN n => if items.length < n then (items, .items items) else (items, .items (items.drop 0))

/-- The list process: it answers the requests in the order in which they reach it. Used for examples/list/src/main.rs:158-177. -/
def listRun (items : List String) : List ListMsg → List String × List ListReply
  | [] => (items, [])
  | m :: ms =>
    let r := listHandle items m
    let rest := listRun r.1 ms
    (rest.1, r.2 :: rest.2)

/-- `str::split_at(n).1`; `none` is the panic (past the end, or inside a character). Used for examples/list/src/main.rs:63, :96. -/
def splitAtSnd (n : Nat) (s : String) : Option String :=
  if n ≤ (strBytes s).length then
    match fromUtf8 ((strBytes s).take n) with
    | some _ => fromUtf8 ((strBytes s).drop n)
    | none => none
  else none

/-- `str::starts_with`. Used for examples/list/src/main.rs:61. -/
def startsWith (pre s : String) : Bool := (strBytes pre).isPrefixOf (strBytes s)

/-- The pages the handlers answer with: examples/list/src/main.rs:34-45, :68-82, :84, :104-122, :129. -/
inductive ListPage where
  | form
  | added
  | badRequest
  | noMessages
  | messages (items : List String)
  | notFound
  deriving DecidableEq, Repr

/-- examples/list/src/main.rs:51-87: the handler of `POST /submit`, with a `W`-bit `usize`.  `none`: the handler panics. -/
def submitHandler (W : Nat) (sched : Nat → Nat) (req : Request) (items : List String) : Option (ListPage × List String) :=
  match req.body.intoString W sched with
  | .ok res =>
    if startsWith "message=" res then
      match splitAtSnd (strBytes "message=").length res with
      | none => none
      | some seg =>
        match listHandle items (.add seg) with
        | (_, .items _) => none
        | (items', .added) => some (.added, items')
    else some (.badRequest, items)
  | _ => none

/-- examples/list/src/main.rs:88-126: the handler of `/read/<integer>`, with a `W`-bit `usize`. -/
def readHandler (W : Nat) (req : Request) (items : List String) : Option (ListPage × List String) :=
  match splitAtSnd (strBytes "/read/").length req.url.path with
  | none => none
  | some segment =>
    match parseUsize W segment with
    | none => none
    | some n =>
      match listHandle items (.lastN n) with
      | (_, .added) => none
      | (items', .items l) => some (if l.isEmpty then .noMessages else .messages l, items')

/-- examples/list/src/main.rs:23-130: the four routes, tried in order (C50), for one request.  The result is the page and the list
process afterwards; `none`: the connection's process panics (which leaves the list process as it is). -/
def listServe (W : Nat) (sched : Nat → Nat) (req : Request) (items : List String) : Option (ListPage × List String) :=
  if req.method = .get && doesMatch [.static "submit"] req.url then some (.form, items)
  else if req.method = .post && doesMatch [.static "submit"] req.url then submitHandler W sched req items
  else if doesMatch [.static "read", .intParam] req.url then readHandler W req items
  else some (.notFound, items)

/-- A history of requests, in the order in which their handlers reach the list process: what each is answered (`none`: nothing) and
the items at the end. Used for examples/list/src/main.rs:23-130. -/
def listHistory (W : Nat) (sched : Nat → Nat) (items : List String) : List Request → List (Option ListPage) × List String
  | [] => ([], items)
  | req :: reqs =>
    let r := listServe W sched req items
    let rest := listHistory W sched ((r.map (·.2)).getD items) reqs
    (r.map (·.1) :: rest.1, rest.2)

/-- The connections of the list example (puck/src/core/mod.rs:48-64 with the routes of examples/list/src/main.rs:23-130), in the order in
which their processes run: one whose bytes are not a request never reaches a handler (its process panics, or answers 400). -/
def listConns (env : HttpEnv) (sched : Nat → Nat) (items : List String) : List Raw → List (Option ListPage) × List String
  | [] => ([], items)
  | raw :: raws =>
    match Request.parse env raw with
    | .ok (some req) =>
      let r := listServe env.W sched req items
      let rest := listConns env sched ((r.map (·.2)).getD items) raws
      (r.map (·.1) :: rest.1, rest.2)
    | _ =>
      let rest := listConns env sched items raws
      (none :: rest.1, rest.2)

end Puck
