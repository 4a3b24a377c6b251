import Verif.Model.Component
import Verif.Model.Json
/-!
# A page and its component, with time between them

Events happen in the browser while changesets are under way, and events are under way while the component changes.  Here the two
directions of the WebSocket are queues of messages (the bytes of a message are in `Props/Json.lean`, C95).
-/
namespace Puck

variable {D I S E P : Type}

/-- The listeners registered on a node itself. Used for puck_liveview/client/index.js:41. -/
def Dom.listeners : Dom → List ListenerRef
  | .text _ => []
  | .elem _ _ listeners _ => listeners

/-- The elements an event in the tree `d` passes: the element it happens in, then its ancestors up to `d` (DOM standard, event
dispatch: `click`, `input` and `submit` bubble). Used for puck_liveview/client/index.js:41. -/
inductive Target : Dom → List Dom → Prop
  | here (tag : String) (attrs : Headers) (ls : List ListenerRef) (cs : List Dom) :
      Target (.elem tag attrs ls cs) [.elem tag attrs ls cs]
  | inside {tag : String} {attrs : Headers} {ls : List ListenerRef} {cs : List Dom} {c : Dom} {path : List Dom} :
      c ∈ cs → Target c path → Target (.elem tag attrs ls cs) (path ++ [.elem tag attrs ls cs])

/-- puck_liveview/client/index.js:40-63 for all elements an event passes: what is sent to the server, in order.  The listeners of an element run in the order
they were added; `e.target.value` is the `value` of the element where the event happened.  No changeset is processed meanwhile. -/
def dispatch (on value : String) (path : List Dom) : List (String × Option String) :=
  path.flatMap fun d => d.listeners.filterMap fun l => clientEvent l on value

/-- A page in a browser and the loop of its component.  `down`: the changesets sent and not yet processed; `up`: the events sent and not yet
handled.  As history, which nobody looks at: with each changeset the component state whose render it leads to, in `shown` the state of
the changeset processed last, with each event the `shown` of when it happened, and in `log` the events handled, with what was shown
when they happened and the component state they were handled in. Used for puck_liveview/src/component/mod.rs:90-186 and puck_liveview/client/index.js:3-78. -/
structure LivePage (I S P : Type) where
  loop : LoopState I S P
  down : List (List WireOp × S)
  body : List Dom
  shown : S
  up : List ((String × Option String) × S)
  log : List ((String × Option String) × S × S)

/-- After puck_liveview/src/component/mod.rs:98-113: the component exists and the first paint has been sent. -/
def LivePage.start (C : Component D I S E P) (data : D) (p : P) (page : List Dom) : LivePage I S P :=
  let s := (C.new data p).1
  ⟨⟨p, s, (C.render s).1, (C.render s).2⟩, [(serializeOps (createFromScratch none (C.render s).1), s)], page, s, [], []⟩

/-- What can happen: the browser processes the next changeset; an event happens in an element of the page; the loop (component/mod.rs:116-174)
takes the next event out of its mailbox; or (component/mod.rs:176-180) it is sent an input by another process.  Only runs in which the
loop goes on are considered. -/
inductive LiveStep (B : Browser) (C : Component D I S E P) : LivePage I S P → LivePage I S P → Prop
  | display {n : LivePage I S P} {ops : List WireOp} {s : S} {rest : List (List WireOp × S)} : n.down = (ops, s) :: rest →
      LiveStep B C n { n with body := clientMessage B ops n.body, shown := s, down := rest }
  | event {n : LivePage I S P} {d : Dom} {path : List Dom} (on value : String) : d ∈ n.body → Target d path →
      LiveStep B C n { n with up := n.up ++ (dispatch on value path).map fun e => (e, n.shown) }
  | handle {n : LivePage I S P} {e : String × Option String} {s : S} {rest : List ((String × Option String) × S)} {st : LoopState I S P}
      {os : List (Out E)} : n.up = (e, s) :: rest →
      loopStep C Json.fromStr true (.running n.loop) (.ws (.ok (.text (Json.eventText e.1 e.2)))) = (.running st, os) →
      LiveStep B C n { n with loop := st, up := rest, down := n.down ++ (sends os).map fun ops => (ops, st.comp),
                              log := n.log ++ [(e, s, n.loop.comp)] }
  | input {n : LivePage I S P} {st : LoopState I S P} {os : List (Out E)} (i : I) :
      loopStep C Json.fromStr true (.running n.loop) (.input i) = (.running st, os) →
      LiveStep B C n { n with loop := st, down := n.down ++ (sends os).map fun ops => (ops, st.comp) }

/-- Any number of steps. Used for puck_liveview/src/component/mod.rs:90-186 and puck_liveview/client/index.js:3-78. -/
inductive LiveSteps (B : Browser) (C : Component D I S E P) : LivePage I S P → LivePage I S P → Prop
  | refl (n : LivePage I S P) : LiveSteps B C n n
  | step {n n' n'' : LivePage I S P} : LiveSteps B C n n' → LiveStep B C n' n'' → LiveSteps B C n n''

end Puck
