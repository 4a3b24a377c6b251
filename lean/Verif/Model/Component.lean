import Verif.Model.Client
import Verif.Model.Message
/-!
# `puck_liveview/src/component/mod.rs`: the component loop

Outgoing messages are kept as the list that `serde_json::to_string` is given, and incoming text is read by an arbitrary `parse`;
`Model/Json.lean` has the JSON text itself and the `parse` of the code.  Not modelled: panics and divergence of the user's
own `new`, `update`, `render` and listener functions.
-/
namespace Puck

/-- puck_liveview/src/dom/listener.rs:8-18 `Listener`.  Simplified: the boxed functions are pure, and `ClickEvent` and
`SubmitEvent` (dom/event.rs) are unit structs, so only the input listener's function has an argument. -/
inductive Listener (I : Type) where
  | click (call : I)
  | submit (call : I)
  | input (call : String → I)

/-- puck_liveview/src/dom/listener.rs:44-51 `js_event`. -/
def Listener.jsEvent {I : Type} : Listener I → String
  | .click _ => "click"
  | .submit _ => "submit"
  | .input _ => "input"

/-- puck_liveview/src/client/mod.rs:5-14 `ClientMessage` (and `ClientMessagePayload`, which has one field). -/
structure ClientMessage where
  listener : String
  payload : Option String
  deriving DecidableEq

/-- puck_liveview/src/component/mod.rs:20-29 the trait `Component`, and :31-46 `Context` (a process handle, `P`).
`E` are the side effects of the user's code, such as messages to other processes.  The `HashMap` of listeners is
only ever asked with `get`: it is the function `get`. -/
structure Component (D I S E P : Type) where
  new : D → P → S × List E
  update : S → I → P → S × List E
  render : S → Element × (String → Option (Listener I))

/-- puck_liveview/src/component/mod.rs:207-217 `WsOrInput`. -/
inductive Mail (I P : Type) where
  | ws (msg : Except NextMessageError Message)
  | input (i : I)
  | whoAmI (p : P)

/-- What the loop does that others can see, in order. Used for puck_liveview/src/component/mod.rs:113, :170, :200-202. -/
inductive Out (E : Type) where
  | effect (e : E)
  | send (ops : List WireOp)
  | dropped
  deriving DecidableEq

/-- The messages to the browser among the outputs (`stream.send` in puck_liveview/src/component/mod.rs:113, :200-202). -/
def sends {E : Type} : List (Out E) → List (List WireOp)
  | [] => []
  | .send ops :: os => ops :: sends os
  | _ :: os => sends os

/-- The variables of `main_loop`: `context`, `component`, `old_dom`, `old_listeners`. Used for puck_liveview/src/component/mod.rs:98-107. -/
structure LoopState (I S P : Type) where
  proc : P
  comp : S
  dom : Element
  listeners : String → Option (Listener I)

/-- Where the process is: before its first message, in the loop, returned, or dead: by a panic, or (`unreachable`) at
one of the two `unreachable!()`s. Used for puck_liveview/src/component/mod.rs:98-103, :115, :171, :181-183. -/
inductive Phase (D I S P : Type) where
  | waiting (data : D)
  | running (st : LoopState I S P)
  | stopped
  | crashed
  | unreachable

variable {D I S E P : Type}

/-- puck_liveview/src/component/mod.rs:188-205 `perform_diff`, and the `component.update` before each call to it
(:123, :133, :145, :177).  The result of sending is ignored. -/
def updateAndDiff (C : Component D I S E P) (st : LoopState I S P) (i : I) : Phase D I S P × List (Out E) :=
  let (comp, es) := C.update st.comp i st.proc
  let (newDom, newListeners) := C.render comp
  match st.dom.diff (some newDom) with
  | none => (.crashed, es.map .effect)
  | some ops => (.running ⟨st.proc, comp, newDom, newListeners⟩, es.map .effect ++ [.send (serializeOps ops)])

/-- puck_liveview/src/component/mod.rs:90-186 `main_loop`, cut at the calls to `mailbox.receive()`: one message.
`firstSend` is whether the send of line 114 succeeds (its `unwrap` panics otherwise). -/
def loopStep (C : Component D I S E P) (parse : String → Option ClientMessage) (firstSend : Bool) :
    Phase D I S P → Mail I P → Phase D I S P × List (Out E)
  | .waiting data, .whoAmI p =>
    let (comp, es) := C.new data p
    let (dom, listeners) := C.render comp
    match dom.diff none with
    | none => (.crashed, es.map .effect)
    | some ops =>
      if firstSend then (.running ⟨p, comp, dom, listeners⟩, es.map .effect ++ [.send (serializeOps ops)])
      else (.crashed, es.map .effect ++ [.send (serializeOps ops)])
  | .waiting _, _ => (.unreachable, [])
  | .running st, .ws (.ok (.text contents)) =>
    match parse contents with
    | none => (.running st, [])
    | some t =>
      match st.listeners t.listener with
      | none => (.running st, [])
      | some (.click call) => updateAndDiff C st call
      | some (.submit call) => updateAndDiff C st call
      | some (.input call) =>
        match t.payload with
        | some value => updateAndDiff C st (call value)
        | none => (.running st, [])
  | .running st, .ws (.ok _) => (.running st, [])
  | .running st, .ws (.error .clientError) => (.running st, [])
  | .running _, .ws (.error .connectionClosed) => (.stopped, [.dropped])
  | .running st, .input i => updateAndDiff C st i
  | .running _, .whoAmI _ => (.unreachable, [])
  | .stopped, _ => (.stopped, [])
  | .crashed, _ => (.crashed, [])
  | .unreachable, _ => (.unreachable, [])

/-- A whole mailbox, in order. Used for puck_liveview/src/component/mod.rs:115-185. -/
def loopRun (C : Component D I S E P) (parse : String → Option ClientMessage) (firstSend : Bool) :
    Phase D I S P → List (Mail I P) → Phase D I S P × List (Out E)
  | ph, [] => (ph, [])
  | ph, m :: ms =>
    let r := loopStep C parse firstSend ph m
    let rest := loopRun C parse firstSend r.1 ms
    (rest.1, r.2 ++ rest.2)

end Puck
