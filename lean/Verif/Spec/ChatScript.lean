import Verif.Spec.FairChat
/-!
# Specification: what a user of the chat has done, according to what its browser has sent

Nothing here mentions the component, the coordinator or any other user.
-/
namespace Puck.Chat

/-- A user is choosing a name, or has entered the chat under a name and has so far sent these texts; `field` is the text typed and not yet replaced. -/
inductive ChatScript where
  | naming (name : String)
  | chatting (name field : String) (sent : List String)
  deriving DecidableEq, Repr

/-- The browser reports an event: text typed into the only field there is, or a click on the only button there is.  A browser that reports anything else is not
listened to. -/
def ChatScript.event (s : ChatScript) (e : ClientMessage) : ChatScript :=
  match s with
  | .naming name =>
    if e.listener = "set_username" then .naming (e.payload.getD name)
    else if e.listener = "initialize_username" then .chatting name "" []
    else .naming name
  | .chatting name field sent =>
    if e.listener = "update_message_contents" then .chatting name (e.payload.getD field) sent
    else if e.listener = "submit_message" then .chatting name field (sent ++ [field])
    else .chatting name field sent

/-- Only texts that are events count. -/
def ChatScript.reads (parse : String → Option ClientMessage) (s : ChatScript) : Except NextMessageError Message → ChatScript
  | .ok (.text t) => match parse t with
    | some e => s.event e
    | none => s
  | _ => s

/-- The whole of what a browser has sent. -/
def script (parse : String → Option ClientMessage) (ms : List (Except NextMessageError Message)) : ChatScript :=
  ms.foldl (ChatScript.reads parse) (.naming "")

/-- The component has this user's name and this user's text in its field, and, among the messages it shows, its own are exactly the texts the user has sent, in order,
under the user's name. -/
def ChatScript.Says : ChatScript → Live → Prop
  | .naming name, .uninitialized name' => name' = name
  | .chatting name field sent, .initialized name' id shown composing =>
    name' = name ∧ composing = field ∧ shown.filter (fun m => m.sender == id) = sent.map fun t => ⟨id, name, t⟩
  | _, _ => False

/-- The texts the user has sent. -/
def ChatScript.sent : ChatScript → List String
  | .naming _ => []
  | .chatting _ _ sent => sent

/-- The texts the user has sent, as messages under the user's name and an id. -/
def ChatScript.messages (id : Nat) : ChatScript → List ChatMessage
  | .naming _ => []
  | .chatting name _ sent => sent.map fun t => ⟨id, name, t⟩

/-- The messages of `log` whose author, according to the list of authors, is `k`. -/
def authored (authors : List Nat) (log : List ChatMessage) (k : Nat) : List ChatMessage :=
  ((authors.zip log).filter fun p => p.1 == k).map (·.2)

open Classical in
/-- What the reader of connection `k` has passed on up to moment `i`, in order. -/
noncomputable def passedOn {parse : String → Option ClientMessage} {firstSend : Nat → Bool} (x : ChatExecution parse firstSend) (k : Nat) :
    Nat → List (Except NextMessageError Message)
  | 0 => []
  | i + 1 =>
    if h : ∃ m, ∃ u v, (x.state i).users k = some u ∧ (x.state (i + 1)).users k = some v ∧ v.loopBox = u.loopBox ++ [.ws m] then
      passedOn x k i ++ [h.choose]
    else passedOn x k i

end Puck.Chat
