import Verif.Model.ChatFine
/-!
# Specification: the same moment in the two models of the chat

`Model/Chat.lean` has requests that take no time; `Model/ChatFine.lean` has a coordinator with a mailbox.
-/
namespace Puck.Chat

/-- A loop without the coordinator. -/
def erase : Phase ChatServer LiveviewInput (Option (Live × ChatServer)) Nat → FinePhase
  | .waiting _ => .waiting ()
  | .running st => .running ⟨st.proc, st.comp.map (·.1), st.dom, st.listeners⟩
  | .stopped => .stopped
  | .crashed => .crashed
  | .unreachable => .unreachable

/-- The broadcasts to `k` that the coordinator has still to send. -/
def outboxFor (s : Option Serving) (k : Nat) : List LiveviewInput :=
  match s with
  | none => []
  | some s => (s.outbox.filter fun d => d.to == k).map (·.msg)

/-- The component of a connection, unless its process is dead, not running its loop, or in the middle of handling a message. -/
def FineProcs.live (u : FineProcs) : Option Live :=
  match u.alive, u.talk, u.loop with
  | true, .free, .running st => st.comp
  | _, _, _ => none

end Puck.Chat
