import Verif.Spec.ChatScript
import Verif.Props.WebSocket
/-!
# Specification: the reader process of a connection of the chat reads that connection's WebSocket
-/
namespace Puck.Chat

/-- The reader process of connection `k` calls the iterator of the WebSocket over this input (the bytes the client sends, in these reads), and whatever messages the iterator
gives it first, it has passed on at some time. -/
def ReadsSocket (W : Nat) {parse : String → Option ClientMessage} {firstSend : Nat → Bool} (x : ChatExecution parse firstSend) (k : Nat) (input : Raw) : Prop :=
  ∀ ms : List Message, (WebSocket.run W (List.replicate ms.length .next) .open ⟨input, ⟨[], none⟩⟩).1 = ms.map (fun m => Ret.item (.ok m)) →
    ∃ i, ms.map Except.ok <+: passedOn x k i

/-- What a user has done, from the events in the user's browser. -/
def scriptOf (events : List ClientMessage) : ChatScript := events.foldl ChatScript.event (.naming "")

end Puck.Chat
