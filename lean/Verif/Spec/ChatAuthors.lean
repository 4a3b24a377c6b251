import Verif.Model.Chat
/-!
# Specification: who has sent the messages of the chat
-/
namespace Puck.Chat

/-- The application has reached a state in which the messages accepted so far were sent, one after the other, by these connections: a message is that of the connection
whose component was handling its mail when the message was added. -/
inductive Authors (parse : String → Option ClientMessage) (firstSend : Nat → Bool) : List Nat → ChatNet → Prop
  | init : Authors parse firstSend [] .init
  | quiet {authors : List Nat} {n n' : ChatNet} : Authors parse firstSend authors n → ChatStep parse firstSend n n' → n'.srv.log = n.srv.log → Authors parse firstSend authors n'
  | sends {authors : List Nat} {n : ChatNet} (k : Nat) (u : UserProcs) (mail : Mail LiveviewInput Nat) (rest : List (Mail LiveviewInput Nat)) (msg : ChatMessage) :
      Authors parse firstSend authors n → n.users k = some u → u.loopBox = mail :: rest →
      (n.receive parse firstSend k u mail rest).srv.log = n.srv.log ++ [msg] → Authors parse firstSend (authors ++ [k]) (n.receive parse firstSend k u mail rest)

/-- `k` has sent the message `m`. -/
def SentBy (authors : List Nat) (log : List ChatMessage) (k : Nat) (m : ChatMessage) : Prop := (k, m) ∈ authors.zip log

/-- The component of the connection is over. -/
def ChatNet.Gone (n : ChatNet) (k : Nat) : Prop := ∃ u, n.users k = some u ∧ u.loop = .stopped

end Puck.Chat
