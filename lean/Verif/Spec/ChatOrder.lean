import Verif.Model.Chat
/-!
# Specification: the order of the messages on a user's page
-/
namespace Puck.Chat

/-- `l'` is `l` with some messages of user `id` moved forward, past messages of others that directly precede them. -/
inductive Advanced (id : Nat) : List ChatMessage → List ChatMessage → Prop
  | refl (l : List ChatMessage) : Advanced id l l
  | swap {l a b : List ChatMessage} {other own : ChatMessage} : own.sender = id → other.sender ≠ id →
      Advanced id l (a ++ other :: own :: b) → Advanced id l (a ++ own :: other :: b)

end Puck.Chat
