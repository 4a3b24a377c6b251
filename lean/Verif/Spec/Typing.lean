import Verif.Model.Typing
import Verif.Model.Chat
/-!
# Specification: the text a field of the page shows
-/
namespace Puck

/-- `x` is `d` or one of the nodes below it. -/
inductive Inside (x : LiveDom) : LiveDom → Prop
  | here : Inside x x
  | child {tag : String} {attrs : Headers} {ls : List ListenerRef} {typed : Option String} {cs : List LiveDom} {c : LiveDom} : c ∈ cs → Inside x c →
      Inside x (.elem tag attrs ls typed cs)

/-- The page has a field whose input goes to the listener `name`, and every such field shows the text `v`. -/
def ShowsField (page : List LiveDom) (name v : String) : Prop :=
  (∃ d ∈ page, ∃ tag attrs ls typed cs, Inside (.elem tag attrs ls typed cs) d ∧ ⟨name, "input"⟩ ∈ ls) ∧
  ∀ d ∈ page, ∀ tag attrs ls typed cs, Inside (.elem tag attrs ls typed cs) d → ⟨name, "input"⟩ ∈ ls → fieldText attrs typed = v

mutual
/-- No listeners have been added to any element. -/
def Dom.Bare : Dom → Prop
  | .text _ => True
  | .elem _ _ listeners children => listeners = [] ∧ BareAll children
/-- Siblings. -/
def BareAll : List Dom → Prop
  | [] => True
  | c :: cs => c.Bare ∧ BareAll cs
end

/-- What the coordinator sends to a component on its own: the messages of others (examples/chat/src/main.rs:454). -/
def Chat.FromCoordinator (i : Chat.LiveviewInput) : Prop := ∃ m, i = .receiveMessage m

/-- The other users act: the coordinator is in another state, the component is not. -/
def Chat.OthersAct (s s' : Option (Chat.Live × Chat.ChatServer)) : Prop := ∃ l srv srv', s = some (l, srv) ∧ s' = some (l, srv')

end Puck
