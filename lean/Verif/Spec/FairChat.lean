import Verif.Spec.Atomic
/-!
# Specification: infinite executions of the chat, and fairness

An execution is an infinite sequence of states; at each moment one process makes one step, or nothing happens.  Fairness (weak fairness of each process): a
process that could make a step from some moment on does make one.
-/
namespace Puck.Chat

/-- An infinite execution of the chat (`Model/ChatFine.lean`). -/
structure ChatExecution (parse : String → Option ClientMessage) (firstSend : Nat → Bool) where
  state : Nat → FineNet
  start : state 0 = .init
  step : ∀ i, state (i + 1) = state i ∨ FineStep parse firstSend (state i) (state (i + 1))

/-- The coordinator has something to do: a request to take, a broadcast or a reply to send. -/
def CoordinatorReady (n : FineNet) : Prop := n.dead = false ∧ (n.queue ≠ [] ∨ n.serving ≠ none)

/-- The coordinator takes a request, sends a broadcast or sends a reply. -/
def CoordinatorMoves (a b : FineNet) : Prop := a.serving ≠ b.serving

/-- The managing process of connection `k` has something to forward. -/
def ManagerReady (k : Nat) (n : FineNet) : Prop := ∃ u, n.users k = some u ∧ u.inbox ≠ []

/-- The managing process of connection `k` forwards something. -/
def ManagerMovesAt (k : Nat) (a b : FineNet) : Prop := ∃ u v, a.users k = some u ∧ b.users k = some v ∧ v.inbox.length < u.inbox.length

/-- The component's process of connection `k` is alive, and has a message to take or a reply to go on with. -/
def LoopReady (k : Nat) (n : FineNet) : Prop :=
  ∃ u, n.users k = some u ∧ u.alive = true ∧ ((u.talk = .free ∧ u.loopBox ≠ []) ∨ ∃ m r, u.talk = .answered m r)

/-- The component's process of connection `k` takes a message, or goes on with a reply. -/
def LoopMovesAt (k : Nat) (a b : FineNet) : Prop :=
  ∃ u v, a.users k = some u ∧ b.users k = some v ∧
    (v.loopBox.length < u.loopBox.length ∨ ((∃ m r, u.talk = .answered m r) ∧ v.talk = .free))

/-- Every process that could go on from some moment on does go on at some later moment. -/
structure ChatExecution.Fair {parse : String → Option ClientMessage} {firstSend : Nat → Bool} (x : ChatExecution parse firstSend) : Prop where
  coordinator : ∀ i, (∀ j, i ≤ j → CoordinatorReady (x.state j)) → ∃ j, i ≤ j ∧ CoordinatorMoves (x.state j) (x.state (j + 1))
  manager : ∀ k i, (∀ j, i ≤ j → ManagerReady k (x.state j)) → ∃ j, i ≤ j ∧ ManagerMovesAt k (x.state j) (x.state (j + 1))
  loop : ∀ k i, (∀ j, i ≤ j → LoopReady k (x.state j)) → ∃ j, i ≤ j ∧ LoopMovesAt k (x.state j) (x.state (j + 1))

/-- The user's component process is over: killed from outside, or its loop has returned (the connection was closed). -/
def FineProcs.Over (u : FineProcs) : Prop := u.alive = false ∨ u.loop = .stopped

end Puck.Chat
