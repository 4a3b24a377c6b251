import Verif.Model.Manage
/-!
# Specification: infinite executions and fairness

An execution is an infinite sequence of states; at each moment one process makes one step, or nothing happens.  Fairness
(weak fairness of each process): a process that could make a step from some moment on does make one.
-/
namespace Puck

variable {D I S E P R : Type}

/-- An infinite execution of the processes of one component. -/
structure Execution (N : NetEnv D I S E P R) (data : D) where
  state : Nat → Net D I S E P R
  start : state 0 = Net.init data
  step : ∀ i, state (i + 1) = state i ∨ NetStep N (state i) (state (i + 1))

/-- The loop takes a message out of its mailbox between these two states. -/
def LoopMoves (a b : Net D I S E P R) : Prop := a.received.length < b.received.length

/-- The manager makes one of its first three steps, or takes an input out of its mailbox. -/
def ManagerMoves (a b : Net D I S E P R) : Prop := a.manager ≠ b.manager ∨ b.inbox.length < a.inbox.length

/-- The reader is given a result. -/
def ReaderMoves (a b : Net D I S E P R) : Prop := a.got.length < b.got.length

/-- Every process that could go on from some moment on does go on at some later moment. -/
structure Execution.Fair {N : NetEnv D I S E P R} {data : D} (x : Execution N data) : Prop where
  loop : ∀ i, (∀ j, i ≤ j → (x.state j).loopBox ≠ []) → ∃ j, i ≤ j ∧ LoopMoves (x.state j) (x.state (j + 1))
  manager : ∀ i, (∀ j, i ≤ j → (x.state j).manager ≠ .forwarding ∨ (x.state j).inbox ≠ []) →
    ∃ j, i ≤ j ∧ ManagerMoves (x.state j) (x.state (j + 1))
  reader : ∀ i, (∀ j, i ≤ j → ∃ r m r', (x.state j).reader = some r ∧ N.next r (some m) r') →
    ∃ j, i ≤ j ∧ ReaderMoves (x.state j) (x.state (j + 1))

/-- The reader process never panics. -/
def Execution.ReaderLives {N : NetEnv D I S E P R} {data : D} (x : Execution N data) : Prop :=
  ∀ i r, (x.state i).reader = some r → (x.state (i + 1)).reader ≠ none

end Puck
