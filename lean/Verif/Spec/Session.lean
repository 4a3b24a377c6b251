import Verif.Model.Component
/-!
# Specification: what a session of a component should look like

Only the component (`new`, `update`, `render`) and the mailbox occur here: there is no stored page and no stored
listeners, everything is read off the component's current state.
-/
namespace Puck

variable {D I S E P : Type}

/-- The message asks for the update `i`, when the listeners on the page are `ls`: it is an input, or text that holds a client
message naming a click or submit listener, or an input listener with a value. -/
def Asks (parse : String → Option ClientMessage) (ls : String → Option (Listener I)) (m : Mail I P) (i : I) : Prop :=
  m = .input i ∨
  ∃ contents t, m = .ws (.ok (.text contents)) ∧ parse contents = some t ∧
    (ls t.listener = some (.click i) ∨ ls t.listener = some (.submit i) ∨
      ∃ call v, ls t.listener = some (.input call) ∧ t.payload = some v ∧ i = call v)

/-- From component state `s`, the messages `ms` ask for the updates `is`, in order, and leave the component in state
`s'`; the connection stays open and no message is an identity. -/
inductive Session (C : Component D I S E P) (parse : String → Option ClientMessage) (p : P) :
    S → List (Mail I P) → List I → S → Prop
  | nil (s) : Session C parse p s [] [] s
  | skip {s m ms is s'} : (∀ i, ¬ Asks parse (C.render s).2 m i) → m ≠ .ws (.error .connectionClosed) → (∀ q, m ≠ .whoAmI q) →
      Session C parse p s ms is s' → Session C parse p s (m :: ms) is s'
  | take {s m ms i is s'} : Asks parse (C.render s).2 m i → Session C parse p (C.update s i p).1 ms is s' →
      Session C parse p s (m :: ms) (i :: is) s'

/-- What others should see of the updates `is` from state `s`: for each one, in order, the effects of `update`, then one
changeset, from the render before to the render after.  `none`: a changeset cannot be computed. -/
def expectedOuts (C : Component D I S E P) (p : P) : S → List I → Option (List (Out E))
  | _, [] => some []
  | s, i :: is =>
    match (C.render s).1.diff (some (C.render (C.update s i p).1).1), expectedOuts C p (C.update s i p).1 is with
    | some ops, some rest => some ((C.update s i p).2.map .effect ++ [.send (serializeOps ops)] ++ rest)
    | _, _ => none

/-- What others should see before any update: the effects of `new`, and the first paint. -/
def opening (C : Component D I S E P) (data : D) (p : P) : List (Out E) :=
  (C.new data p).2.map .effect ++ [.send (serializeOps (createFromScratch none (C.render (C.new data p).1).1))]

end Puck
