import Verif.Spec.ChatScript
/-!
# Specification: what the other users of the chat can learn of a user

Two courses of events are compared: who acts when is the same in both, and what everybody's browser sends, except that the texts one user's browser sends may
differ.
-/
namespace Puck.Chat

/-- One thing that happens; the arguments say to whom, and what the browser sends or how the map of the coordinator is reordered. -/
inductive ChatAct where
  | connect (k : Nat)
  | forward (k : Nat)
  | read (k : Nat) (m : Except NextMessageError Message)
  | receive (k : Nat)
  | die (k : Nat)
  | shuffle (users : List (Nat × String × Nat))

/-- What it leads to; `none` if it cannot happen now.  (`chatStep_iff`: these are exactly the steps of the application.) -/
def ChatNet.act (parse : String → Option ClientMessage) (firstSend : Nat → Bool) (n : ChatNet) : ChatAct → Option ChatNet
  | .connect k => match n.users k with
    | none => some (n.set k ⟨[], .waiting n.srv, [.whoAmI k], []⟩)
    | some _ => none
  | .forward k => match n.users k with
    | some ⟨i :: rest, loop, loopBox, sent⟩ => some (n.set k ⟨rest, loop, loopBox ++ [.input i], sent⟩)
    | _ => none
  | .read k m => match n.users k with
    | some u => some (n.set k { u with loopBox := u.loopBox ++ [.ws m] })
    | none => none
  | .receive k => match n.users k with
    | some u => match u.loopBox with
      | m :: rest => some (n.receive parse firstSend k u m rest)
      | [] => none
    | none => none
  | .die k => match n.users k with
    | some u => some (n.set k { u with loop := .stopped })
    | none => none
  | .shuffle users => if n.srv.users.isPerm users then some { n with srv := { n.srv with users := users } } else none

/-- A whole course of events from the beginning. -/
def course (parse : String → Option ClientMessage) (firstSend : Nat → Bool) (acts : List ChatAct) : Option ChatNet :=
  acts.foldl (fun n a => n.bind fun n => n.act parse firstSend a) (some .init)

/-- What the browser of user `k` sends in it, in order. -/
def saidBy (k : Nat) : List ChatAct → List (Except NextMessageError Message)
  | [] => []
  | .read j m :: acts => if j = k then m :: saidBy k acts else saidBy k acts
  | _ :: acts => saidBy k acts

/-- The same course of events, except for the contents of texts that the browser of user `k` sends. -/
inductive Retyped (k : Nat) : List ChatAct → List ChatAct → Prop
  | nil : Retyped k [] []
  | same (a : ChatAct) {acts acts'} : Retyped k acts acts' → Retyped k (a :: acts) (a :: acts')
  | text (t t' : String) {acts acts'} : Retyped k acts acts' → Retyped k (.read k (.ok (.text t)) :: acts) (.read k (.ok (.text t')) :: acts')

/-- What a user has made public: the name under which it has entered and the texts it has sent. -/
def ChatScript.published : ChatScript → Option (String × List String)
  | .naming _ => none
  | .chatting name _ sent => some (name, sent)

end Puck.Chat
