import Verif.Model.ListNet
import Verif.Spec.Decimal
import Verif.Props.Exchange
/-!
# Specification: one order of the requests to the list (C131 - C133)
-/
namespace Puck

/-- The connections accepted in a history, in order: connection `k` is the `k`-th. -/
def listAccepted (acts : List ListAct) : List (Raw × Sink) :=
  acts.filterMap fun a => match a with | .accept raw s => some (raw, s) | _ => none

/-- The client of this connection submits the text `s` with the form. -/
def Adds (env : HttpEnv) (raw : Raw) (s : String) : Prop := ∃ req, Request.parse env raw = .ok (some req) ∧ Submits env.W req s

/-- The client of this connection asks for `/read/<number>`. -/
def AsksList (env : HttpEnv) (raw : Raw) : Prop :=
  ∃ req seg n, Request.parse env raw = .ok (some req) ∧ req.url.path = "/read/" ++ seg ∧ Decimal.DenotesNat (strBytes seg) n ∧ n < 2 ^ 31

/-- `order` lists connections that submit or read; the texts submitted in it, in that order, are `texts`. -/
inductive Texts (env : HttpEnv) (conns : List (Raw × Sink)) : List Nat → List String → Prop
  | nil : Texts env conns [] []
  | add {order texts k raw s text} : Texts env conns order texts → conns[k]? = some (raw, s) → Adds env raw text →
      Texts env conns (order ++ [k]) (texts ++ [text])
  | read {order texts k raw s} : Texts env conns order texts → conns[k]? = some (raw, s) → AsksList env raw →
      Texts env conns (order ++ [k]) texts

/-- Connection `k` has been served: its process has ended with this outcome and this output. -/
def ListNet.Served (n : ListNet) (k : Nat) (o : Outcome Unit Unit) (s : Sink) : Prop := n.conns[k]? = some (.done o s)

/-- Connection `j` had been served before connection `k` was accepted. -/
def ListPrecedes (env : HttpEnv) (html : ListPage → String) (sched : Nat → Nat) (acts : List ListAct) (j k : Nat) : Prop :=
  ∃ earlier later o s, acts = earlier ++ later ∧ (ListNet.exec env html sched earlier).Served j o s ∧ (listAccepted earlier).length ≤ k

/-- The page for a list of texts. -/
def listPage (texts : List String) : ListPage := if texts = [] then .noMessages else .messages texts

/-- A connection on which a client asks for `/read/<number>`, in bytes. -/
structure WireRead (env : HttpEnv) (raw : Raw) : Prop where
  wf : raw.WF
  sent : ∃ method t fs hostName host u seg n after, GoodHead method t fs hostName host ∧
    env.parseUrl ("http://" ++ host ++ t) = some u ∧ u.path = "/read/" ++ seg ∧ Decimal.DenotesNat (strBytes seg) n ∧ n < 2 ^ 31 ∧
    raw.avail = headBytes method t fs ++ after

/-- Connection `k` has been served, and its client receives a complete response: status 200 and this page. -/
def ListNet.Receives (n : ListNet) (k : Nat) (page : String) : Prop :=
  ∃ s, n.Served k (.ok ()) s ∧
    Http.readResponse s.out = some ⟨200, [], [(strBytes "Content-Type", strBytes "text/html")], strBytes page⟩

/-- The list server after the first `i` steps of an infinite history. -/
def ListNet.after (env : HttpEnv) (html : ListPage → String) (sched : Nat → Nat) (acts : Nat → ListAct) (i : Nat) : ListNet :=
  ListNet.exec env html sched ((List.range i).map acts)

/-- Fairness: a connection's process that can go on from some moment on does go on, and so does the list process.  (Connections may be
accepted for ever, in any number.) -/
structure ListFair (env : HttpEnv) (html : ListPage → String) (sched : Nat → Nat) (acts : Nat → ListAct) : Prop where
  start : ∀ i k, (∀ j, i ≤ j → ∃ raw s, (ListNet.after env html sched acts j).conns[k]? = some (.fresh raw s)) → ∃ j, i ≤ j ∧ acts j = .start k
  serve : ∀ i, (∀ j, i ≤ j → (ListNet.after env html sched acts j).mailbox ≠ []) → ∃ j, i ≤ j ∧ acts j = .serve
  finish : ∀ i k, (∀ j, i ≤ j → ∃ m r s, (ListNet.after env html sched acts j).conns[k]? = some (.replied m r s)) →
    ∃ j, i ≤ j ∧ acts j = .finish k

end Puck
