import Verif.Model.Response
import Verif.Spec.Body
/-!
# Specification: what it means not to wait

A connection is the list of the reads it will give.  `later x more` is `x` (something that reads from the connection) when, after all it
already had coming, the client goes on to send `more`.  A call *answers* if it gives one and the same result whatever comes later, and leaves
all of that for whoever reads next: it returns although the client sends nothing more and keeps the connection open.
-/
namespace Puck

/-- The same reader, with `more` arriving after everything else (a cursor holds its bytes itself: nothing arrives). -/
def Src.later (more : Raw) : Src → Src
  | .cursor c => .cursor c
  | .buf cap r => .buf cap ⟨r.buf, r.raw ++ more⟩
  | .other r => .other (r ++ more)

/-- The same body, with `more` arriving after everything else. -/
def Body.later (more : Raw) (b : Body) : Body := { b with reader := Src.later more b.reader }

/-- The same request, with `more` arriving after everything else. -/
def Request.later (more : Raw) (r : Request) : Request := { r with body := Body.later more r.body }

/-- The same response, with `more` arriving after everything else. -/
def Response.later (more : Raw) (r : Response) : Response := { r with body := Body.later more r.body }

/-- A call on a body answers: it does not wait for the client to send more, or to close the connection. -/
def Answers {α : Type} (call : Body → α × Body) (b : Body) : Prop :=
  ∃ x b', ∀ more : Raw, more.WF → call (Body.later more b) = (x, Body.later more b')

/-- `Request::parse` answers on a connection on which `a` arrives. -/
def RequestAnswers (env : HttpEnv) (a : Raw) : Prop :=
  ∃ o, ∀ more : Raw, more.WF → Request.parse env (a ++ more) = Except.map (Option.map (Request.later more)) o

/-- `Response::parse` answers on a connection on which `a` arrives. -/
def ResponseAnswers (env : HttpEnv) (a : Raw) : Prop :=
  ∃ o, ∀ more : Raw, more.WF → Response.parse env (a ++ more) = Except.map (Option.map (Response.later more)) o

end Puck
