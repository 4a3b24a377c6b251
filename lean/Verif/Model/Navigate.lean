import Verif.Model.Live
/-!
# What the browser does by itself after an event

client/index.js:40-63 never calls `preventDefault`, so after the listeners the browser does what the HTML standard says: it follows a link that was
clicked, and submits the form around a submit button that was clicked or a field in which Enter was pressed.  Either leads to another document (or to
this one again): the page with its WebSocket is gone, and what is loaded begins anew.
Simplified: the attribute `form`, the validation of fields, `label`, `summary` and elements that are editable are not modelled.
-/
namespace Puck

variable {D I S E P : Type}

/-- The tag of a node. Used for puck_liveview/client/index.js:41-63. -/
def Dom.tag : Dom → String
  | .text _ => ""
  | .elem tag _ _ _ => tag

/-- The attributes of a node. Used for puck_liveview/client/index.js:41-63. -/
def Dom.attr : Dom → String → Option String
  | .text _ => fun _ => none
  | .elem _ attrs _ _ => attrs.get

/-- What depends on the page's address and on other attributes (`target`, `method`, `download`, a mere fragment): whether following a link with these
attributes, or submitting a form with these attributes, replaces the document. Used for puck_liveview/client/index.js:41-63. -/
structure Away where
  link : (String → Option String) → Bool
  form : (String → Option String) → Bool

/-- HTML standard 4.6.1: a hyperlink. Used for puck_liveview/client/index.js:41-63. -/
def Dom.isLink (d : Dom) : Bool := (d.tag == "a" || d.tag == "area") && (d.attr "href").isSome

/-- HTML standard 4.10.6, 4.10.5.1.18-19: a submit button that is not disabled (`type` is compared ignoring case; a button of no or unknown type is one).
Used for puck_liveview/client/index.js:41-63. -/
def Dom.isSubmit (d : Dom) : Bool :=
  (d.attr "disabled").isNone &&
    (match (d.attr "type").map asciiLower with
      | none => d.tag == "button"
      | some t => (d.tag == "button" && t != "reset" && t != "button") || (d.tag == "input" && (t == "submit" || t == "image")))

/-- DOM standard 2.9: the elements that have an activation behaviour, of which the innermost that was clicked is activated.
Used for puck_liveview/client/index.js:41-63. -/
def Dom.activates (d : Dom) : Bool := d.tag == "button" || d.tag == "input" || d.isLink

/-- The form around these elements, and what is around it. Used for puck_liveview/client/index.js:41-63. -/
def formAround (path : List Dom) : List Dom := path.dropWhile fun d => d.tag != "form"

/-- What a user does in an element of the page: click on it; press Enter in a field; anything else that triggers an event (typing).
Used for puck_liveview/client/index.js:41-63. -/
inductive Deed
  | click
  | enter
  | other (on value : String)

/-- The form that is submitted as a consequence, with what is around it (`[]`: none).  Whether Enter submits is up to the browser; here it does in an `input`.
Used for puck_liveview/client/index.js:41-63. -/
def submitted : Deed → List Dom → List Dom
  | .click, path =>
    match path.dropWhile fun d => !d.activates with
    | d :: around => if d.isSubmit then formAround around else []
    | [] => []
  | .enter, d :: around => if d.tag == "input" then formAround around else []
  | _, _ => []

/-- client/index.js:40-63: the messages sent to the server, first for the event itself, then for the submission it causes. -/
def deedEvents (a : Deed) (path : List Dom) : List (String × Option String) :=
  (match a with
    | .click => dispatch "click" "" path
    | .enter => []
    | .other on value => dispatch on value path) ++ dispatch "submit" "" (submitted a path)

/-- Whether the browser leaves the document afterwards. Used for puck_liveview/client/index.js:41-63. -/
def leaves (A : Away) (a : Deed) (path : List Dom) : Bool :=
  (match submitted a path with
    | f :: _ => A.form f.attr
    | [] => false) ||
  (match a with
    | .click =>
      match path.dropWhile fun d => !d.activates with
      | d :: _ => d.isLink && A.link d.attr
      | [] => false
    | _ => false)

/-- The page being looked at and those that were left, whose loops may still run. Used for puck_liveview/client/index.js:41-63. -/
structure Visit (I S P : Type) where
  left : List (LivePage I S P)
  page : LivePage I S P

/-- component/mod.rs:116-180: a loop takes an event or an input out of its mailbox (as in `LiveStep`). -/
inductive LoopMove (C : Component D I S E P) : LivePage I S P → LivePage I S P → Prop
  | handle {n : LivePage I S P} {e : String × Option String} {s : S} {rest : List ((String × Option String) × S)} {st : LoopState I S P}
      {os : List (Out E)} : n.up = (e, s) :: rest →
      loopStep C Json.fromStr true (.running n.loop) (.ws (.ok (.text (Json.eventText e.1 e.2)))) = (.running st, os) →
      LoopMove C n { n with loop := st, up := rest, down := n.down ++ (sends os).map fun ops => (ops, st.comp),
                            log := n.log ++ [(e, s, n.loop.comp)] }
  | input {n : LivePage I S P} {st : LoopState I S P} {os : List (Out E)} (i : I) :
      loopStep C Json.fromStr true (.running n.loop) (.input i) = (.running st, os) →
      LoopMove C n { n with loop := st, down := n.down ++ (sends os).map fun ops => (ops, st.comp) }

/-- What can happen in a visit: the browser processes a changeset; a loop moves, that of the page or of one that was left; the user does something
that does not lead away; or something that does, whereupon the browser loads the page again: a new connection and a new component, with data and process of its own.
Used for puck_liveview/client/index.js:41-63. -/
inductive VisitStep (A : Away) (B : Browser) (C : Component D I S E P) (page : List Dom) : Visit I S P → Visit I S P → Prop
  | display {v : Visit I S P} {ops : List WireOp} {s : S} {rest : List (List WireOp × S)} : v.page.down = (ops, s) :: rest →
      VisitStep A B C page v ⟨v.left, { v.page with body := clientMessage B ops v.page.body, shown := s, down := rest }⟩
  | loop {v : Visit I S P} {n : LivePage I S P} : LoopMove C v.page n → VisitStep A B C page v ⟨v.left, n⟩
  | behind {v : Visit I S P} {l r : List (LivePage I S P)} {n n' : LivePage I S P} : v.left = l ++ n :: r → LoopMove C n n' →
      VisitStep A B C page v ⟨l ++ n' :: r, v.page⟩
  | deed {v : Visit I S P} {d : Dom} {path : List Dom} (a : Deed) : d ∈ v.page.body → Target d path → leaves A a path = false →
      VisitStep A B C page v ⟨v.left, { v.page with up := v.page.up ++ (deedEvents a path).map fun e => (e, v.page.shown) }⟩
  | leave {v : Visit I S P} {d : Dom} {path : List Dom} (a : Deed) (data : D) (p : P) : d ∈ v.page.body → Target d path → leaves A a path = true →
      VisitStep A B C page v ⟨v.left ++ [{ v.page with up := v.page.up ++ (deedEvents a path).map fun e => (e, v.page.shown) }],
        LivePage.start C data p page⟩

/-- Any number of steps. Used for puck_liveview/client/index.js:41-63. -/
inductive VisitSteps (A : Away) (B : Browser) (C : Component D I S E P) (page : List Dom) : Visit I S P → Visit I S P → Prop
  | refl (v : Visit I S P) : VisitSteps A B C page v v
  | step {v v' v'' : Visit I S P} : VisitSteps A B C page v v' → VisitStep A B C page v' v'' → VisitSteps A B C page v v''

end Puck
