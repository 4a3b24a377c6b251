import Verif.Model.Live
import Verif.Model.Field
/-!
# A page into which the user types, and its component, with time between them

`Model/Live.lean` (events and changesets under way) together with `Model/Field.lean` (the text in the fields).
-/
namespace Puck

variable {D I S E P : Type}

/-- A page in a browser and the loop of its component, as `LivePage`.  As history, which nobody looks at: with each event under way the page as it was when the event happened.
Used for puck_liveview/src/component/mod.rs:90-186 and puck_liveview/client/index.js:3-78. -/
structure TypingPage (I S P : Type) where
  loop : LoopState I S P
  down : List (List WireOp)
  body : List LiveDom
  up : List ((String × Option String) × List LiveDom)

/-- After puck_liveview/src/component/mod.rs:98-113, as `LivePage.start`; nothing has been typed into the page. -/
def TypingPage.start (C : Component D I S E P) (data : D) (p : P) (page : List Dom) : TypingPage I S P :=
  let s := (C.new data p).1
  ⟨⟨p, s, (C.render s).1, (C.render s).2⟩, [serializeOps (createFromScratch none (C.render s).1)], freshAll page, []⟩

/-- What can happen, as in `LiveStep`: puck_liveview/client/index.js:3-78 processes the next changeset; the user changes the text in the element with this `id`,
which then shows the text `v`, and the browser runs the listeners for `input` (index.js:54-61); another event happens in an element of the page (index.js:41-53);
the loop takes the next event out of its mailbox (puck_liveview/src/component/mod.rs:116-174), or is sent an input (:176-180); the processes the
component talks to change. -/
inductive TypingStep (B : Browser) (C : Component D I S E P) (input : I → Prop) (world : S → S → Prop) : TypingPage I S P → TypingPage I S P → Prop
  | display {n : TypingPage I S P} {ops : List WireOp} {rest : List (List WireOp)} : n.down = ops :: rest →
      TypingStep B C input world n { n with body := liveMessage B ops n.body, down := rest }
  | typed {n : TypingPage I S P} {d : LiveDom} {tag : String} {attrs : Headers} {ls : List ListenerRef} {cs path : List Dom} (id v : String) :
      d ∈ n.body → Target d.erase (.elem tag attrs ls cs :: path) → attrs.get "id" = some id →
      TypingStep B C input world n { n with
        body := typeIntoAll id v n.body,
        up := n.up ++ (dispatch "input" v (.elem tag attrs ls cs :: path)).map fun e => (e, typeIntoAll id v n.body) }
  | event {n : TypingPage I S P} {d : LiveDom} {path : List Dom} (on value : String) : on ≠ "input" → d ∈ n.body → Target d.erase path →
      TypingStep B C input world n { n with up := n.up ++ (dispatch on value path).map fun e => (e, n.body) }
  | handle {n : TypingPage I S P} {e : String × Option String} {page : List LiveDom} {rest : List ((String × Option String) × List LiveDom)}
      {st : LoopState I S P} {os : List (Out E)} : n.up = (e, page) :: rest →
      loopStep C Json.fromStr true (.running n.loop) (.ws (.ok (.text (Json.eventText e.1 e.2)))) = (.running st, os) →
      TypingStep B C input world n { n with loop := st, up := rest, down := n.down ++ sends os }
  | input {n : TypingPage I S P} {st : LoopState I S P} {os : List (Out E)} (i : I) : input i →
      loopStep C Json.fromStr true (.running n.loop) (.input i) = (.running st, os) →
      TypingStep B C input world n { n with loop := st, down := n.down ++ sends os }
  | world {n : TypingPage I S P} (s : S) : world n.loop.comp s → TypingStep B C input world n { n with loop := { n.loop with comp := s } }

/-- Any number of steps. Used for puck_liveview/src/component/mod.rs:90-186 and puck_liveview/client/index.js:3-78. -/
inductive TypingSteps (B : Browser) (C : Component D I S E P) (input : I → Prop) (world : S → S → Prop) : TypingPage I S P → TypingPage I S P → Prop
  | refl (n : TypingPage I S P) : TypingSteps B C input world n n
  | step {n n' n'' : TypingPage I S P} : TypingSteps B C input world n n' → TypingStep B C input world n' n'' → TypingSteps B C input world n n''

end Puck
