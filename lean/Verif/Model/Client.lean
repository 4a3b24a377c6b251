import Verif.Model.Diff
/-!
# The wire format of changesets, and the browser client

`puck_liveview/src/dom/element/diff/changeset/instruction_serializer.rs` and `puck_liveview/client/index.js`.
The JSON text between the two is in `Model/Json.lean`.
-/
namespace Puck

/-- One element of the JSON array: `{el, ty, payload}`, the payload being absent for some types.
Used for puck_liveview/src/dom/element/diff/changeset/instruction_serializer.rs:29-108. -/
structure WireOp where
  el : String
  ty : String
  payload : Option String
  deriving DecidableEq, Repr

/-- instruction_serializer.rs:27-108 `OpSerializer::serialize`. -/
def Op.serialize (op : Op) : WireOp :=
  let el := toString op.id
  match op.instruction with
  | .insertChild newChildId => ⟨el, "insertChild", some (toString newChildId)⟩
  | .insertAfter afterId => ⟨el, "insertAfter", some (toString afterId)⟩
  | .setAttribute key value => ⟨el, "setAttr", some (key ++ "+" ++ value)⟩
  | .setId value => ⟨el, "setId", some (toString value)⟩
  | .setText value => ⟨el, "setText", some value⟩
  | .setTagName name => ⟨el, "setTagName", some name⟩
  | .createTag name parentId =>
    ⟨el, "createTag", some (name ++ "+" ++ (match parentId with | some p => toString p | none => ""))⟩
  | .removeText => ⟨el, "removeText", none⟩
  | .removeListeners => ⟨el, "removeListeners", none⟩
  | .attachListener name on => ⟨el, "attachListener", some (name ++ "+" ++ on)⟩
  | .setInnerHtml element html => ⟨el, "setInnerHtml", some (element ++ "+" ++ html)⟩
  | .insertBefore beforeId => ⟨el, "insertBefore", some (toString beforeId)⟩
  | .removeAttribute key => ⟨el, "removeAttr", some key⟩
  | .deleteEl => ⟨el, "deleteEl", none⟩

/-- instruction_serializer.rs:12-24 `InstructionSerializer::serialize`. -/
def serializeOps (ops : List Op) : List WireOp := ops.map Op.serialize

/-- A DOM node.  `listeners` are the registered event listeners, each a pair of the name it sends and the event
it listens to (the closure of index.js:40-63).  The `id` of an element is its attribute `id`. -/
inductive Dom where
  | text (s : String)
  | elem (tag : String) (attrs : Headers) (listeners : List ListenerRef) (children : List Dom)

/-- What the DOM standard leaves to the names: whether `createElement` and `setAttribute` accept a name.
Used for puck_liveview/client/index.js:9, :22, :27-28. -/
structure Browser where
  validTag : String → Bool
  validAttr : String → Bool
  /-- the children of a `new` element after `new.innerHTML = old.innerHTML` (index.js:28) -/
  reparse : (newTag : String) → (oldChildren : List Dom) → List Dom
  /-- nothing gives nothing -/
  reparse_nil : ∀ t, reparse t [] = []

/-- ASCII lowercase: what `createElement` and `setAttribute` do to names in an HTML document. Used for puck_liveview/client/index.js:9, :22, :27. -/
def asciiLower (s : String) : String := String.ofList (s.toList.map Char.toLower)

/-- `String.prototype.split("+")`, on characters. Used for puck_liveview/client/index.js:8, :19, :40. -/
def splitPlusAux : List Char → List (List Char)
  | [] => [[]]
  | c :: cs =>
    match splitPlusAux cs with
    | [] => [[]]
    | w :: ws => if c = '+' then [] :: w :: ws else (c :: w) :: ws

/-- `String.prototype.split("+")`. Used for puck_liveview/client/index.js:8, :19, :40. -/
def splitPlus (s : String) : List String := (splitPlusAux s.toList).map String.ofList

mutual
/-- `document.getElementById(id)` (first in document order) together with what is done with the element found:
`f` gives the nodes that take its place.  `none`: there is no such element; `some none`: found, and an
exception is thrown. Used for puck_liveview/client/index.js:14, :21-22, :24, :26-35, :38, :41, :65-67, :69-72, :75. -/
def replaceNode (id : String) (f : Dom → Option (List Dom)) : Dom → Option (Option (List Dom))
  | .text _ => none
  | .elem tag attrs listeners children =>
    if attrs.get "id" = some id then some (f (.elem tag attrs listeners children))
    else
      match replaceIn id f children with
      | none => none
      | some none => some none
      | some (some cs) => some (some [.elem tag attrs listeners cs])
/-- Siblings, left to right. Used for puck_liveview/client/index.js:14-75. -/
def replaceIn (id : String) (f : Dom → Option (List Dom)) : List Dom → Option (Option (List Dom))
  | [] => none
  | c :: cs =>
    match replaceNode id f c with
    | some none => some none
    | some (some c') => some (some (c' ++ cs))
    | none =>
      match replaceIn id f cs with
      | none => none
      | some none => some none
      | some (some cs') => some (some (c :: cs'))
end

/-- `getElementById` and use: `none` is an exception (`null` has no properties). Used for puck_liveview/client/index.js:14-75. -/
def withElement (id : String) (f : Dom → Option (List Dom)) (body : List Dom) : Option (List Dom) :=
  match replaceIn id f body with
  | none => none
  | some r => r

mutual
/-- `cloneNode(true)`: event listeners are not copied. Used for puck_liveview/client/index.js:66. -/
def Dom.cloneNode : Dom → Dom
  | .text s => .text s
  | .elem tag attrs _ children => .elem tag attrs [] (cloneAll children)
/-- Siblings. Used for puck_liveview/client/index.js:66. -/
def cloneAll : List Dom → List Dom
  | [] => []
  | c :: cs => c.cloneNode :: cloneAll cs
end

/-- `Element.textContent = s`: all children replaced by one text node, or by none if `s` is empty. Used for puck_liveview/client/index.js:38. -/
def textContent (s : String) : List Dom := if s = "" then [] else [.text s]

/-- index.js:6-76: one instruction, on the children of `document.body`; `none` is an exception.  No branch has
changed the document when it throws.  Simplified: lines 32-37 copy attributes that are already on the old
element, so `setAttribute` neither rejects nor changes their names. -/
def clientOp (B : Browser) (w : WireOp) (body : List Dom) : Option (List Dom) :=
  if w.ty = "createTag" then
    match w.payload with
    | none => none
    | some payload =>
      match splitPlus payload with
      | [] => none
      | name :: rest =>
        if B.validTag name then
          let el : Dom := .elem (asciiLower name) [("id", w.el)] [] []
          match rest with
          | [] => some (body ++ [el])
          | parent :: _ =>
            if parent = "" then some (body ++ [el])
            else withElement parent (fun
              | .elem tag attrs ls cs => some [.elem tag attrs ls (cs ++ [el])]
              | .text _ => none) body
        else none
  else if w.ty = "setAttr" then
    match w.payload with
    | none => none
    | some payload =>
      match splitPlus payload with
      | [] => none
      | key :: rest =>
        withElement w.el (fun
          | .elem tag attrs ls cs =>
            if B.validAttr key then
              some [.elem tag (attrs.insert (asciiLower key) (match rest with | value :: _ => value | [] => "undefined")) ls cs]
            else none
          | .text _ => none) body
  else if w.ty = "removeAttr" then
    withElement w.el (fun
      | .elem tag attrs ls cs => some [.elem tag (attrs.remove (asciiLower (w.payload.getD "undefined"))) ls cs]
      | .text _ => none) body
  else if w.ty = "setTagName" then
    withElement w.el (fun
      | .elem _ attrs _ cs =>
        let name := w.payload.getD "undefined"
        if B.validTag name then some [.elem (asciiLower name) attrs [] (B.reparse (asciiLower name) cs)] else none
      | .text _ => none) body
  else if w.ty = "setText" then
    withElement w.el (fun
      | .elem tag attrs ls _ => some [.elem tag attrs ls (textContent (w.payload.getD ""))]
      | .text _ => none) body
  else if w.ty = "attachListener" then
    match w.payload with
    | none => none
    | some payload =>
      match splitPlus payload with
      | [] => none
      | name :: rest =>
        withElement w.el (fun
          | .elem tag attrs ls cs => some [.elem tag attrs (ls ++ [⟨name, match rest with | on :: _ => on | [] => "undefined"⟩]) cs]
          | .text _ => none) body
  else if w.ty = "removeListeners" then
    withElement w.el (fun d => some [d.cloneNode]) body
  else if w.ty = "deleteEl" then
    withElement w.el (fun _ => some []) body
  else if w.ty = "setId" then
    withElement w.el (fun
      | .elem tag attrs ls cs => some [.elem tag (attrs.insert "id" (w.payload.getD "undefined")) ls cs]
      | .text _ => none) body
  else some body

/-- index.js:3-5 and :77-78: a message; an exception leaves the rest of the message unprocessed. -/
def clientMessage (B : Browser) : List WireOp → List Dom → List Dom
  | [], body => body
  | w :: ws, body =>
    match clientOp B w body with
    | none => body
    | some body' => clientMessage B ws body'

/-- index.js:40-63: what an event of type `on`, in an element where `listener` is registered, sends to the server:
the listener's name and, for input events, the value. -/
def clientEvent (listener : ListenerRef) (on value : String) : Option (String × Option String) :=
  if on = listener.jsEvent then
    if listener.jsEvent = "click" then some (listener.listenerName, none)
    else if listener.jsEvent = "submit" then some (listener.listenerName, none)
    else if listener.jsEvent = "input" then some (listener.listenerName, some value)
    else none
  else none

end Puck
