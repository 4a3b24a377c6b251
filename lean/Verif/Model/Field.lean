import Verif.Model.Client
/-!
# The browser client, with what the user has typed

`Model/Client.lean` has the part of a page which scripts can see in the markup.  A form field has something else, which the markup does not show:
the text the user typed into it (HTML standard: the field's value, once its dirty value flag is set).
-/
namespace Puck

/-- A DOM node; `typed` is what the user has typed into the element (`none`: nothing so far, the dirty value flag is not set).
Used for puck_liveview/client/index.js:58-60. -/
inductive LiveDom where
  | text (s : String)
  | elem (tag : String) (attrs : Headers) (listeners : List ListenerRef) (typed : Option String) (children : List LiveDom)

/-- The text a field shows (HTML standard): what was typed into it, and otherwise its attribute `value`. Used for puck_liveview/client/index.js:59. -/
def fieldText (attrs : Headers) (typed : Option String) : String := typed.getD ((attrs.get "value").getD "")

mutual
/-- The markup of a node. Used for puck_liveview/client/index.js:3-78. -/
def LiveDom.erase : LiveDom → Dom
  | .text s => .text s
  | .elem tag attrs listeners _ children => .elem tag attrs listeners (eraseAll children)
/-- Siblings. Used for puck_liveview/client/index.js:3-78. -/
def eraseAll : List LiveDom → List Dom
  | [] => []
  | c :: cs => c.erase :: eraseAll cs
end

mutual
/-- A node into which nothing has been typed. Used for puck_liveview/client/index.js:9-15. -/
def Dom.fresh : Dom → LiveDom
  | .text s => .text s
  | .elem tag attrs listeners children => .elem tag attrs listeners none (freshAll children)
/-- Siblings. Used for puck_liveview/client/index.js:28. -/
def freshAll : List Dom → List LiveDom
  | [] => []
  | c :: cs => c.fresh :: freshAll cs
end

mutual
/-- As `replaceNode`: `document.getElementById(id)` and what is done with the element found. Used for puck_liveview/client/index.js:14-75. -/
def replaceLive (id : String) (f : LiveDom → Option (List LiveDom)) : LiveDom → Option (Option (List LiveDom))
  | .text _ => none
  | .elem tag attrs listeners typed children =>
    if attrs.get "id" = some id then some (f (.elem tag attrs listeners typed children))
    else
      match replaceLiveIn id f children with
      | none => none
      | some none => some none
      | some (some cs) => some (some [.elem tag attrs listeners typed cs])
/-- Siblings, left to right. Used for puck_liveview/client/index.js:14-75. -/
def replaceLiveIn (id : String) (f : LiveDom → Option (List LiveDom)) : List LiveDom → Option (Option (List LiveDom))
  | [] => none
  | c :: cs =>
    match replaceLive id f c with
    | some none => some none
    | some (some c') => some (some (c' ++ cs))
    | none =>
      match replaceLiveIn id f cs with
      | none => none
      | some none => some none
      | some (some cs') => some (some (c :: cs'))
end

/-- As `withElement`. Used for puck_liveview/client/index.js:14-75. -/
def withLive (id : String) (f : LiveDom → Option (List LiveDom)) (body : List LiveDom) : Option (List LiveDom) :=
  match replaceLiveIn id f body with
  | none => none
  | some r => r

mutual
/-- `cloneNode(true)`: event listeners are not copied; what was typed is (HTML standard: the cloning steps of `input` and `textarea`).
Used for puck_liveview/client/index.js:66. -/
def LiveDom.cloneNode : LiveDom → LiveDom
  | .text s => .text s
  | .elem tag attrs _ typed children => .elem tag attrs [] typed (cloneLiveAll children)
/-- Siblings. Used for puck_liveview/client/index.js:66. -/
def cloneLiveAll : List LiveDom → List LiveDom
  | [] => []
  | c :: cs => c.cloneNode :: cloneLiveAll cs
end

/-- puck_liveview/client/index.js:6-76, as `clientOp`: one instruction.  New elements (lines 9, 27) and elements parsed from `innerHTML` (line 28) have had
nothing typed into them; attributes (lines 16-24) and `textContent` (line 38) leave what was typed into an element as it is.  Simplified: a change of
the attribute `type` also does. -/
def liveOp (B : Browser) (w : WireOp) (body : List LiveDom) : Option (List LiveDom) :=
  if w.ty = "createTag" then
    match w.payload with
    | none => none
    | some payload =>
      match splitPlus payload with
      | [] => none
      | name :: rest =>
        if B.validTag name then
          let el : LiveDom := .elem (asciiLower name) [("id", w.el)] [] none []
          match rest with
          | [] => some (body ++ [el])
          | parent :: _ =>
            if parent = "" then some (body ++ [el])
            else withLive parent (fun
              | .elem tag attrs ls ty cs => some [.elem tag attrs ls ty (cs ++ [el])]
              | .text _ => none) body
        else none
  else if w.ty = "setAttr" then
    match w.payload with
    | none => none
    | some payload =>
      match splitPlus payload with
      | [] => none
      | key :: rest =>
        withLive w.el (fun
          | .elem tag attrs ls ty cs =>
            if B.validAttr key then
              some [.elem tag (attrs.insert (asciiLower key) (match rest with | value :: _ => value | [] => "undefined")) ls ty cs]
            else none
          | .text _ => none) body
  else if w.ty = "removeAttr" then
    withLive w.el (fun
      | .elem tag attrs ls ty cs => some [.elem tag (attrs.remove (asciiLower (w.payload.getD "undefined"))) ls ty cs]
      | .text _ => none) body
  else if w.ty = "setTagName" then
    withLive w.el (fun
      | .elem _ attrs _ _ cs =>
        let name := w.payload.getD "undefined"
        if B.validTag name then some [.elem (asciiLower name) attrs [] none (freshAll (B.reparse (asciiLower name) (eraseAll cs)))] else none
      | .text _ => none) body
  else if w.ty = "setText" then
    withLive w.el (fun
      | .elem tag attrs ls ty _ => some [.elem tag attrs ls ty (freshAll (textContent (w.payload.getD "")))]
      | .text _ => none) body
  else if w.ty = "attachListener" then
    match w.payload with
    | none => none
    | some payload =>
      match splitPlus payload with
      | [] => none
      | name :: rest =>
        withLive w.el (fun
          | .elem tag attrs ls ty cs => some [.elem tag attrs (ls ++ [⟨name, match rest with | on :: _ => on | [] => "undefined"⟩]) ty cs]
          | .text _ => none) body
  else if w.ty = "removeListeners" then
    withLive w.el (fun d => some [d.cloneNode]) body
  else if w.ty = "deleteEl" then
    withLive w.el (fun _ => some []) body
  else if w.ty = "setId" then
    withLive w.el (fun
      | .elem tag attrs ls ty cs => some [.elem tag (attrs.insert "id" (w.payload.getD "undefined")) ls ty cs]
      | .text _ => none) body
  else some body

/-- puck_liveview/client/index.js:3-5 and :77-78, as `clientMessage`. -/
def liveMessage (B : Browser) : List WireOp → List LiveDom → List LiveDom
  | [], body => body
  | w :: ws, body =>
    match liveOp B w body with
    | none => body
    | some body' => liveMessage B ws body'

mutual
/-- The user changes the text in the field with this id to `v` (all of them, if several elements have it). Used for puck_liveview/client/index.js:54-61. -/
def LiveDom.typeInto (id v : String) : LiveDom → LiveDom
  | .text s => .text s
  | .elem tag attrs listeners typed children =>
    .elem tag attrs listeners (if attrs.get "id" = some id then some v else typed) (typeIntoAll id v children)
/-- Siblings. Used for puck_liveview/client/index.js:54-61. -/
def typeIntoAll (id v : String) : List LiveDom → List LiveDom
  | [] => []
  | c :: cs => c.typeInto id v :: typeIntoAll id v cs
end

/-- What happens in a browser: a message from the server, or the user changes the text in the field of an element of the view.
Used for puck_liveview/client/index.js:3, :54-61. -/
inductive Happening where
  | message (ops : List WireOp)
  | typed (id : Nat) (v : String)

/-- The page after this has happened. Used for puck_liveview/client/index.js:3, :54-61. -/
def happens (B : Browser) : List Happening → List LiveDom → List LiveDom
  | [], body => body
  | .message ops :: hs, body => happens B hs (liveMessage B ops body)
  | .typed id v :: hs, body => happens B hs (typeIntoAll (toString id) v body)

end Puck
