import Verif.Model.Router
/-!
# `puck_liveview/src/init.rs` and the routes of `examples/chat/src/main.rs`
-/
namespace Puck

/-- puck_liveview/src/init.rs:11-21: the page. -/
def indexHtml : String :=
  "\n        <!DOCTYPE html>\n        <html>\n            <head>\n                <script src=\"./js\"></script>\n            </head>\n            <body>\n            </body>\n        </html>\n        "

/-- puck_liveview/src/init.rs:7-23 `index`. -/
def initIndex : Response :=
  ((ResponseBuilder.new.header "Content-Type" "text/html").setBody (Body.fromString indexHtml)).build

/-- puck_liveview/src/init.rs:28-33 `js`; `script` is the text of client/index.js (`include_str!`), which is modelled in
`Model/Client.lean`. -/
def initJs (script : String) : Response :=
  ((ResponseBuilder.new.header "Content-Type" "application/javascript").setBody (Body.fromString script)).build

/-- `stream.respond(..).unwrap()` in a handler. Used for examples/chat/src/main.rs:475, :479 and examples/list/src/main.rs:48, :81, :84, :124, :129. -/
def respondUnwrap (env : HttpEnv) (r : Response) (s : Sink) : Outcome Unit Unit × Sink :=
  match Stream.respond env false r s with
  | (.ok _, s') => (.ok (), s')
  | (_, s') => (.panic, s')

/-- examples/chat/src/main.rs:481-489: the handler of the WebSocket route.  `liveview` (:347-355) only spawns processes. -/
def socketHandler (env : HttpEnv) (sha1 : Bytes → Bytes) (req : Request) (s : Sink) : Outcome Unit Unit × Sink :=
  match Stream.upgrade env sha1 req s with
  | (.ok _, s') => (.ok (), s')
  | (.err _, s') => (.ok (), s')
  | (.panic, s') => (.panic, s')

/-- An application as the documentation of `init` describes it: the script, the page and the WebSocket, each under its own
pattern (puck_liveview/src/init.rs:3-6, :25-27). -/
def mountedRoutes (env : HttpEnv) (sha1 : Bytes → Bytes) (script : String) (js index ws : List Segment) : List (Route Unit) :=
  Router.route (Router.route (Router.route []
    ⟨fun req => doesMatch js req.url, fun _ _ s => respondUnwrap env (initJs script) s⟩)
    ⟨fun req => doesMatch index req.url, fun _ _ s => respondUnwrap env initIndex s⟩)
    ⟨fun req => doesMatch ws req.url, fun req _ s => socketHandler env sha1 req s⟩

/-- examples/chat/src/main.rs:472-490: the chat application's routes. -/
def chatRoutes (env : HttpEnv) (sha1 : Bytes → Bytes) (script : String) : List (Route Unit) :=
  mountedRoutes env sha1 script [.static "js"] [.static ""] [.static "ws"]

end Puck
