/-!
# Which paths the browser asks for

RFC 3986, section 5.2, for the two references that occur in the client, relative to the page's own path.  A page's
path has no `.` or `..` segments: the browser removes them before it sends the request.
-/
namespace Puck

/-- The path up to and including its last slash (RFC 3986, 5.2.3). -/
def directoryChars : List Char → List Char
  | [] => []
  | c :: cs =>
    if '/' ∈ cs then c :: directoryChars cs
    else if c = '/' then [c]
    else []

/-- `<script src="./name">` on a page with this path: the directory, then the name (the dot segment is removed). -/
def scriptPath (page name : String) : String := String.ofList (directoryChars page.toList) ++ name

/-- `new WebSocket("ws://" + window.location.host + window.location.pathname + "ws")` on a page with this path. -/
def socketPath (page : String) : String := page ++ "ws"

/-- RFC 3986, 5.4.1: `./g` relative to `/b/c/d;p` is `/b/c/g`. -/
example : scriptPath "/b/c/d;p" "g" = "/b/c/g" := by decide +kernel

end Puck
