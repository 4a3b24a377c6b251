import Verif.Model.Element
/-!
# `puck_liveview/src/dom/element/render.rs`
-/
namespace Puck

/-- puck_liveview/src/dom/element/render.rs:33-38 `write_attributes`; the attributes in iteration order of the map. -/
def writeAttributes (attributes : Headers) : String :=
  attributes.foldr (fun p acc => "\"" ++ p.1 ++ "\"=" ++ "\"" ++ p.2 ++ "\" " ++ acc) ""

/-- puck_liveview/src/dom/element/render.rs:23-25 `write_opening_tag`. -/
def writeOpeningTag (name : String) (attributes : Headers) : String := "<" ++ name ++ " " ++ writeAttributes attributes ++ " " ++ ">"

/-- puck_liveview/src/dom/element/render.rs:28-30 `write_closing_tag`. -/
def writeClosingTag (name : String) : String := "</" ++ name ++ ">"

mutual
/-- puck_liveview/src/dom/element/render.rs:6-18 `render`. -/
def Element.renderHtml : Element → String
  | ⟨_, name, attributes, _, children, text, _⟩ =>
    writeOpeningTag name attributes ++ (match text with | some t => t | none => "") ++ renderHtmlAll children ++ writeClosingTag name
/-- puck_liveview/src/dom/element/render.rs:13-17: the children, in order. -/
def renderHtmlAll : List Element → String
  | [] => ""
  | c :: cs => c.renderHtml ++ renderHtmlAll cs
end

end Puck
