import Verif.Model.Element
/-!
# Specification: a tree as a table

One row per element, in document order: its id, its contents, and the ids of its children.  A tree with distinct ids is determined by its table.
-/
namespace Puck

/-- One element, its children represented by their ids. -/
structure Row where
  id : Nat
  name : String
  attributes : Headers
  listeners : List ListenerRef
  text : Option String
  key : Option String
  kids : List Nat

/-- A fresh element. -/
def Row.blank (id : Nat) (name : String) : Row := ⟨id, name, [], [], none, none, []⟩

mutual
/-- The table of a tree, in document order. -/
def Element.rows : Element → List Row
  | ⟨id, name, attributes, listeners, children, text, key⟩ =>
    ⟨id, name, attributes, listeners, text, key, children.map (·.id)⟩ :: rowsOf children
/-- The table of a forest. -/
def rowsOf : List Element → List Row
  | [] => []
  | c :: cs => c.rows ++ rowsOf cs
end

end Puck
