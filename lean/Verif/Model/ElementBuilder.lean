import Verif.Model.Element
/-!
# `puck_liveview/src/dom/element/mod.rs`: `Element::build()`

`ElementBuilder` is generated by `#[derive(Builder)]` (crate `derive_builder`, not in the repository): one optional slot
per field, setters that overwrite it, and a `build` that fails unless every slot is filled.
-/
namespace Puck

/-- puck_liveview/src/dom/element/mod.rs:12-23: the generated `ElementBuilder`. -/
structure ElementBuilder where
  id : Option Nat
  name : Option String
  attributes : Option Headers
  listeners : Option (List ListenerRef)
  children : Option (List Element)
  text : Option (Option String)
  key : Option (Option String)

/-- puck_liveview/src/dom/element/mod.rs:31-34 `Element::build`. -/
def ElementBuilder.default : ElementBuilder := ⟨none, none, none, none, none, none, none⟩

/-- One call of a generated setter (puck_liveview/src/dom/element/mod.rs:14-22). -/
inductive ElementSetter where
  | id (v : Nat)
  | name (v : String)
  | attributes (v : Headers)
  | listeners (v : List ListenerRef)
  | children (v : List Element)
  | text (v : Option String)
  | key (v : Option String)

/-- The generated setters. Used for puck_liveview/src/dom/element/mod.rs:12-23. -/
def ElementBuilder.set (b : ElementBuilder) : ElementSetter → ElementBuilder
  | .id v => { b with id := some v }
  | .name v => { b with name := some v }
  | .attributes v => { b with attributes := some v }
  | .listeners v => { b with listeners := some v }
  | .children v => { b with children := some v }
  | .text v => { b with text := some v }
  | .key v => { b with key := some v }

/-- The generated `build`: `none` is `Err(UninitializedField)`. Used for puck_liveview/src/dom/element/mod.rs:12. -/
def ElementBuilder.build (b : ElementBuilder) : Option Element :=
  match b.id, b.name, b.attributes, b.listeners, b.children, b.text, b.key with
  | some id, some name, some attributes, some listeners, some children, some text, some key =>
    some ⟨id, name, attributes, listeners, children, text, key⟩
  | _, _, _, _, _, _, _ => none

end Puck
