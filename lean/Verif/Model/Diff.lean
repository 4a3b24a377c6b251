import Verif.Model.Element
/-!
# `puck_liveview/src/dom/element/diff/` : changesets and how they are computed
-/
namespace Puck

/-- puck_liveview/src/dom/element/diff/changeset/mod.rs:49-92 `Instruction`.  Simplified: ids are `String`s
made with `usize::to_string` in the code and numbers here (they become decimal strings when serialised). -/
inductive Instruction where
  | insertChild (newChildId : Nat)
  | insertAfter (afterId : Nat)
  | insertBefore (beforeId : Nat)
  | setAttribute (key value : String)
  | removeAttribute (key : String)
  | setId (value : Nat)
  | setText (value : String)
  | setTagName (name : String)
  | createTag (name : String) (parentId : Option Nat)
  | removeText
  | removeListeners
  | attachListener (name on : String)
  | setInnerHtml (element html : String)
  | deleteEl
  deriving DecidableEq, Repr

/-- puck_liveview/src/dom/element/diff/changeset/mod.rs:42-45 `Op`. -/
structure Op where
  id : Nat
  instruction : Instruction
  deriving DecidableEq, Repr

/-- puck_liveview/src/dom/element/diff/mod.rs:194-208 `generate_listeners`. -/
def Element.generateListeners (e : Element) : List Op :=
  e.listeners.map fun l => ⟨e.id, .attachListener l.listenerName l.jsEvent⟩

mutual
/-- puck_liveview/src/dom/element/diff/mod.rs:39-76 `create_from_scratch`. -/
def createFromScratch (parent : Option Nat) : Element → List Op
  | ⟨id, name, attributes, listeners, children, text, key⟩ =>
    [⟨id, .createTag name parent⟩] ++
    attributes.map (fun p => ⟨id, .setAttribute p.1 p.2⟩) ++
    Element.generateListeners ⟨id, name, attributes, listeners, [], text, key⟩ ++
    (match text with
      | some value => [⟨id, .setText value⟩]
      | none => []) ++
    createAll (some id) children
/-- puck_liveview/src/dom/element/diff/mod.rs:71-73 and :292-294: a list of siblings, in order. -/
def createAll (parent : Option Nat) : List Element → List Op
  | [] => []
  | c :: cs => createFromScratch parent c ++ createAll parent cs
end

/-- puck_liveview/src/dom/element/diff/mod.rs:80-99 `diff_text`. -/
def Element.diffText (self other : Element) : List Op :=
  if self.text = other.text then []
  else match other.text with
    | some value => [⟨self.id, .setText value⟩]
    | none => [⟨self.id, .removeText⟩]

/-- puck_liveview/src/dom/element/diff/mod.rs:103-112 `diff_id`. -/
def Element.diffId (self other : Element) : List Op :=
  if self.id = other.id then [] else [⟨self.id, .setId other.id⟩]

/-- puck_liveview/src/dom/element/diff/mod.rs:116-127 `diff_name` (line 119: the op's id is `other.id()`). -/
def Element.diffName (self other : Element) : List Op :=
  if self.name = other.name then [] else [⟨other.id, .setTagName other.name⟩]

/-- puck_liveview/src/dom/element/diff/mod.rs:131-174 `diff_attributes`. -/
def Element.diffAttributes (self other : Element) : List Op :=
  if Headers.same self.attributes other.attributes then []
  else
    (self.attributes.filterMap fun p =>
      if (other.attributes.get p.1).isSome then none else some ⟨self.id, .removeAttribute p.1⟩) ++
    (other.attributes.filterMap fun p =>
      match self.attributes.get p.1 with
      | some v => if v = p.2 then none else some ⟨self.id, .setAttribute p.1 p.2⟩
      | none => some ⟨self.id, .setAttribute p.1 p.2⟩)

/-- puck_liveview/src/dom/element/diff/mod.rs:178-191 `diff_listeners`. -/
def Element.diffListeners (self other : Element) : List Op :=
  if self.listeners = other.listeners then []
  else ⟨self.id, .removeListeners⟩ :: other.generateListeners

/-- puck_liveview/src/dom/element/diff/mod.rs:302-304 `children_are_all_keyed`. -/
def allKeyed (children : List Element) : Bool := children.all fun c => c.key.isSome

/-- puck_liveview/src/dom/element/diff/mod.rs:211-215 `locate_child_by_key` (called on keyed children only). -/
def locateByKey (children : List Element) (key : Option String) : Option Element :=
  children.find? fun c => c.key == key

/-- puck_liveview/src/dom/element/diff/mod.rs:225-232: indices of the children of the new node that have no
counterpart. -/
def unpaired (mine theirs : List Element) : List Nat :=
  (List.range theirs.length).filter fun i =>
    match theirs[i]? with
    | some t => (locateByKey mine t.key).isNone
    | none => false

/-- puck_liveview/src/dom/element/diff/mod.rs:234-253: the insertion for the unpaired child with index `each`;
`len` is the number of unpaired children.  `none` is the out-of-bounds panic on line 241. -/
def insertionOp (theirs : List Element) (len each : Nat) : Option Op :=
  match theirs[each]? with
  | none => none
  | some t =>
    if each = 0 then
      match theirs[1]? with
      | some n => some ⟨t.id, .insertBefore n.id⟩
      | none => none
    else if each = len then some ⟨t.id, .insertAfter t.id⟩
    else
      match theirs[each - 1]? with
      | some n => some ⟨t.id, .insertBefore n.id⟩
      | none => none

/-- All of them; `none` if one panics. Used for puck_liveview/src/dom/element/diff/mod.rs:234-253. -/
def insertionOps (theirs : List Element) (len : Nat) : List Nat → Option (List Op)
  | [] => some []
  | each :: rest =>
    match insertionOp theirs len each with
    | none => none
    | some op =>
      match insertionOps theirs len rest with
      | none => none
      | some ops => some (op :: ops)

/-- puck_liveview/src/dom/element/diff/mod.rs:256-266: delete the children that are gone. -/
def deletionOps (mine theirs : List Element) : List Op :=
  mine.filterMap fun m => if (locateByKey theirs m.key).isNone then some ⟨m.id, .deleteEl⟩ else none

mutual
/-- puck_liveview/src/dom/element/diff/mod.rs:16-33 `Element::diff(self, Some(other))`; `none` is a panic.
The children part is `diff_children`, lines 219-299. -/
def diff (self : Element) : (other : Element) → Option (List Op)
  | ⟨oid, oname, oattributes, olisteners, ochildren, otext, okey⟩ =>
    let other : Element := ⟨oid, oname, oattributes, olisteners, [], otext, okey⟩
    let children : Option (List Op) :=
      if allKeyed self.children && allKeyed ochildren then
        match diffKeyed self.children ochildren with
        | none => none
        | some pairs =>
          let un := unpaired self.children ochildren
          match insertionOps ochildren un.length un with
          | none => none
          | some ins => some (pairs ++ ins ++ deletionOps self.children ochildren)
      else if self.children.length = ochildren.length then diffZip self.children ochildren
      else if ochildren.length < self.children.length then
        match diffZip self.children ochildren with
        | none => none
        | some pairs => some ((self.children.drop ochildren.length).map (fun c => ⟨c.id, .deleteEl⟩) ++ pairs)
      else
        match diffZip self.children ochildren with
        | none => none
        | some pairs => some (pairs ++ createAll (some self.id) (ochildren.drop self.children.length))
    match children with
    | none => none
    | some cs =>
      some (self.diffName other ++ self.diffAttributes other ++ self.diffText other ++ self.diffListeners other ++
        cs ++ self.diffId other)
/-- puck_liveview/src/dom/element/diff/mod.rs:225-232: children paired by key, in the new order. -/
def diffKeyed (mine : List Element) : (theirs : List Element) → Option (List Op)
  | [] => some []
  | t :: ts =>
    match locateByKey mine t.key with
    | none => diffKeyed mine ts
    | some m =>
      match diff m t with
      | none => none
      | some d =>
        match diffKeyed mine ts with
        | none => none
        | some ds => some (d ++ ds)
/-- puck_liveview/src/dom/element/diff/mod.rs:273-275, :284-286, :288-290: children paired by position. -/
def diffZip (mine : List Element) : (theirs : List Element) → Option (List Op)
  | [] => some []
  | t :: ts =>
    match mine with
    | [] => some []
    | m :: ms =>
      match diff m t with
      | none => none
      | some d =>
        match diffZip ms ts with
        | none => none
        | some ds => some (d ++ ds)
end

/-- puck_liveview/src/dom/element/diff/mod.rs:16-33 `Element::diff`. -/
def Element.diff (self : Element) (other : Option Element) : Option (List Op) :=
  match other with
  | some o => Puck.diff self o
  | none => some (createFromScratch none self)

end Puck
