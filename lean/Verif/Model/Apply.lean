import Verif.Model.Diff
/-!
# `puck_liveview/src/dom/element/diff/changeset/apply.rs` : applying a changeset to a tree
-/
namespace Puck

mutual
/-- apply.rs:192-203 `find_el_with_id` together with what the caller does to the element found: `none` - not
found; `some none` - found and the mutation panicked; `some (some t)` - the tree afterwards. -/
def mutateFirst (id : Nat) (f : Element → Option Element) : Element → Option (Option Element)
  | ⟨eid, name, attributes, listeners, children, text, key⟩ =>
    if id = eid then some (f ⟨eid, name, attributes, listeners, children, text, key⟩)
    else
      match mutateFirstIn id f children with
      | none => none
      | some none => some none
      | some (some cs) => some (some ⟨eid, name, attributes, listeners, cs, text, key⟩)
/-- apply.rs:196-201: the children, left to right. -/
def mutateFirstIn (id : Nat) (f : Element → Option Element) : List Element → Option (Option (List Element))
  | [] => none
  | c :: cs =>
    match mutateFirst id f c with
    | some none => some none
    | some (some c') => some (some (c' :: cs))
    | none =>
      match mutateFirstIn id f cs with
      | none => none
      | some none => some none
      | some (some cs') => some (some (c :: cs'))
end

/-- apply.rs:178-181 `find_and_mutate` (and lines 20-21, 29, 59, 89-90): panics if there is no such element. -/
def findAndMutate (id : Nat) (f : Element → Option Element) (root : Element) : Option Element :=
  match mutateFirst id f root with
  | none => none
  | some r => r

mutual
/-- apply.rs:161-172 `find_parent_id`. -/
def findParentId (id : Nat) : Element → Option Nat
  | ⟨eid, _, _, _, children, _, _⟩ => findParentIdIn id eid children
/-- apply.rs:162-170: the loop over the children of the element with id `pid`. -/
def findParentIdIn (id pid : Nat) : List Element → Option Nat
  | [] => none
  | c :: cs =>
    if c.id = id then some pid
    else
      match findParentId id c with
      | some r => some r
      | none => findParentIdIn id pid cs
end

/-- apply.rs:151-154 `position` and `remove`. -/
def removeChild (id : Nat) : List Element → Option (List Element)
  | [] => none
  | c :: cs => if c.id = id then some cs else (removeChild id cs).map (c :: ·)

/-- apply.rs:35-48, :65-78: index of the first child with that id (`expect`). -/
def childIndex (id : Nat) (cs : List Element) : Option Nat := cs.findIdx? fun c => c.id == id

/-- apply.rs:16-157: one operation; `none` is a panic. -/
def applyOp (op : Op) (root : Element) : Option Element :=
  match op.instruction with
  | .insertChild newId => findAndMutate op.id (fun el => some { el with children := el.children ++ [.blank newId ""] }) root
  | .insertAfter afterId =>
    findAndMutate op.id (fun el =>
      (childIndex afterId el.children).map fun i => { el with children := el.children.insertIdx (i + 1) (.blank afterId "") }) root
  | .insertBefore beforeId =>
    findAndMutate op.id (fun el =>
      (childIndex beforeId el.children).map fun i => { el with children := el.children.insertIdx i (.blank beforeId "") }) root
  | .setAttribute k v => findAndMutate op.id (fun el => some { el with attributes := el.attributes.insert k v }) root
  | .removeAttribute k => findAndMutate op.id (fun el => some { el with attributes := el.attributes.remove k }) root
  | .setId v => findAndMutate op.id (fun el => some { el with id := v }) root
  | .setText v => findAndMutate op.id (fun el => some { el with text := some v }) root
  | .setTagName n => findAndMutate op.id (fun el => some { el with name := n }) root
  | .createTag n parent =>
    match parent with
    | none => none
    | some p => findAndMutate p (fun el => some { el with children := el.children ++ [.blank op.id n] }) root
  | .removeText => findAndMutate op.id (fun el => some { el with text := none }) root
  | .removeListeners => findAndMutate op.id (fun el => some { el with listeners := [] }) root
  | .attachListener n on => findAndMutate op.id (fun el => some { el with listeners := el.listeners ++ [⟨n, on⟩] }) root
  | .setInnerHtml _ _ => none
  | .deleteEl =>
    match findParentId op.id root with
    | none => none
    | some pid => findAndMutate pid (fun el => (removeChild op.id el.children).map fun cs => { el with children := cs }) root

/-- apply.rs:15-159 `Changeset::apply`. -/
def applyOps : List Op → Element → Option Element
  | [], root => some root
  | op :: ops, root =>
    match applyOp op root with
    | none => none
    | some root' => applyOps ops root'

end Puck
