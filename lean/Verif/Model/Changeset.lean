import Verif.Model.Json
import Verif.Model.Diff
/-!
# `puck_liveview/src/dom/element/diff/changeset/mod.rs`: the public (de)serialisable forms of a changeset

`Changeset` derives `Serialize`, `DeserializeChangeset` derives `Deserialize`.  The derive macros and `serde_json` are
not in the repository: they are modelled from their documented representation (structs as objects, enums externally
tagged, unit variants as strings, `None` as `null`, unknown members ignored, structs also read from arrays).
-/
namespace Puck.Json

/-- What a derived `Serialize` hands to `serde_json::to_string`. Used for puck_liveview/src/dom/element/diff/changeset/mod.rs:41, :48. -/
inductive Ser where
  | null
  | str (s : String)
  | seq (items : List Ser)
  | map (members : List (String × Ser))

mutual
/-- `serde_json::to_string` (compact). Used for puck_liveview/src/dom/element/diff/changeset/mod.rs:41, :48. -/
def Ser.write : Ser → List Char
  | .null => ['n', 'u', 'l', 'l']
  | .str s => writeString s
  | .seq vs => '[' :: (writeSeq vs ++ [']'])
  | .map ms => '{' :: (writeMap ms ++ ['}'])
/-- The elements, separated by commas. Used for puck_liveview/src/dom/element/diff/changeset/mod.rs:41. -/
def writeSeq : List Ser → List Char
  | [] => []
  | [v] => v.write
  | v :: v' :: vs => v.write ++ ',' :: writeSeq (v' :: vs)
/-- The members, separated by commas. Used for puck_liveview/src/dom/element/diff/changeset/mod.rs:48. -/
def writeMap : List (String × Ser) → List Char
  | [] => []
  | [(k, v)] => writeMember k v.write
  | (k, v) :: m :: ms => writeMember k v.write ++ ',' :: writeMap (m :: ms)
end

/-- changeset/mod.rs:49-92, derived `Serialize` for `Instruction` (ids are `usize::to_string`). -/
def Instruction.ser : Instruction → Ser
  | .insertChild n => .map [("InsertChild", .map [("new_child_id", .str (Nat.repr n))])]
  | .insertAfter n => .map [("InsertAfter", .map [("after_id", .str (Nat.repr n))])]
  | .insertBefore n => .map [("InsertBefore", .map [("before_id", .str (Nat.repr n))])]
  | .setAttribute k v => .map [("SetAttribute", .map [("key", .str k), ("value", .str v)])]
  | .removeAttribute k => .map [("RemoveAttribute", .map [("key", .str k)])]
  | .setId n => .map [("SetId", .map [("value", .str (Nat.repr n))])]
  | .setText t => .map [("SetText", .map [("value", .str t)])]
  | .setTagName n => .map [("SetTagName", .map [("name", .str n)])]
  | .createTag n none => .map [("CreateTag", .map [("name", .str n), ("parent_id", .null)])]
  | .createTag n (some p) => .map [("CreateTag", .map [("name", .str n), ("parent_id", .str (Nat.repr p))])]
  | .removeText => .str "RemoveText"
  | .removeListeners => .str "RemoveListeners"
  | .attachListener n on => .map [("AttachListener", .map [("name", .str n), ("on", .str on)])]
  | .setInnerHtml e h => .map [("SetInnerHtml", .map [("element", .str e), ("html", .str h)])]
  | .deleteEl => .str "DeleteEl"

/-- changeset/mod.rs:41-45, derived `Serialize` for `Op`. -/
def Op.ser (op : Op) : Ser := .map [("id", .str (Nat.repr op.id)), ("instruction", Instruction.ser op.instruction)]

/-- `serde_json::to_string(&changeset)` with changeset/mod.rs:13-17, derived `Serialize` for `Changeset`. -/
def changesetJson (ops : List Op) : String := String.ofList (Ser.map [("ops", .seq (ops.map Op.ser))]).write

/-- changeset/mod.rs:112-129 `DeserializeInstruction`. -/
inductive DInstruction where
  | insertChild (newChildId : String)
  | insertAfter (afterId : String)
  | setAttribute (key value : String)
  | setId (value : String)
  | setText (value : String)
  | setTagName (name : String)
  | createTag (name parentId : String)
  | removeText
  | removeListeners
  | attachListener (name on : String)
  | setInnerHtml (element html : String)
  | deleteEl
  deriving DecidableEq, Repr

/-- changeset/mod.rs:102-110 `DeserializeOp`. -/
structure DOp where
  id : String
  instruction : DInstruction
  deriving DecidableEq, Repr

/-- Derived `Deserialize` of a struct (or struct variant) with these mandatory fields: from an object that has each of them
once (others are ignored), or from an array of exactly that many elements. Used for puck_liveview/src/dom/element/diff/changeset/mod.rs:94, :102, :112. -/
def structOf (names : List String) : Value → Option (List Value)
  | .obj ms =>
    if keysOk ms then
      names.mapM fun n =>
        match fields n ms with
        | [v] => some v
        | _ => none
    else none
  | .arr vs => if vs.length = names.length then some vs else none
  | _ => none

/-- All fields are `String`s. Used for puck_liveview/src/dom/element/diff/changeset/mod.rs:112. -/
def stringsOf (names : List String) (v : Value) : Option (List String) :=
  match structOf names v with
  | some vs => vs.mapM Value.toStr
  | none => none

/-- The struct variants: changeset/mod.rs:117-123, :126-127. -/
def variantOf (name : String) (content : Value) : Option DInstruction :=
  if name = "InsertChild" then
    match stringsOf ["new_child_id"] content with | some [a] => some (.insertChild a) | _ => none
  else if name = "InsertAfter" then
    match stringsOf ["after_id"] content with | some [a] => some (.insertAfter a) | _ => none
  else if name = "SetAttribute" then
    match stringsOf ["key", "value"] content with | some [a, b] => some (.setAttribute a b) | _ => none
  else if name = "SetId" then
    match stringsOf ["value"] content with | some [a] => some (.setId a) | _ => none
  else if name = "SetText" then
    match stringsOf ["value"] content with | some [a] => some (.setText a) | _ => none
  else if name = "SetTagName" then
    match stringsOf ["name"] content with | some [a] => some (.setTagName a) | _ => none
  else if name = "CreateTag" then
    match stringsOf ["name", "parent_id"] content with | some [a, b] => some (.createTag a b) | _ => none
  else if name = "AttachListener" then
    match stringsOf ["name", "on"] content with | some [a, b] => some (.attachListener a b) | _ => none
  else if name = "SetInnerHtml" then
    match stringsOf ["element", "html"] content with | some [a, b] => some (.setInnerHtml a b) | _ => none
  else none

/-- The unit variants: changeset/mod.rs:124, :125, :128. -/
def unitVariantOf (name : String) : Option DInstruction :=
  if name = "RemoveText" then some .removeText
  else if name = "RemoveListeners" then some .removeListeners
  else if name = "DeleteEl" then some .deleteEl
  else none

/-- Derived `Deserialize` for `DeserializeInstruction`: externally tagged.  A unit variant is a string, or an object whose
only member is `null`; a struct variant is an object with exactly one member. Used for puck_liveview/src/dom/element/diff/changeset/mod.rs:112-129. -/
def instructionOf : Value → Option DInstruction
  | .str cps =>
    match Value.toStr (.str cps) with
    | some name => unitVariantOf name
    | none => none
  | .obj [(k, v)] =>
    match Value.toStr (.str k) with
    | some name =>
      match v, unitVariantOf name with
      | .null, some i => some i
      | v, _ => variantOf name v
    | none => none
  | _ => none

/-- changeset/mod.rs:102-110, derived `Deserialize` for `DeserializeOp`. -/
def opOf (v : Value) : Option DOp :=
  match structOf ["id", "instruction"] v with
  | some [i, x] =>
    match i.toStr, instructionOf x with
    | some id, some ins => some ⟨id, ins⟩
    | _, _ => none
  | _ => none

/-- changeset/mod.rs:94-100, derived `Deserialize` for `DeserializeChangeset`. -/
def changesetOf (v : Value) : Option (List DOp) :=
  match structOf ["ops"] v with
  | some [.arr vs] => vs.mapM opOf
  | _ => none

/-- `serde_json::from_str::<DeserializeChangeset>`. Used for puck_liveview/src/dom/element/diff/changeset/mod.rs:94-100. -/
def readChangeset (text : String) : Option (List DOp) :=
  match parse text with
  | some v => changesetOf v
  | none => none

end Puck.Json
