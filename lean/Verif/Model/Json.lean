import Verif.Model.Component
import Verif.Spec.Json
/-!
# JSON on the wire

`serde_json::to_string` and `serde_json::from_str::<ClientMessage>` as used in `puck_liveview/src/component/mod.rs`, and
`JSON.parse` and `JSON.stringify` as used in `puck_liveview/client/index.js`.  The libraries themselves are not in the
repository: the writers are modelled from their documented output, and the two readers by one recursive-descent parser for
RFC 8259, which both implement.  Simplified: strings in the browser are Unicode strings, so `JSON.stringify`
never has to escape a lone surrogate.
-/
namespace Puck.Json

/-! ## Reading -/

/-- `parse_whitespace` of `serde_json::from_str` (puck_liveview/src/component/mod.rs:121) and of `JSON.parse`
(client/index.js:4). -/
def skipWs : List Char → List Char
  | [] => []
  | c :: cs => if IsWs c then skipWs cs else c :: cs

/-- The inside of a string literal up to its closing quote (both readers): the code points and code units, and the
rest of the text. Used for puck_liveview/client/index.js:4 and puck_liveview/src/component/mod.rs:121. -/
def readChars : List Char → Option (List Nat × List Char)
  | [] => none
  | '"' :: cs => some ([], cs)
  | '\\' :: 'u' :: a :: b :: c :: d :: cs =>
    match hexVal a, hexVal b, hexVal c, hexVal d, readChars cs with
    | some va, some vb, some vc, some vd, some (us, r) => some ((((va * 16 + vb) * 16 + vc) * 16 + vd) :: us, r)
    | _, _, _, _, _ => none
  | '\\' :: c :: cs =>
    match simpleEscapes.lookup c, readChars cs with
    | some v, some (us, r) => some (v :: us, r)
    | _, _ => none
  | c :: cs =>
    if c = '\\' ∨ c.toNat < 0x20 then none
    else
      match readChars cs with
      | some (us, r) => some (c.toNat :: us, r)
      | none => none

/-- A string literal (both readers). Used for puck_liveview/client/index.js:4 and puck_liveview/src/component/mod.rs:121. -/
def readString : List Char → Option (List Nat × List Char)
  | '"' :: cs =>
    match readChars cs with
    | some (us, r) => some (joinSurrogates us, r)
    | none => none
  | _ => none

/-- The longest run of digits, and the rest. Used for puck_liveview/client/index.js:4 and puck_liveview/src/component/mod.rs:121. -/
def spanDigits : List Char → List Char × List Char
  | [] => ([], [])
  | c :: cs => if IsDigit c then (c :: (spanDigits cs).1, (spanDigits cs).2) else ([], c :: cs)

/-- A number's `int` (both readers). Used for puck_liveview/client/index.js:4 and puck_liveview/src/component/mod.rs:121. -/
def readInt : List Char → Option (List Char × List Char)
  | [] => none
  | c :: cs =>
    if c = '0' then some (['0'], cs)
    else if IsDigit c then some (c :: (spanDigits cs).1, (spanDigits cs).2)
    else none

/-- One or more digits. Used for puck_liveview/client/index.js:4 and puck_liveview/src/component/mod.rs:121. -/
def readDigits (cs : List Char) : Option (List Char × List Char) :=
  match spanDigits cs with
  | ([], _) => none
  | (ds, r) => some (ds, r)

/-- A number's `[ frac ]` (both readers). Used for puck_liveview/client/index.js:4 and puck_liveview/src/component/mod.rs:121. -/
def readFrac : List Char → Option (List Char × List Char)
  | '.' :: cs =>
    match readDigits cs with
    | some (ds, r) => some ('.' :: ds, r)
    | none => none
  | cs => some ([], cs)

/-- A number's `[ exp ]` (both readers). Used for puck_liveview/client/index.js:4 and puck_liveview/src/component/mod.rs:121. -/
def readExp : List Char → Option (List Char × List Char)
  | [] => some ([], [])
  | e :: cs =>
    if e = 'e' ∨ e = 'E' then
      match cs with
      | '+' :: cs' => (readDigits cs').map fun x => (e :: '+' :: x.1, x.2)
      | '-' :: cs' => (readDigits cs').map fun x => (e :: '-' :: x.1, x.2)
      | cs' => (readDigits cs').map fun x => (e :: x.1, x.2)
    else some ([], e :: cs)

/-- A number without its sign. Used for puck_liveview/client/index.js:4 and puck_liveview/src/component/mod.rs:121. -/
def readUnsigned (cs : List Char) : Option (List Char × List Char) :=
  match readInt cs with
  | none => none
  | some (i, r1) =>
    match readFrac r1 with
    | none => none
    | some (f, r2) =>
      match readExp r2 with
      | none => none
      | some (e, r3) => some (i ++ (f ++ e), r3)

/-- A number (both readers). Used for puck_liveview/client/index.js:4 and puck_liveview/src/component/mod.rs:121. -/
def readNumber : List Char → Option (List Char × List Char)
  | '-' :: cs => (readUnsigned cs).map fun x => ('-' :: x.1, x.2)
  | cs => readUnsigned cs

mutual
/-- A value at the start of the text, and the rest of the text (both readers).
Used for puck_liveview/client/index.js:4 and puck_liveview/src/component/mod.rs:121. -/
def readValue : Nat → List Char → Option (Value × List Char)
  | 0, _ => none
  | _ + 1, 'n' :: 'u' :: 'l' :: 'l' :: r => some (.null, r)
  | _ + 1, 't' :: 'r' :: 'u' :: 'e' :: r => some (.bool true, r)
  | _ + 1, 'f' :: 'a' :: 'l' :: 's' :: 'e' :: r => some (.bool false, r)
  | _ + 1, '"' :: cs => (readString ('"' :: cs)).map fun x => (.str x.1, x.2)
  | n + 1, '[' :: cs =>
    match skipWs cs with
    | ']' :: r => some (.arr [], r)
    | cs' => (readElements n cs').map fun x => (.arr x.1, x.2)
  | n + 1, '{' :: cs =>
    match skipWs cs with
    | '}' :: r => some (.obj [], r)
    | cs' => (readMembers n cs').map fun x => (.obj x.1, x.2)
  | _ + 1, cs => (readNumber cs).map fun x => (.num x.1, x.2)
/-- The elements of an array, from the first one on, and the rest after the closing bracket.
Used for puck_liveview/client/index.js:4 and puck_liveview/src/component/mod.rs:121. -/
def readElements : Nat → List Char → Option (List Value × List Char)
  | 0, _ => none
  | n + 1, cs =>
    match readValue n (skipWs cs) with
    | none => none
    | some (v, r) =>
      match skipWs r with
      | ']' :: r' => some ([v], r')
      | ',' :: r' => (readElements n r').map fun x => (v :: x.1, x.2)
      | _ => none
/-- The members of an object, from the first one on, and the rest after the closing brace.
Used for puck_liveview/client/index.js:4 and puck_liveview/src/component/mod.rs:121. -/
def readMembers : Nat → List Char → Option (List (List Nat × Value) × List Char)
  | 0, _ => none
  | n + 1, cs =>
    match readString (skipWs cs) with
    | none => none
    | some (k, r) =>
      match skipWs r with
      | ':' :: r' =>
        match readValue n (skipWs r') with
        | none => none
        | some (v, r2) =>
          match skipWs r2 with
          | '}' :: r3 => some ([(k, v)], r3)
          | ',' :: r3 => (readMembers n r3).map fun x => ((k, v) :: x.1, x.2)
          | _ => none
      | _ => none
end

/-- `JSON.parse` (client/index.js:4), and the grammatical part of `serde_json::from_str` (component/mod.rs:121): a
value, with nothing but white space around it. -/
def parse (text : String) : Option Value :=
  match readValue (2 * text.toList.length + 1) (skipWs text.toList) with
  | none => none
  | some (v, r) => if skipWs r = [] then some v else none

/-! ## Writing -/

/-- A lower-case hexadecimal digit. Used for puck_liveview/client/index.js:47-61 and puck_liveview/src/component/mod.rs:111, :201. -/
def hexDigit (n : Nat) : Char := ['0', '1', '2', '3', '4', '5', '6', '7', '8', '9', 'a', 'b', 'c', 'd', 'e', 'f'].getD n '0'

/-- serde_json's `format_escaped_str`, used for every string by `serde_json::to_string` (component/mod.rs:111 and :201),
and ECMAScript's `QuoteJSONString`, used by `JSON.stringify` (client/index.js:47, :51, :56). -/
def escapeChar (c : Char) : List Char :=
  if c = '"' then ['\\', '"']
  else if c = '\\' then ['\\', '\\']
  else if c.toNat = 0x08 then ['\\', 'b']
  else if c.toNat = 0x0C then ['\\', 'f']
  else if c = '\n' then ['\\', 'n']
  else if c = '\r' then ['\\', 'r']
  else if c = '\t' then ['\\', 't']
  else if c.toNat < 0x20 then ['\\', 'u', '0', '0', hexDigit (c.toNat / 16), hexDigit (c.toNat % 16)]
  else [c]

/-- The escaped characters of a string. Used for puck_liveview/client/index.js:47-61 and puck_liveview/src/component/mod.rs:111, :201. -/
def escapeChars : List Char → List Char
  | [] => []
  | c :: cs => escapeChar c ++ escapeChars cs

/-- A string literal (both writers). Used for puck_liveview/client/index.js:47-61 and puck_liveview/src/component/mod.rs:111, :201. -/
def writeString (s : String) : List Char := '"' :: (escapeChars s.toList ++ ['"'])

/-- A member `"name":literal` (both writers, compact). Used for puck_liveview/client/index.js:47-61 and puck_liveview/src/component/mod.rs:111, :201. -/
def writeMember (name : String) (value : List Char) : List Char := writeString name ++ ':' :: value

/-- `serialize_struct` (instruction_serializer.rs:33-107): the fields that are not skipped. -/
def writeOp (w : WireOp) : List Char :=
  '{' :: (writeMember "el" (writeString w.el) ++ ',' :: (writeMember "ty" (writeString w.ty) ++
    ((match w.payload with
      | some p => ',' :: writeMember "payload" (writeString p)
      | none => []) ++ ['}'])))

/-- `serialize_seq` (instruction_serializer.rs:12-24): what is between the brackets. -/
def writeOps : List WireOp → List Char
  | [] => []
  | [w] => writeOp w
  | w :: ws => writeOp w ++ ',' :: writeOps ws

/-- component/mod.rs:111 and :201 `serde_json::to_string(&InstructionSerializer(instructions))`. -/
def changesetText (ws : List WireOp) : String := String.ofList ('[' :: (writeOps ws ++ [']']))

/-- client/index.js:47-61 `JSON.stringify({listener})` and `JSON.stringify({listener, payload: {value}})`. -/
def eventText (listener : String) (payload : Option String) : String :=
  String.ofList ('{' :: (writeMember "listener" (writeString listener) ++
    ((match payload with
      | some v => ',' :: writeMember "payload" ('{' :: (writeMember "value" (writeString v) ++ ['}']))
      | none => []) ++ ['}'])))

/-! ## What is read -/

/-- A Rust `String` from a JSON string: `serde_json` refuses lone surrogates. Used for puck_liveview/src/component/mod.rs:121. -/
def unicode : List Nat → Option (List Char)
  | [] => some []
  | n :: ns =>
    if n.isValidChar then
      match unicode ns with
      | some cs => some (Char.ofNat n :: cs)
      | none => none
    else none

/-- `String::deserialize`. Used for puck_liveview/src/component/mod.rs:121. -/
def Value.toStr : Value → Option String
  | .str cps => (unicode cps).map String.ofList
  | _ => none

/-- The values of the members with the given name, in order. Used for puck_liveview/src/component/mod.rs:121. -/
def fields (name : String) : List (List Nat × Value) → List Value
  | [] => []
  | (k, v) :: ms => if k = codePoints name then v :: fields name ms else fields name ms

/-- The keys of an object are read into Rust strings, so none may have a lone surrogate. Used for puck_liveview/src/component/mod.rs:121. -/
def keysOk : List (List Nat × Value) → Bool
  | [] => true
  | (k, _) :: ms => (unicode k).isSome && keysOk ms

/-- puck_liveview/src/client/mod.rs:11-14, derived `Deserialize` for `ClientMessagePayload`: an object with exactly one field
`value` (others are ignored), or an array of one element. -/
def payloadOf : Value → Option String
  | .obj ms =>
    if keysOk ms then
      match fields "value" ms with
      | [v] => v.toStr
      | _ => none
    else none
  | .arr [v] => v.toStr
  | _ => none

/-- `Option<ClientMessagePayload>`: `null`, or a payload. Used for puck_liveview/src/client/mod.rs:5-14. -/
def optPayloadOf : Value → Option (Option String)
  | .null => some none
  | v => (payloadOf v).map some

/-- puck_liveview/src/client/mod.rs:5-9, derived `Deserialize` for `ClientMessage`: an object with one field `listener` and at
most one field `payload` (others are ignored), or an array of two elements. -/
def clientMessageOf : Value → Option ClientMessage
  | .obj ms =>
    if keysOk ms then
      match fields "listener" ms, fields "payload" ms with
      | [l], [] => l.toStr.map fun s => ⟨s, none⟩
      | [l], [p] =>
        match l.toStr, optPayloadOf p with
        | some s, some q => some ⟨s, q⟩
        | _, _ => none
      | _, _ => none
    else none
  | .arr [l, p] =>
    match l.toStr, optPayloadOf p with
    | some s, some q => some ⟨s, q⟩
    | _, _ => none
  | _ => none

/-- component/mod.rs:121 `serde_json::from_str::<ClientMessage>`. -/
def fromStr (text : String) : Option ClientMessage :=
  match parse text with
  | some v => clientMessageOf v
  | none => none

/-- client/index.js:6-76 `data.ty`, `data.el`, `data.payload`: `JSON.parse` keeps the last of several members with the
same name.  A missing `payload` is `undefined`.  `none`: not an object with string members. -/
def wireOpOf : Value → Option WireOp
  | .obj ms =>
    match (fields "el" ms).getLast?, (fields "ty" ms).getLast?, (fields "payload" ms).getLast? with
    | some el, some ty, none =>
      match el.toStr, ty.toStr with
      | some el, some ty => some ⟨el, ty, none⟩
      | _, _ => none
    | some el, some ty, some p =>
      match el.toStr, ty.toStr, p.toStr with
      | some el, some ty, some p => some ⟨el, ty, some p⟩
      | _, _, _ => none
    | _, _, _ => none
  | _ => none

/-- All elements. Used for puck_liveview/client/index.js:4-5. -/
def wireOpsOf : List Value → Option (List WireOp)
  | [] => some []
  | v :: vs =>
    match wireOpOf v, wireOpsOf vs with
    | some w, some ws => some (w :: ws)
    | _, _ => none

/-- client/index.js:3-5: the handler of a WebSocket message: parse, then process the instructions in turn.  `none`: an
exception before the first instruction, or data that `clientOp` does not cover. -/
def clientText (B : Browser) (text : String) (body : List Dom) : Option (List Dom) :=
  match parse text with
  | some (.arr vs) => (wireOpsOf vs).map fun ws => clientMessage B ws body
  | _ => none

end Puck.Json
