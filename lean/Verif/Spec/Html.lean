/-!
# How a browser reads HTML

The tokenizer of the HTML standard (WHATWG, section 13.2.5): data, tags and attributes.  Not covered, and `none` here: character references (`&`),
comments, doctypes, processing instructions.  Not covered either: the replacement of carriage returns before tokenizing, and the raw-text modes which the
tree builder switches on after tags such as `script` (see `rawText`).
-/
namespace Puck

/-- A token. -/
inductive HtmlToken where
  | startTag (name : List Char) (attrs : List (List Char × List Char))
  | endTag (name : List Char)
  | char (c : Char)
  deriving DecidableEq, Repr

/-- The tag being read. -/
structure HtmlTag where
  isEnd : Bool
  name : List Char
  attrs : List (List Char × List Char)
  deriving DecidableEq, Repr

/-- Emit the tag; the attributes of an end tag are ignored. -/
def HtmlTag.token (t : HtmlTag) : HtmlToken := if t.isEnd then .endTag t.name else .startTag t.name t.attrs

/-- The attribute is complete; the second one of that name is dropped. -/
def HtmlTag.add (t : HtmlTag) (n v : List Char) : HtmlTag :=
  if t.attrs.any (fun p => p.1 == n) then t else { t with attrs := t.attrs ++ [(n, v)] }

/-- The states of 13.2.5. -/
inductive HtmlState where
  | data
  | tagOpen
  | endTagOpen
  | tagName (t : HtmlTag)
  | beforeAttrName (t : HtmlTag)
  | attrName (t : HtmlTag) (n : List Char)
  | afterAttrName (t : HtmlTag) (n : List Char)
  | beforeAttrValue (t : HtmlTag) (n : List Char)
  | doubleQuoted (t : HtmlTag) (n v : List Char)
  | singleQuoted (t : HtmlTag) (n v : List Char)
  | unquoted (t : HtmlTag) (n v : List Char)
  | afterQuoted (t : HtmlTag)
  | selfClosing (t : HtmlTag)
  deriving DecidableEq, Repr

/-- Tab, line feed, form feed, space. -/
def htmlSpace (c : Char) : Bool := c == '\t' || c == '\n' || c == '\x0c' || c == ' '

/-- ASCII letters. -/
def htmlAlpha (c : Char) : Bool := ('a' ≤ c && c ≤ 'z') || ('A' ≤ c && c ≤ 'Z')

/-- Names are lower-cased, NUL is replaced. -/
def htmlNameChar (c : Char) : Char := if c == '\x00' then '\ufffd' else c.toLower

/-- NUL is replaced. -/
def htmlValueChar (c : Char) : Char := if c == '\x00' then '\ufffd' else c

/-- In the attribute name state. -/
def inAttrName (t : HtmlTag) (n : List Char) (c : Char) : HtmlState × List HtmlToken :=
  if htmlSpace c then (.afterAttrName t n, [])
  else if c == '/' then (.selfClosing (t.add n []), [])
  else if c == '>' then (.data, [(t.add n []).token])
  else if c == '=' then (.beforeAttrValue t n, [])
  else (.attrName t (n ++ [htmlNameChar c]), [])

/-- In the before attribute name state. -/
def inBeforeAttrName (t : HtmlTag) (c : Char) : HtmlState × List HtmlToken :=
  if htmlSpace c then (.beforeAttrName t, [])
  else if c == '/' then (.selfClosing t, [])
  else if c == '>' then (.data, [t.token])
  else if c == '=' then (.attrName t ['='], [])
  else inAttrName t [] c

/-- In the data state. -/
def inData (c : Char) : Option (HtmlState × List HtmlToken) :=
  if c == '&' then none else if c == '<' then some (.tagOpen, []) else some (.data, [.char c])

/-- In the unquoted attribute value state. -/
def inUnquoted (t : HtmlTag) (n v : List Char) (c : Char) : Option (HtmlState × List HtmlToken) :=
  if htmlSpace c then some (.beforeAttrName (t.add n v), [])
  else if c == '&' then none
  else if c == '>' then some (.data, [(t.add n v).token])
  else some (.unquoted t n (v ++ [htmlValueChar c]), [])

/-- One character. -/
def htmlStep : HtmlState → Char → Option (HtmlState × List HtmlToken)
  | .data, c => inData c
  | .tagOpen, c =>
    if c == '/' then some (.endTagOpen, [])
    else if htmlAlpha c then some (.tagName ⟨false, [htmlNameChar c], []⟩, [])
    else if c == '!' || c == '?' then none
    else (inData c).map fun r => (r.1, .char '<' :: r.2)
  | .endTagOpen, c =>
    if htmlAlpha c then some (.tagName ⟨true, [htmlNameChar c], []⟩, [])
    else if c == '>' then some (.data, [])
    else none
  | .tagName t, c =>
    if htmlSpace c then some (.beforeAttrName t, [])
    else if c == '/' then some (.selfClosing t, [])
    else if c == '>' then some (.data, [t.token])
    else some (.tagName { t with name := t.name ++ [htmlNameChar c] }, [])
  | .beforeAttrName t, c => some (inBeforeAttrName t c)
  | .attrName t n, c => some (inAttrName t n c)
  | .afterAttrName t n, c =>
    if htmlSpace c then some (.afterAttrName t n, [])
    else if c == '/' then some (.selfClosing (t.add n []), [])
    else if c == '=' then some (.beforeAttrValue t n, [])
    else if c == '>' then some (.data, [(t.add n []).token])
    else some (inAttrName (t.add n []) [] c)
  | .beforeAttrValue t n, c =>
    if htmlSpace c then some (.beforeAttrValue t n, [])
    else if c == '"' then some (.doubleQuoted t n [], [])
    else if c == '\'' then some (.singleQuoted t n [], [])
    else if c == '>' then some (.data, [(t.add n []).token])
    else inUnquoted t n [] c
  | .doubleQuoted t n v, c =>
    if c == '"' then some (.afterQuoted (t.add n v), [])
    else if c == '&' then none
    else some (.doubleQuoted t n (v ++ [htmlValueChar c]), [])
  | .singleQuoted t n v, c =>
    if c == '\'' then some (.afterQuoted (t.add n v), [])
    else if c == '&' then none
    else some (.singleQuoted t n (v ++ [htmlValueChar c]), [])
  | .unquoted t n v, c => inUnquoted t n v c
  | .afterQuoted t, c =>
    if htmlSpace c then some (.beforeAttrName t, [])
    else if c == '/' then some (.selfClosing t, [])
    else if c == '>' then some (.data, [t.token])
    else some (inBeforeAttrName t c)
  | .selfClosing t, c =>
    if c == '>' then some (.data, [t.token]) else some (inBeforeAttrName t c)

/-- At the end of the input: an unfinished tag is dropped. -/
def htmlEof : HtmlState → List HtmlToken
  | .tagOpen => [.char '<']
  | .endTagOpen => [.char '<', .char '/']
  | _ => []

/-- The tokens of a text, from a state on. -/
def htmlTokens : HtmlState → List Char → Option (List HtmlToken)
  | s, [] => some (htmlEof s)
  | s, c :: cs =>
    match htmlStep s c with
    | none => none
    | some (s', out) => (htmlTokens s' cs).map (out ++ ·)

/-- What the browser reads. -/
def tokenizeHtml (s : String) : Option (List HtmlToken) := htmlTokens .data s.toList

/-- The elements whose contents are not read as above. -/
def rawText : List String :=
  ["script", "style", "textarea", "title", "xmp", "iframe", "noembed", "noframes", "noscript", "plaintext"]

end Puck
