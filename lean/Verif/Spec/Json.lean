/-!
# RFC 8259: the JSON grammar

Independent of the model: which texts are JSON, and what each of them denotes.  Strings denote lists of code points;
`\uD83D\uDE00` denotes one code point, and a lone surrogate escape is allowed (RFC 8259, section 8.2), so a JSON
string need not be a Unicode string.
-/
namespace Puck.Json

/-- A JSON value.  Numbers are kept as they are written.  The members of an object are kept in order, with
duplicates. -/
inductive Value where
  | null
  | bool (b : Bool)
  | num (literal : List Char)
  | str (codePoints : List Nat)
  | arr (elements : List Value)
  | obj (members : List (List Nat × Value))

/-- RFC 8259, section 2: `ws`. -/
def IsWs (c : Char) : Prop := c = ' ' ∨ c = '\t' ∨ c = '\n' ∨ c = '\r'

instance (c : Char) : Decidable (IsWs c) := by unfold IsWs; infer_instance

/-- White space. -/
def Ws (w : List Char) : Prop := ∀ c ∈ w, IsWs c

/-- A decimal digit. -/
def IsDigit (c : Char) : Prop := '0' ≤ c ∧ c ≤ '9'

instance (c : Char) : Decidable (IsDigit c) := by unfold IsDigit; infer_instance

/-- One or more digits. -/
def Digits (t : List Char) : Prop := t ≠ [] ∧ ∀ c ∈ t, IsDigit c

/-- RFC 8259, section 6: `int`. -/
def IntPart (t : List Char) : Prop := t = ['0'] ∨ (∃ c cs, t = c :: cs ∧ c ≠ '0' ∧ Digits t)

/-- RFC 8259, section 6: `[ frac ]`. -/
def FracPart (t : List Char) : Prop := t = [] ∨ ∃ ds, Digits ds ∧ t = '.' :: ds

/-- RFC 8259, section 6: `[ exp ]`. -/
def ExpPart (t : List Char) : Prop :=
  t = [] ∨ ∃ e sign ds, (e = 'e' ∨ e = 'E') ∧ (sign = [] ∨ sign = ['+'] ∨ sign = ['-']) ∧ Digits ds ∧ t = e :: (sign ++ ds)

/-- RFC 8259, section 6: `number`. -/
def Number (t : List Char) : Prop :=
  ∃ minus i f e, (minus = [] ∨ minus = ['-']) ∧ IntPart i ∧ FracPart f ∧ ExpPart e ∧ t = minus ++ (i ++ (f ++ e))

/-- The value of a hexadecimal digit. -/
def hexVal (c : Char) : Option Nat :=
  if '0' ≤ c ∧ c ≤ '9' then some (c.toNat - '0'.toNat)
  else if 'a' ≤ c ∧ c ≤ 'f' then some (c.toNat - 'a'.toNat + 10)
  else if 'A' ≤ c ∧ c ≤ 'F' then some (c.toNat - 'A'.toNat + 10)
  else none

/-- RFC 8259, section 7: the two-character escapes. -/
def simpleEscapes : List (Char × Nat) :=
  [('"', 0x22), ('\\', 0x5C), ('/', 0x2F), ('b', 0x08), ('f', 0x0C), ('n', 0x0A), ('r', 0x0D), ('t', 0x09)]

/-- RFC 8259, section 7: one `char`, and the code point or code unit it stands for. -/
inductive CharText : List Char → Nat → Prop
  | plain (c : Char) : c ≠ '"' → c ≠ '\\' → 0x20 ≤ c.toNat → CharText [c] c.toNat
  | simple (c : Char) (v : Nat) : (c, v) ∈ simpleEscapes → CharText ['\\', c] v
  | hex (a b c d : Char) (va vb vc vd : Nat) : hexVal a = some va → hexVal b = some vb → hexVal c = some vc → hexVal d = some vd →
      CharText ['\\', 'u', a, b, c, d] (((va * 16 + vb) * 16 + vc) * 16 + vd)

/-- The inside of a string literal. -/
inductive CharsText : List Char → List Nat → Prop
  | nil : CharsText [] []
  | cons {t : List Char} {u : Nat} {ts : List Char} {us : List Nat} : CharText t u → CharsText ts us → CharsText (t ++ ts) (u :: us)

/-- A leading surrogate followed by a trailing one is one character (RFC 8259, section 7). -/
def joinSurrogates : List Nat → List Nat
  | [] => []
  | [u] => [u]
  | u :: v :: us =>
    if 0xD800 ≤ u ∧ u ≤ 0xDBFF ∧ 0xDC00 ≤ v ∧ v ≤ 0xDFFF then
      (0x10000 + (u - 0xD800) * 0x400 + (v - 0xDC00)) :: joinSurrogates us
    else u :: joinSurrogates (v :: us)

/-- `t` is a string literal that denotes `s`. -/
def StringText (t : List Char) (s : List Nat) : Prop :=
  ∃ body us, CharsText body us ∧ t = '"' :: (body ++ ['"']) ∧ s = joinSurrogates us

mutual
/-- RFC 8259, section 3: `value`. -/
inductive ValueText : List Char → Value → Prop
  | null : ValueText ['n', 'u', 'l', 'l'] .null
  | true : ValueText ['t', 'r', 'u', 'e'] (.bool true)
  | false : ValueText ['f', 'a', 'l', 's', 'e'] (.bool false)
  | num {t : List Char} : Number t → ValueText t (.num t)
  | str {t : List Char} {s : List Nat} : StringText t s → ValueText t (.str s)
  | emptyArr {w : List Char} : Ws w → ValueText ('[' :: (w ++ [']'])) (.arr [])
  | arr {t : List Char} {vs : List Value} : ElementsText t vs → ValueText ('[' :: (t ++ [']'])) (.arr vs)
  | emptyObj {w : List Char} : Ws w → ValueText ('{' :: (w ++ ['}'])) (.obj [])
  | obj {t : List Char} {ms : List (List Nat × Value)} : MembersText t ms → ValueText ('{' :: (t ++ ['}'])) (.obj ms)
/-- RFC 8259, section 5: `value *( value-separator value )`, with the white space around. -/
inductive ElementsText : List Char → List Value → Prop
  | one {w t w' : List Char} {v : Value} : Ws w → ValueText t v → Ws w' → ElementsText (w ++ (t ++ w')) [v]
  | more {w t w' ts : List Char} {v : Value} {vs : List Value} : Ws w → ValueText t v → Ws w' → ElementsText ts vs →
      ElementsText (w ++ (t ++ (w' ++ ',' :: ts))) (v :: vs)
/-- RFC 8259, section 4: `member *( value-separator member )`, with the white space around. -/
inductive MembersText : List Char → List (List Nat × Value) → Prop
  | one {w k w1 w2 t w3 : List Char} {s : List Nat} {v : Value} : Ws w → StringText k s → Ws w1 → Ws w2 → ValueText t v → Ws w3 →
      MembersText (w ++ (k ++ (w1 ++ ':' :: (w2 ++ (t ++ w3))))) [(s, v)]
  | more {w k w1 w2 t w3 ts : List Char} {s : List Nat} {v : Value} {ms : List (List Nat × Value)} :
      Ws w → StringText k s → Ws w1 → Ws w2 → ValueText t v → Ws w3 → MembersText ts ms →
      MembersText (w ++ (k ++ (w1 ++ ':' :: (w2 ++ (t ++ (w3 ++ ',' :: ts)))))) ((s, v) :: ms)
end

/-- RFC 8259, section 2: `text` is a JSON text that denotes `v`. -/
def Denotes (text : String) (v : Value) : Prop :=
  ∃ w t w', Ws w ∧ ValueText t v ∧ Ws w' ∧ text.toList = w ++ (t ++ w')

/-- The code points of a Unicode string. -/
def codePoints (s : String) : List Nat := s.toList.map Char.toNat

end Puck.Json
