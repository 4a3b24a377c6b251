import Verif.Model.Io
/-!
# Standard library text functions used by puck
-/
namespace Puck

/-- `u8::to_ascii_lowercase`. Used for puck/src/ws/upgrade.rs:13, :19. -/
def lowerByte (b : UInt8) : UInt8 := if 65 ≤ b ∧ b ≤ 90 then b + 32 else b

/-- `str::to_ascii_lowercase`, as bytes. Used for puck/src/ws/upgrade.rs:13, :19. -/
def lowerAscii (s : String) : Bytes := (strBytes s).map lowerByte

/-- `str::eq_ignore_ascii_case`. Used for puck/src/request/mod.rs:85, :91, :105, puck/src/response/mod.rs:111. -/
def eqIgnoreCase (a b : String) : Bool := lowerAscii a == lowerAscii b

/-- `str::contains(&str)` (on UTF-8 strings the byte-wise search). Used for puck/src/ws/upgrade.rs:19. -/
def containsBytes (needle : Bytes) : Bytes → Bool
  | [] => needle.isEmpty
  | x :: xs => needle.isPrefixOf (x :: xs) || containsBytes needle xs

/-- Decimal digits, most significant first; `none` for an empty string or another character.
Used for puck/src/request/mod.rs:106, puck/src/core/router/match_url.rs:55. -/
def parseDigits (b : Bytes) : Option Nat :=
  if b = [] then none
  else if b.all (fun c => 48 ≤ c && c ≤ 57) then some (b.foldl (fun a c => a * 10 + (c.toNat - 48)) 0)
  else none

/-- `str::parse::<usize>()` with a `W`-bit `usize`: an optional `+`, digits, no overflow.
Used for puck/src/request/mod.rs:106, puck/src/response/mod.rs:112, examples/list/src/main.rs:97. -/
def parseUsize (W : Nat) (s : String) : Option Nat :=
  let digits := match strBytes s with
    | 43 :: t => t
    | t => t
  match parseDigits digits with
  | some v => if v < 2 ^ W then some v else none
  | none => none

/-- `str::parse::<i32>()`: an optional sign, digits, within range. Used for puck/src/core/router/match_url.rs:55. -/
def parseI32 (s : String) : Option Int :=
  match strBytes s with
  | 43 :: t =>
    match parseDigits t with
    | some v => if v < 2 ^ 31 then some v else none
    | none => none
  | 45 :: t =>
    match parseDigits t with
    | some v => if v ≤ 2 ^ 31 then some (-(v : Int)) else none
    | none => none
  | t =>
    match parseDigits t with
    | some v => if v < 2 ^ 31 then some v else none
    | none => none

/-- Byte-wise order of `str` (`Ord for str`): is `a ≤ b`?. Used for puck/src/response/encoder.rs:27. -/
def bytesLe : Bytes → Bytes → Bool
  | [], _ => true
  | _ :: _, [] => false
  | x :: xs, y :: ys => if x < y then true else if x = y then bytesLe xs ys else false

/-- `HashMap<String, String>`: distinct keys. Used for puck/src/request/mod.rs:74-82. -/
abbrev Headers := List (String × String)

/-- `HashMap::get`. Used for puck/src/ws/upgrade.rs:11-20, :31. -/
def Headers.get (h : Headers) (k : String) : Option String := (h.find? fun p => p.1 == k).map (·.2)

/-- `HashMap::insert`. Used for puck/src/request/mod.rs:76-79, :159-160. -/
def Headers.insert (k v : String) : Headers → Headers
  | [] => [(k, v)]
  | p :: h => if p.1 = k then (k, v) :: h else p :: Headers.insert k v h

/-- `HashMap::extend`. Used for puck/src/request/builder.rs:48 and puck/src/response/builder.rs:44. -/
def Headers.extend (new : List (String × String)) (h : Headers) : Headers :=
  new.foldl (fun h p => h.insert p.1 p.2) h

/-- Keys are distinct (what makes the list a map). Used for puck/src/request/mod.rs:74. -/
def Headers.Distinct (h : Headers) : Prop := (h.map (·.1)).Nodup

end Puck
