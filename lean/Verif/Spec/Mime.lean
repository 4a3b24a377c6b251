/-!
# Specification: reading the parameters of a MIME type (WHATWG MIME Sniffing 4.4, without the clean-up
of white space and the lower-casing of names)

Independent of the model of puck's code.
-/
namespace MimeSpec

/-- The characters up to the first one satisfying `stop`, and the rest from there. -/
def upTo (stop : Char → Bool) : List Char → List Char × List Char
  | [] => ([], [])
  | c :: t => if stop c then ([], c :: t) else ((c :: (upTo stop t).1), (upTo stop t).2)

/-- A quoted string after its opening quote: a backslash takes the next character literally. -/
def quoted : List Char → Option (List Char × List Char)
  | [] => none
  | '"' :: t => some ([], t)
  | '\\' :: c :: t => (quoted t).map fun p => (c :: p.1, p.2)
  | c :: t => (quoted t).map fun p => (c :: p.1, p.2)

/-- `;name=value` repeated; `value` is a quoted string or runs to the next `;`.  The first argument bounds the
number of parameters. -/
def params : Nat → List Char → Option (List (List Char × List Char))
  | _, [] => some []
  | k + 1, ';' :: t =>
    match upTo (· == '=') t with
    | (name, '=' :: '"' :: t') =>
      match quoted t' with
      | none => none
      | some (v, rest) => (params k rest).map fun l => (name, v) :: l
    | (name, '=' :: t') => (params k (upTo (· == ';') t').2).map fun l => (name, (upTo (· == ';') t').1) :: l
    | _ => none
  | _, _ => none

/-- RFC 7230 `tchar`. -/
def tchar (c : Char) : Prop :=
  ('a' ≤ c ∧ c ≤ 'z') ∨ ('A' ≤ c ∧ c ≤ 'Z') ∨ ('0' ≤ c ∧ c ≤ '9') ∨
  c ∈ ['!', '#', '$', '%', '&', '\'', '*', '+', '-', '.', '^', '_', '`', '|', '~']

end MimeSpec
