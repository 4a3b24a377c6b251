import Verif.Model.Source
import Verif.Model.Mime
/-!
# `puck/src/body/mod.rs`
-/
namespace Puck

/-- puck/src/body/mod.rs:15-20 `Body`. -/
structure Body where
  reader : Src
  mime : Mime
  length : Option Nat
  bytesRead : Nat
  deriving DecidableEq, Repr

/-- puck/src/body/mod.rs:34-41 `Body::empty`. -/
def Body.empty : Body := ⟨.cursor [], .byteStream, some 0, 0⟩

/-- puck/src/body/mod.rs:45-52 `Body::from_reader`. -/
def Body.fromReader (r : Src) (contentLength : Option Nat) : Body := ⟨r, .byteStream, contentLength, 0⟩

/-- puck/src/body/mod.rs:58-67 `Body::from_string` (and the `From` impls of lines 86-96). -/
def Body.fromString (s : String) : Body := ⟨.cursor (strBytes s), .byteStream, some (strBytes s).length, 0⟩

/-- puck/src/body/mod.rs:98-112 `<Body as Read>::read` with a buffer of `n` bytes.  `err ()` is an I/O error;
`panic` is the subtraction of line 104 underflowing. -/
def Body.read (n : Nat) (b : Body) : Outcome Unit Bytes × Body :=
  let go (n : Nat) : Outcome Unit Bytes × Body :=
    match b.reader.read n with
    | (none, r) => (.err (), { b with reader := r })
    | (some x, r) => (.ok x, { b with reader := r, bytesRead := b.bytesRead + x.length })
  match b.length with
  | none => go n
  | some len =>
    if len = b.bytesRead then (.ok [], b)
    else if len < b.bytesRead then (.panic, b)
    else go (min (len - b.bytesRead) n)

theorem Body.read_size_lt {n : Nat} {b b' : Body} {x : Bytes} (h : Body.read n b = (.ok x, b'))
    (hx : x ≠ []) : b'.reader.size < b.reader.size := by
  unfold Body.read at h
  have go : ∀ m, (match b.reader.read m with
      | (none, r) => ((.err (), { b with reader := r }) : Outcome Unit Bytes × Body)
      | (some x, r) => (.ok x, { b with reader := r, bytesRead := b.bytesRead + x.length })) = (.ok x, b') →
      b'.reader.size < b.reader.size := by
    intro m hm
    split at hm
    · simp at hm
    · rename_i y r hr
      simp only [Prod.mk.injEq, Outcome.ok.injEq] at hm
      obtain ⟨rfl, rfl⟩ := hm
      exact Src.read_size_lt hr hx
  simp only at h
  split at h
  · exact go _ h
  · split at h
    · simp at h; exact absurd h.1 hx
    · split at h
      · simp at h
      · exact go _ h

/-- `Read::read_to_end` on a body.  `sched` gives the size of the spare capacity the standard library
offers in the `i`-th read: it is at least 1 (a probe or a grown vector), otherwise arbitrary. Used for puck/src/body/mod.rs:71-83. -/
def Body.readToEnd (sched : Nat → Nat) (i : Nat) (acc : Bytes) (b : Body) : Outcome Unit Bytes × Body :=
  match _h : b.read (sched i + 1) with
  | (.err e, b') => (.err e, b')
  | (.panic, b') => (.panic, b')
  | (.ok x, b') =>
    if _hx : x = [] then (.ok acc, b') else Body.readToEnd sched (i + 1) (acc ++ x) b'
termination_by b.reader.size
decreasing_by exact Body.read_size_lt _h _hx

/-- puck/src/body/mod.rs:71-75 `Body::into_bytes`. -/
def Body.intoBytes (sched : Nat → Nat) (b : Body) : Outcome Unit Bytes := (b.readToEnd sched 0 []).1

/-- puck/src/body/mod.rs:79-83 `Body::into_string`, with a `W`-bit `usize`: line 80 reserves the declared length before anything is
read, which panics ("capacity overflow") when that length is above `isize::MAX`; `read_to_string` fails on invalid UTF-8.  That the
allocator may refuse a smaller capacity (and the process abort) is not modelled. -/
def Body.intoString (W : Nat) (sched : Nat → Nat) (b : Body) : Outcome Unit String :=
  if b.length.getD 0 > isizeMax W then .panic
  else
    match b.intoBytes sched with
    | .ok x => (fromUtf8 x).elim (.err ()) .ok
    | .err e => .err e
    | .panic => .panic

/-- `std::io::copy(&mut body, &mut sink)`: reads blocks of at most 8 KiB (the size is a parameter) and
writes each with `write_all`, until a read returns 0. Used for puck/src/request/mod.rs:128 and puck/src/response/encoder.rs:32. -/
def Body.copyTo (blk : Nat) (b : Body) (s : Sink) : Outcome Unit Unit × Body × Sink :=
  match _h : b.read (blk + 1) with
  | (.err e, b') => (.err e, b', s)
  | (.panic, b') => (.panic, b', s)
  | (.ok x, b') =>
    if _hx : x = [] then (.ok (), b', s)
    else
      match s.writeAll x with
      | (false, s') => (.err (), b', s')
      | (true, s') => Body.copyTo blk b' s'
termination_by b.reader.size
decreasing_by exact Body.read_size_lt _h _hx

end Puck
