/-!
# I/O used by puck: raw streams, `std::io::BufReader`, writers

These are models of the *standard library* behaviour puck relies on.  The stream is the schedule:
a list of read events, so that "for every `Raw`" means "for every byte sequence, every segmentation
of it into reads and every position of I/O errors".
-/
namespace Puck

/-- Byte strings (`&[u8]`, `Vec<u8>`). Used for puck/src/body/mod.rs:71, puck/src/ws/frame.rs:22. -/
abbrev Bytes := List UInt8

/-- One event of a raw stream: the bytes available to one `read` call, or an `io::Error`
(other than `Interrupted`: see `Model/Interrupt`). Used for puck/src/request/mod.rs:51, puck/src/ws/frame.rs:22, puck/src/body/mod.rs:108. -/
inductive Ev where
  | data (b : Bytes)
  | fail
  deriving DecidableEq, Repr

/-- A raw stream (`lunatic::net::TcpStream`, or any `impl Read`): pending read events.
The empty list is end of file: `read` returns `Ok(0)` from then on. Used for puck/src/request/mod.rs:47, puck/src/ws/frame.rs:22. -/
abbrev Raw := List Ev

/-- `Read::read(&mut self, buf)` with `buf.len() = cap` on a raw stream.  `none` is `Err(_)`.
If the pending block is longer than the caller's buffer the rest stays pending. Used for puck/src/request/mod.rs:55, puck/src/body/mod.rs:108. -/
def Raw.read (cap : Nat) : Raw → Option Bytes × Raw
  | [] => (some [], [])
  | .fail :: r => (none, r)
  | .data b :: r =>
    if b.length ≤ cap then (some b, r) else (some (b.take cap), .data (b.drop cap) :: r)

/-- Blocks are non-empty (a `read` returning 0 means end of file). Used for puck/src/request/mod.rs:61-63. -/
def Raw.WF (r : Raw) : Prop := ∀ b, Ev.data b ∈ r → b ≠ []

/-- All bytes a list of events delivers (errors skipped). Used for puck/src/request/mod.rs:47, puck/src/ws/frame.rs:22. -/
def Raw.bytes : Raw → Bytes
  | [] => []
  | .fail :: r => Raw.bytes r
  | .data b :: r => b ++ Raw.bytes r

/-- How many bytes a stream delivers before its first error or its end. Used for puck/src/request/mod.rs:47. -/
def Raw.coming : Raw → Nat
  | [] => 0
  | .fail :: _ => 0
  | .data b :: r => b.length + Raw.coming r

/-- No I/O error is pending. Used for puck/src/request/mod.rs:57-59. -/
def Raw.Clean (r : Raw) : Prop := Ev.fail ∉ r

/-- `std::io::BufReader<R>`: the not yet consumed part of the internal buffer and the inner stream.
Used for puck/src/request/mod.rs:51, puck/src/response/mod.rs:55, puck/src/ws/frame.rs:23. -/
structure Buf where
  buf : Bytes
  raw : Raw
  deriving DecidableEq, Repr

/-- `BufReader::fill_buf` (capacity `cap`): only reads from the inner stream when the internal
buffer is exhausted. Used for puck/src/request/mod.rs:51, :55. -/
def Buf.fillBuf (cap : Nat) (r : Buf) : Option Bytes × Buf :=
  if r.buf = [] then
    match r.raw.read cap with
    | (none, raw) => (none, ⟨[], raw⟩)
    | (some b, raw) => (some b, ⟨b, raw⟩)
  else (some r.buf, r)

/-- `BufReader::read` into a buffer of `n` bytes: bypasses the internal buffer when it is empty and
`n ≥ cap`, otherwise fills it and copies at most `n` bytes out.  May return fewer than `n` bytes. Used for puck/src/body/mod.rs:108. -/
def Buf.read (cap n : Nat) (r : Buf) : Option Bytes × Buf :=
  if r.buf = [] ∧ cap ≤ n then
    match r.raw.read n with
    | (none, raw) => (none, ⟨[], raw⟩)
    | (some b, raw) => (some b, ⟨[], raw⟩)
  else
    match r.fillBuf cap with
    | (none, r') => (none, r')
    | (some b, r') => (some (b.take n), ⟨b.drop n, r'.raw⟩)

/-- Loop of `Read::read_exact`: `n` bytes still wanted, `acc` already read.  A read of 0 bytes is
`UnexpectedEof`.  The first argument bounds the number of reads; every successful read makes
progress by at least one byte, so `fuel = n` always suffices (`Lemmas/Io`: `readExact_ok`). Used for puck/src/ws/frame.rs:54-55. -/
def Buf.readExactGo (cap : Nat) : Nat → Nat → Bytes → Buf → Option Bytes × Buf
  | _, 0, acc, r => (some acc, r)
  | 0, _ + 1, _, r => (none, r)
  | f + 1, n + 1, acc, r =>
    match r.read cap (n + 1) with
    | (none, r') => (none, r')
    | (some b, r') =>
      if b = [] then (none, r') else Buf.readExactGo cap f (n + 1 - b.length) (acc ++ b) r'

/-- `Read::read_exact` for `n` bytes on a `BufReader`. Used for puck/src/ws/frame.rs:54-55. -/
def Buf.readExact (cap n : Nat) (r : Buf) : Option Bytes × Buf :=
  Buf.readExactGo cap n n [] r

/-- Loop of `reader.take(limit).read_to_end(&mut vec)` where `vec` was created with capacity
`limit`: each read asks for all the bytes still allowed; stops at the limit or at end of file. Used for puck/src/ws/frame.rs:69-71. -/
def Buf.takeToEndGo (cap : Nat) : Nat → Nat → Bytes → Buf → Option Bytes × Buf
  | _, 0, acc, r => (some acc, r)
  | 0, _ + 1, acc, r => (some acc, r)
  | f + 1, n + 1, acc, r =>
    match r.read cap (n + 1) with
    | (none, r') => (none, r')
    | (some b, r') =>
      if b = [] then (some acc, r') else Buf.takeToEndGo cap f (n + 1 - b.length) (acc ++ b) r'

/-- `reader.take(limit).read_to_end(&mut vec)`. Used for puck/src/ws/frame.rs:69-71. -/
def Buf.takeToEnd (cap limit : Nat) (r : Buf) : Option Bytes × Buf :=
  Buf.takeToEndGo cap limit limit [] r

/-- A writer (`impl Write`) with everything written so far and, optionally, the number of bytes it
will still accept before every write fails (`none`: it never fails).  Writers in puck are only used
through `write_all`/`write!`. Used for puck/src/ws/frame.rs:119, puck/src/request/mod.rs:119, puck/src/response/encoder.rs:20. -/
structure Sink where
  out : Bytes
  room : Option Nat
  deriving DecidableEq, Repr

/-- `Write::write_all`: `true` is `Ok(())`.  On failure a prefix has been written.
Used for puck/src/ws/frame.rs:130, puck/src/request/mod.rs:121-126, puck/src/response/encoder.rs:21-31. -/
def Sink.writeAll (b : Bytes) (s : Sink) : Bool × Sink :=
  match s.room with
  | none => (true, { s with out := s.out ++ b })
  | some k =>
    if b.length ≤ k then (true, ⟨s.out ++ b, some (k - b.length)⟩)
    else (false, ⟨s.out ++ b.take k, some 0⟩)

/-- Result of a Rust call that may also panic. Used for puck/src/core/mod.rs:51, :140. -/
inductive Outcome (ε α : Type) where
  | ok (a : α)
  | err (e : ε)
  | panic
  deriving DecidableEq, Repr

/-- UTF-8 bytes of a string (`String::into_bytes`, `as_bytes`, what `write!("{}", s)` emits).
Used for puck/src/ws/frame.rs:217, puck/src/request/mod.rs:121-124. -/
def strBytes (s : String) : Bytes := s.toByteArray.data.toList

/-- `String::from_utf8` / `std::str::from_utf8`. Used for puck/src/request/mod.rs:78, puck/src/ws/message.rs:38, :85. -/
def fromUtf8 (b : Bytes) : Option String := String.fromUTF8? ⟨b.toArray⟩

end Puck
