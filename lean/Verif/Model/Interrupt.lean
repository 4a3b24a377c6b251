import Verif.Model.Request
import Verif.Model.Response
/-!
# System calls that are interrupted

A `read` on a connection may also fail with `ErrorKind::Interrupted`, at any time and any number of times.  The loops of the standard library (`read_until`, `read_exact`,
`read_to_end`, `read_to_string`, `io::copy`) then try again; a single `read` returns the error.  The other modules leave such reads out (`Raw`); here they are put back (`IRaw`),
and the functions of puck that read are modelled once more.
-/
namespace Puck

/-- One event of a raw stream, interruptions included. Used for puck/src/ws/frame.rs:22, puck/src/request/mod.rs:51, puck/src/body/mod.rs:108. -/
inductive IEv where
  | data (b : Bytes)
  | fail
  | intr
  deriving DecidableEq, Repr

/-- A raw stream, as `Raw`. Used for puck/src/ws/frame.rs:22, puck/src/request/mod.rs:47. -/
abbrev IRaw := List IEv

/-- The stream without the interruptions. Used for puck/src/ws/frame.rs:22, puck/src/request/mod.rs:47. -/
def IRaw.calm : IRaw → Raw
  | [] => []
  | .data b :: r => .data b :: IRaw.calm r
  | .fail :: r => .fail :: IRaw.calm r
  | .intr :: r => IRaw.calm r

/-- What one `read` returns: `Ok`, an error, or an error of kind `Interrupted`. Used for puck/src/ws/frame.rs:27, puck/src/body/mod.rs:108. -/
inductive Got where
  | ok (b : Bytes)
  | fail
  | intr
  deriving DecidableEq, Repr

/-- `Read::read` with a buffer of `cap` bytes, as `Raw.read`. Used for puck/src/request/mod.rs:55, puck/src/body/mod.rs:108. -/
def IRaw.read (cap : Nat) : IRaw → Got × IRaw
  | [] => (.ok [], [])
  | .fail :: r => (.fail, r)
  | .intr :: r => (.intr, r)
  | .data b :: r => if b.length ≤ cap then (.ok b, r) else (.ok (b.take cap), .data (b.drop cap) :: r)

/-- `std::io::BufReader<R>`, as `Buf`. Used for puck/src/request/mod.rs:51, puck/src/response/mod.rs:55, puck/src/ws/frame.rs:23. -/
structure IBuf where
  buf : Bytes
  raw : IRaw
  deriving DecidableEq, Repr

/-- Without the interruptions. Used for puck/src/request/mod.rs:51, puck/src/ws/frame.rs:23. -/
def IBuf.calm (r : IBuf) : Buf := ⟨r.buf, r.raw.calm⟩

/-- `BufReader::fill_buf`, as `Buf.fillBuf`. Used for puck/src/request/mod.rs:51, :55. -/
def IBuf.fillBuf (cap : Nat) (r : IBuf) : Got × IBuf :=
  if r.buf = [] then
    match r.raw.read cap with
    | (.ok b, raw) => (.ok b, ⟨b, raw⟩)
    | (g, raw) => (g, ⟨[], raw⟩)
  else (.ok r.buf, r)

/-- `BufReader::read`, as `Buf.read`. Used for puck/src/ws/frame.rs:27, :65, puck/src/body/mod.rs:108. -/
def IBuf.read (cap n : Nat) (r : IBuf) : Got × IBuf :=
  if r.buf = [] ∧ cap ≤ n then
    match r.raw.read n with
    | (g, raw) => (g, ⟨[], raw⟩)
  else
    match r.fillBuf cap with
    | (.ok b, r') => (.ok (b.take n), ⟨b.drop n, r'.raw⟩)
    | (g, r') => (g, r')

theorem IRaw.read_intr {cap : Nat} {r r' : IRaw} (h : r.read cap = (.intr, r')) : r = .intr :: r' := by
  unfold IRaw.read at h
  split at h
  · cases h
  · cases h
  · cases h; rfl
  · split at h <;> cases h

theorem IBuf.fillBuf_intr {cap : Nat} {r r' : IBuf} (h : r.fillBuf cap = (.intr, r')) : r.buf = [] ∧ r'.buf = [] ∧ r.raw = .intr :: r'.raw := by
  unfold IBuf.fillBuf at h
  split at h
  · rename_i hb
    split at h
    · cases h
    · rename_i g raw hno hr
      simp only [Prod.mk.injEq] at h
      obtain ⟨rfl, rfl⟩ := h
      exact ⟨hb, rfl, IRaw.read_intr hr⟩
  · cases h

theorem IBuf.read_intr {cap n : Nat} {r r' : IBuf} (h : r.read cap n = (.intr, r')) : r.buf = [] ∧ r'.buf = [] ∧ r.raw = .intr :: r'.raw := by
  unfold IBuf.read at h
  split at h
  · rename_i hb
    cases hr : r.raw.read n with
    | mk g raw =>
      rw [hr] at h
      simp only [Prod.mk.injEq] at h
      obtain ⟨rfl, rfl⟩ := h
      exact ⟨hb.1, rfl, IRaw.read_intr hr⟩
  · split at h
    · cases h
    · rename_i g r1 hno hf
      simp only [Prod.mk.injEq] at h
      obtain ⟨rfl, rfl⟩ := h
      exact IBuf.fillBuf_intr hf

/-- `fill_buf` in the loop of std's `read_until`: `Err(e) if e.kind() == Interrupted => continue`. Used for puck/src/request/mod.rs:55, puck/src/response/mod.rs:62. -/
def IBuf.fillRetry (cap : Nat) (r : IBuf) : Option Bytes × IBuf :=
  match _h : r.fillBuf cap with
  | (.ok b, r') => (some b, r')
  | (.fail, r') => (none, r')
  | (.intr, r') => IBuf.fillRetry cap r'
termination_by r.raw.length
decreasing_by rw [(IBuf.fillBuf_intr _h).2.2]; simp

/-- `read` in the loops of std's `read_exact` and `read_to_end`: an interrupted one is repeated, with the state of the loop unchanged.
Used for puck/src/ws/frame.rs:54-55, :71. -/
def IBuf.readRetry (cap n : Nat) (r : IBuf) : Option Bytes × IBuf :=
  match _h : r.read cap n with
  | (.ok b, r') => (some b, r')
  | (.fail, r') => (none, r')
  | (.intr, r') => IBuf.readRetry cap n r'
termination_by r.raw.length
decreasing_by rw [(IBuf.read_intr _h).2.2]; simp

theorem IRaw.read_calm {cap : Nat} {r r' : IRaw} {g : Got} (h : r.read cap = (g, r')) :
    match g with
    | .ok b => r.calm.read cap = (some b, r'.calm)
    | .fail => r.calm.read cap = (none, r'.calm)
    | .intr => r.calm = r'.calm := by
  cases r with
  | nil => cases h; rfl
  | cons e r =>
    cases e with
    | fail => cases h; rfl
    | intr => cases h; rfl
    | data b =>
      simp only [IRaw.read] at h
      split at h
      · rename_i hl; cases h; simp only [IRaw.calm, Raw.read, if_pos hl]
      · rename_i hl; cases h; simp only [IRaw.calm, Raw.read, if_neg hl]

theorem IBuf.fillBuf_calm {cap : Nat} {r r' : IBuf} {g : Got} (h : r.fillBuf cap = (g, r')) :
    match g with
    | .ok b => r.calm.fillBuf cap = (some b, r'.calm)
    | .fail => r.calm.fillBuf cap = (none, r'.calm)
    | .intr => r.calm = r'.calm := by
  unfold IBuf.fillBuf at h
  split at h
  · rename_i hb
    cases hr : r.raw.read cap with
    | mk g' raw =>
      have := IRaw.read_calm hr
      rw [hr] at h
      cases g' with
      | ok b =>
        simp only [Prod.mk.injEq] at h this
        obtain ⟨rfl, rfl⟩ := h
        simp only [IBuf.calm, Buf.fillBuf, hb, if_true, this]
      | fail =>
        simp only [Prod.mk.injEq] at h this
        obtain ⟨rfl, rfl⟩ := h
        simp only [IBuf.calm, Buf.fillBuf, hb, if_true, this]
      | intr =>
        simp only [Prod.mk.injEq] at h this
        obtain ⟨rfl, rfl⟩ := h
        simp only [IBuf.calm, hb, this]
  · rename_i hb
    simp only [Prod.mk.injEq] at h
    obtain ⟨rfl, rfl⟩ := h
    simp only [IBuf.calm, Buf.fillBuf, hb, if_false]

theorem IBuf.read_calm {cap n : Nat} {r r' : IBuf} {g : Got} (h : r.read cap n = (g, r')) :
    match g with
    | .ok b => r.calm.read cap n = (some b, r'.calm)
    | .fail => r.calm.read cap n = (none, r'.calm)
    | .intr => r.calm = r'.calm := by
  unfold IBuf.read at h
  split at h
  · rename_i hb
    have hb' : r.calm.buf = [] ∧ cap ≤ n := hb
    cases hr : r.raw.read n with
    | mk g' raw =>
      have := IRaw.read_calm hr
      rw [hr] at h
      simp only [Prod.mk.injEq] at h
      obtain ⟨rfl, rfl⟩ := h
      cases g' with
      | ok b =>
        simp only at this ⊢
        unfold Buf.read
        rw [if_pos hb']
        simp only [IBuf.calm, this]
      | fail =>
        simp only at this ⊢
        unfold Buf.read
        rw [if_pos hb']
        simp only [IBuf.calm, this]
      | intr => simp only [IBuf.calm, hb.1, this]
  · rename_i hb
    have hb' : ¬(r.calm.buf = [] ∧ cap ≤ n) := hb
    cases hf : r.fillBuf cap with
    | mk g' r1 =>
      have := IBuf.fillBuf_calm hf
      rw [hf] at h
      cases g' with
      | ok b =>
        simp only [Prod.mk.injEq] at h this
        obtain ⟨rfl, rfl⟩ := h
        simp only
        unfold Buf.read
        rw [if_neg hb', this]
        rfl
      | fail =>
        simp only [Prod.mk.injEq] at h this
        obtain ⟨rfl, rfl⟩ := h
        simp only
        unfold Buf.read
        rw [if_neg hb', this]
      | intr =>
        simp only [Prod.mk.injEq] at h this
        obtain ⟨rfl, rfl⟩ := h
        exact this

/-- a retried `fill_buf` is one on the stream without the interruptions -/
theorem IBuf.fillRetry_calm (cap : Nat) (r : IBuf) : r.calm.fillBuf cap = ((r.fillRetry cap).1, (r.fillRetry cap).2.calm) := by
  fun_induction IBuf.fillRetry cap r with
  | case1 r b r' h => exact IBuf.fillBuf_calm h
  | case2 r r' h => exact IBuf.fillBuf_calm h
  | case3 r r' h ih => rw [← ih, (IBuf.fillBuf_calm h : r.calm = r'.calm)]

/-- a retried `read` is one on the stream without the interruptions -/
theorem IBuf.readRetry_calm (cap n : Nat) (r : IBuf) : r.calm.read cap n = ((r.readRetry cap n).1, (r.readRetry cap n).2.calm) := by
  fun_induction IBuf.readRetry cap n r with
  | case1 r b r' h => exact IBuf.read_calm h
  | case2 r r' h => exact IBuf.read_calm h
  | case3 r r' h ih => rw [← ih, (IBuf.read_calm h : r.calm = r'.calm)]

/-- Amount of data and events pending (termination measure only). Used for puck/src/request/mod.rs:55. -/
def IBuf.size (r : IBuf) : Nat := r.calm.buf.length + r.calm.raw.size

/-- One step of `read_until`, as `Buf.untilStep`. Used for puck/src/request/mod.rs:55, puck/src/response/mod.rs:62. -/
def IBuf.untilStep (cap : Nat) (delim : UInt8) (r : IBuf) : Option (Bytes × Bool) × IBuf :=
  match r.fillRetry cap with
  | (none, r') => (none, r')
  | (some b, r') =>
    match b.findIdx? (· == delim) with
    | some i => (some (b.take (i + 1), true), ⟨b.drop (i + 1), r'.raw⟩)
    | none => (some (b, false), ⟨[], r'.raw⟩)

theorem IBuf.untilStep_calm (cap : Nat) (d : UInt8) (r : IBuf) : r.calm.untilStep cap d = ((r.untilStep cap d).1, (r.untilStep cap d).2.calm) := by
  unfold Buf.untilStep IBuf.untilStep
  rw [IBuf.fillRetry_calm]
  cases r.fillRetry cap with
  | mk o r1 =>
    cases o with
    | none => rfl
    | some b =>
      simp only
      cases b.findIdx? (· == d) <;> rfl

theorem IBuf.untilStep_size {cap : Nat} {d : UInt8} {r r' : IBuf} {b : Bytes} {f : Bool} (h : r.untilStep cap d = (some (b, f), r')) (hb : b ≠ []) : r'.size < r.size := by
  have := IBuf.untilStep_calm cap d r
  rw [h] at this
  exact Buf.untilStep_size_lt this hb

/-- `BufRead::read_until`, as `Buf.readUntil`. Used for puck/src/request/mod.rs:55, puck/src/response/mod.rs:62. -/
def IBuf.readUntil (cap : Nat) (delim : UInt8) (acc : Bytes) (r : IBuf) : Option Bytes × IBuf :=
  match _h : r.untilStep cap delim with
  | (none, r') => (none, r')
  | (some (b, found), r') =>
    if _hb : b = [] then (some acc, r')
    else if found then (some (acc ++ b), r')
    else IBuf.readUntil cap delim (acc ++ b) r'
termination_by r.size
decreasing_by exact IBuf.untilStep_size _h _hb

theorem IBuf.readUntil_calm (cap : Nat) (d : UInt8) (acc : Bytes) (r : IBuf) :
    r.calm.readUntil cap d acc = ((r.readUntil cap d acc).1, (r.readUntil cap d acc).2.calm) := by
  fun_induction IBuf.readUntil cap d acc r with
  | case1 acc r r' h =>
    rw [Buf.readUntil]
    have := IBuf.untilStep_calm cap d r
    rw [h] at this
    split
    · rename_i h2; rw [this] at h2; cases h2; rfl
    · rename_i h2; rw [this] at h2; cases h2
  | case2 acc r f r' h =>
    rw [Buf.readUntil]
    have := IBuf.untilStep_calm cap d r
    rw [h] at this
    split
    · rename_i h2; rw [this] at h2; cases h2
    · rename_i h2; rw [this] at h2; cases h2; simp
  | case3 acc r b r' hb h =>
    rw [Buf.readUntil]
    have := IBuf.untilStep_calm cap d r
    rw [h] at this
    split
    · rename_i h2; rw [this] at h2; cases h2
    · rename_i h2; rw [this] at h2; cases h2; simp [hb]
  | case4 acc r b f r' h hb hf ih =>
    rw [Buf.readUntil]
    have := IBuf.untilStep_calm cap d r
    rw [h] at this
    split
    · rename_i h2; rw [this] at h2; cases h2
    · rename_i h2; rw [this] at h2; cases h2; simp only [dif_neg hb, if_neg hf, ih]

theorem IBuf.readUntil_size {cap : Nat} {d : UInt8} {acc b : Bytes} {r r' : IBuf} (h : r.readUntil cap d acc = (some b, r')) (hb : b ≠ acc) : r'.size < r.size := by
  have := IBuf.readUntil_calm cap d acc r
  rw [h] at this
  exact Buf.readUntil_size_lt this hb

/-- puck/src/request/mod.rs:54-69 (and response/mod.rs:61-76): the loop that reads the head, as `headLoop`. -/
def headLoopI (cap : Nat) (acc : Bytes) (r : IBuf) : Option (Option Bytes) × IBuf :=
  match _h : r.readUntil cap 10 [] with
  | (none, r') => (none, r')
  | (some b, r') =>
    if _hb : b = [] then (some none, r')
    else if endsBlank (acc ++ b) then (some (some (acc ++ b)), r')
    else headLoopI cap (acc ++ b) r'
termination_by r.size
decreasing_by exact IBuf.readUntil_size _h _hb

/-- A body that is still in the reader: puck/src/body/mod.rs:15-20 `Body` with a `BufReader` of capacity `cap`. -/
structure IBody where
  reader : IBuf
  cap : Nat
  mime : Mime
  length : Option Nat
  bytesRead : Nat

/-- Without the interruptions. Used for puck/src/body/mod.rs:15-20. -/
def IBody.calm (b : IBody) : Body := ⟨.buf b.cap b.reader.calm, b.mime, b.length, b.bytesRead⟩

/-- puck/src/body/mod.rs:98-112 `<Body as Read>::read`, as `Body.read`: an interruption is returned by the `?` of line 108, and nothing is counted. `none` is the panic of
the subtraction of line 104. -/
def IBody.read (n : Nat) (b : IBody) : Option Got × IBody :=
  let go (n : Nat) : Option Got × IBody :=
    match b.reader.read b.cap n with
    | (.ok x, r) => (some (.ok x), { b with reader := r, bytesRead := b.bytesRead + x.length })
    | (g, r) => (some g, { b with reader := r })
  match b.length with
  | none => go n
  | some len =>
    if len = b.bytesRead then (some (.ok []), b)
    else if len < b.bytesRead then (none, b)
    else go (min (len - b.bytesRead) n)

theorem IBody.read_calm {n : Nat} {b b' : IBody} {o : Option Got} (h : b.read n = (o, b')) :
    match o with
    | some (.ok x) => b.calm.read n = (.ok x, b'.calm)
    | some .fail => b.calm.read n = (.err (), b'.calm)
    | some .intr => b.calm = b'.calm ∧ b.reader.raw = .intr :: b'.reader.raw
    | none => b.calm.read n = (.panic, b'.calm) := by
  obtain ⟨r, cap, mime, len, k⟩ := b
  have go : ∀ m, (match r.read cap m with
      | (.ok x, r') => ((some (.ok x), ⟨r', cap, mime, len, k + x.length⟩) : Option Got × IBody)
      | (g, r') => (some g, ⟨r', cap, mime, len, k⟩)) = (o, b') →
      match o with
      | some (.ok x) => ((match (Src.buf cap r.calm).read m with
          | (none, s) => (.err (), ⟨s, mime, len, k⟩)
          | (some x, s) => (.ok x, ⟨s, mime, len, k + x.length⟩)) : Outcome Unit Bytes × Body) = (.ok x, b'.calm)
      | some .fail => ((match (Src.buf cap r.calm).read m with
          | (none, s) => (.err (), ⟨s, mime, len, k⟩)
          | (some x, s) => (.ok x, ⟨s, mime, len, k + x.length⟩)) : Outcome Unit Bytes × Body) = (.err (), b'.calm)
      | some .intr => (⟨.buf cap r.calm, mime, len, k⟩ : Body) = b'.calm ∧ r.raw = .intr :: b'.reader.raw
      | none => False := by
    intro m hm
    cases hr : r.read cap m with
    | mk g r' =>
      have hc := IBuf.read_calm hr
      rw [hr] at hm
      cases g with
      | ok x => cases hm; simp only [Src.read] at hc ⊢; rw [hc]; rfl
      | fail => cases hm; simp only [Src.read] at hc ⊢; rw [hc]; rfl
      | intr =>
        cases hm
        simp only at hc ⊢
        exact ⟨by rw [hc]; rfl, (IBuf.read_intr hr).2.2⟩
  unfold IBody.read at h
  simp only at h
  cases len with
  | none =>
    have := go n h
    rcases o with _ | (x | _ | _)
    · exact absurd this id
    · exact this
    · exact this
    · exact this
  | some l =>
    simp only at h
    by_cases h1 : l = k
    · rw [if_pos h1] at h
      cases h
      simp only
      unfold Body.read
      simp only [IBody.calm, h1, if_true]
    · rw [if_neg h1] at h
      by_cases h2 : l < k
      · rw [if_pos h2] at h
        cases h
        simp only
        unfold Body.read
        simp only [IBody.calm, h1, h2, if_true, if_false]
      · rw [if_neg h2] at h
        have := go _ h
        rcases o with _ | (x | _ | _)
        · exact absurd this id
        · simp only at this ⊢
          unfold Body.read
          simp only [IBody.calm, h1, h2, if_false]
          exact this
        · simp only at this ⊢
          unfold Body.read
          simp only [IBody.calm, h1, h2, if_false]
          exact this
        · exact this

/-- `read` on a body in the loops of std's `read_to_end`, `read_to_string` and `io::copy`: an interrupted one is repeated.
Used for puck/src/body/mod.rs:71-83, puck/src/request/mod.rs:128, puck/src/response/encoder.rs:32. -/
def IBody.readRetry (n : Nat) (b : IBody) : Outcome Unit Bytes × IBody :=
  match _h : b.read n with
  | (some (.ok x), b') => (.ok x, b')
  | (some .fail, b') => (.err (), b')
  | (none, b') => (.panic, b')
  | (some .intr, b') => IBody.readRetry n b'
termination_by b.reader.raw.length
decreasing_by rw [(IBody.read_calm _h).2]; simp

theorem IBody.readRetry_calm (n : Nat) (b : IBody) : b.calm.read n = ((b.readRetry n).1, (b.readRetry n).2.calm) := by
  fun_induction IBody.readRetry n b with
  | case1 b x b' h => exact IBody.read_calm h
  | case2 b b' h => exact IBody.read_calm h
  | case3 b b' h => exact IBody.read_calm h
  | case4 b b' h ih => rw [← ih, (IBody.read_calm h).1]

theorem IBody.readRetry_size {n : Nat} {b b' : IBody} {x : Bytes} (h : b.readRetry n = (.ok x, b')) (hx : x ≠ []) : b'.calm.reader.size < b.calm.reader.size := by
  have := IBody.readRetry_calm n b
  rw [h] at this
  exact Body.read_size_lt this hx

/-- `Read::read_to_end` on a body, as `Body.readToEnd`. Used for puck/src/body/mod.rs:71-83. -/
def IBody.readToEnd (sched : Nat → Nat) (i : Nat) (acc : Bytes) (b : IBody) : Outcome Unit Bytes × IBody :=
  match _h : b.readRetry (sched i + 1) with
  | (.err e, b') => (.err e, b')
  | (.panic, b') => (.panic, b')
  | (.ok x, b') => if _hx : x = [] then (.ok acc, b') else IBody.readToEnd sched (i + 1) (acc ++ x) b'
termination_by b.calm.reader.size
decreasing_by exact IBody.readRetry_size _h _hx

/-- puck/src/body/mod.rs:71-75 `Body::into_bytes`. -/
def IBody.intoBytes (sched : Nat → Nat) (b : IBody) : Outcome Unit Bytes := (b.readToEnd sched 0 []).1

/-- puck/src/body/mod.rs:79-83 `Body::into_string`, as `Body.intoString`. -/
def IBody.intoString (W : Nat) (sched : Nat → Nat) (b : IBody) : Outcome Unit String :=
  if b.length.getD 0 > isizeMax W then .panic
  else
    match b.intoBytes sched with
    | .ok x => (fromUtf8 x).elim (.err ()) .ok
    | .err e => .err e
    | .panic => .panic

/-- `std::io::copy`, as `Body.copyTo`. Used for puck/src/request/mod.rs:128 and puck/src/response/encoder.rs:32. -/
def IBody.copyTo (blk : Nat) (b : IBody) (s : Sink) : Outcome Unit Unit × IBody × Sink :=
  match _h : b.readRetry (blk + 1) with
  | (.err e, b') => (.err e, b', s)
  | (.panic, b') => (.panic, b', s)
  | (.ok x, b') =>
    if _hx : x = [] then (.ok (), b', s)
    else
      match s.writeAll x with
      | (false, s') => (.err (), b', s')
      | (true, s') => IBody.copyTo blk b' s'
termination_by b.calm.reader.size
decreasing_by exact IBody.readRetry_size _h _hx

/-- `Request::parse` with the interruptions: the request with an empty body, and the body. puck/src/request/mod.rs:47-115. -/
def Request.parseI (env : HttpEnv) (raw : IRaw) : Except RequestParseError (Option (Request × IBody)) :=
  match headLoopI requestCap [] ⟨[], raw⟩ with
  | (none, _) => .error .ioError
  | (some none, _) => .ok none
  | (some (some head), r) => (Request.ofHead env head ⟨[], []⟩).map fun q => some ({ q with body := .empty }, ⟨r, requestCap, .byteStream, q.body.length, 0⟩)

/-- `Response::parse` with the interruptions, likewise. puck/src/response/mod.rs:54-121. -/
def Response.parseI (env : HttpEnv) (raw : IRaw) : Except ParseResponseError (Option (Response × IBody)) :=
  match headLoopI responseCap [] ⟨[], raw⟩ with
  | (none, _) => .error .ioError
  | (some none, _) => .ok none
  | (some (some head), r) => (Response.ofHead env head ⟨[], []⟩).map fun q => some ({ q with body := .empty }, ⟨r, responseCap, .byteStream, q.body.length, 0⟩)

end Puck
