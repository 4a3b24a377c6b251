import Verif.Lemmas.Codec
/-!
# Properties of sending (C01 - C03)
-/
namespace Puck
open Rfc6455

/-- What a message means on the wire (RFC 6455 5.5.2, 5.5.3, 5.6): opcode nibble and payload. -/
def wireOf : Message → WireFrame
  | .text s => ⟨true, false, false, false, 1, strBytes s⟩
  | .binary b => ⟨true, false, false, false, 2, b⟩
  | .ping (some p) => ⟨true, false, false, false, 9, p⟩
  | .ping none => ⟨true, false, false, false, 9, []⟩
  | .pong (some p) => ⟨true, false, false, false, 10, p⟩
  | .pong none => ⟨true, false, false, false, 10, []⟩

/-- The bytes of a frame (lemma-level closed form). -/
def Frame.bytes (f : Frame) : Bytes :=
  [f.byteOne, formatLength f.decoded.length] ++ extLength f.decoded.length ++ f.decoded

theorem extLength_small {n : Nat} (h : ¬ 126 ≤ n) : extLength n = [] := by
  unfold extLength; rw [if_neg (by omega), if_neg h]

theorem sendFrame_eq (f : Frame) (s : Sink) : sendFrame f s = s.writeAll f.bytes := by
  unfold Frame.bytes
  rw [Sink.writeAll_append, Sink.writeAll_append]
  unfold sendFrame Frame.format
  cases h : s.writeAll [f.byteOne, formatLength f.decoded.length] with
  | mk ok s1 =>
    cases ok with
    | false => rfl
    | true =>
      simp only
      by_cases h126 : 126 ≤ f.decoded.length
      · simp only [h126, if_true]
        cases s1.writeAll (extLength f.decoded.length) with
        | mk ok s2 => cases ok <;> rfl
      · simp only [h126, if_false, extLength_small h126, Sink.writeAll_nil]

theorem byteOne_table (a b c d : Bool) (o : OpCode) :
    (o.code ||| (if a then 0x80 else 0) ||| (if b then 0x40 else 0) ||| (if c then 0x20 else 0)
      ||| (if d then 0x10 else 0)) = UInt8.ofNat (firstByte a b c d o.code.toNat) := by
  cases a <;> cases b <;> cases c <;> cases d <;> cases o <;> decide +kernel

theorem byteOne_eq (f : Frame) : f.byteOne =
    UInt8.ofNat (firstByte f.fin f.rsv1 f.rsv2 f.rsv3 f.opCode.code.toNat) :=
  byteOne_table ..

theorem code_lt (o : OpCode) : o.code.toNat < 16 := by cases o <;> decide

/-- The bytes of a frame start with an unmasked RFC header announcing the payload length, in one of the
three forms. -/
theorem Frame.bytes_eq (f : Frame) :
    f.bytes = headBytes f.fin f.rsv1 f.rsv2 f.rsv3 f.opCode.code.toNat false
      (if f.decoded.length < 126 then .short else if f.decoded.length < 65535 then .medium else .long)
      f.decoded.length ++ f.decoded := by
  unfold Frame.bytes formatLength extLength
  rw [byteOne_eq]
  by_cases h1 : f.decoded.length < 126
  · simp only [h1, if_true, headBytes]
    rw [if_neg (by omega), if_neg (by omega)]; simp
  · by_cases h2 : f.decoded.length < 65535
    · have h3 : 126 ≤ f.decoded.length := by omega
      simp only [h1, h2, h3, and_self, if_true, if_false, headBytes, toBe_eq]; simp
    · have h3 : 126 ≤ f.decoded.length := by omega
      simp only [h1, h2, h3, and_false, if_true, if_false, headBytes, toBe_eq]; simp

theorem decodeServer_headBytes {a b c d : Bool} {n : Nat} {form : Form} {p x : Bytes} (hn : n < 16)
    (hc : form.Carries p.length) :
    decodeServer (headBytes a b c d n false form p.length ++ p ++ x) =
      some (⟨a, b, c, d, n, p⟩, x) := by
  obtain ⟨e1, e2, e3, e4, e5⟩ := firstByte_bits a b c d hn
  cases form with
  | short =>
    have hc' : p.length < 126 := hc
    have hv : (UInt8.ofNat (false.toNat * 128 + p.length)).toNat = p.length := by
      rw [ofNat_toNat_lt (by simp; omega)]; simp
    simp only [headBytes, List.cons_append, List.nil_append, decodeServer, e1, e2, e3, e4, e5]
    rw [hv, if_pos hc', if_pos (by simp)]
    simp
  | medium =>
    have hc' : p.length < 65536 := hc
    have hv : (UInt8.ofNat (false.toNat * 128 + 126)).toNat = 126 := by decide
    simp only [headBytes, List.cons_append, List.append_assoc, decodeServer, e1, e2, e3, e4, e5]
    rw [hv, if_neg (by omega), if_pos rfl, if_pos (by simp)]
    rw [List.take_left' (by simp), List.drop_left' (by simp), valueBE_bigEndian (by simpa using hc'),
      if_pos (by simp)]
    simp
  | long =>
    have hc' : p.length < 2 ^ 64 := hc
    have hv : (UInt8.ofNat (false.toNat * 128 + 127)).toNat = 127 := by decide
    simp only [headBytes, List.cons_append, List.append_assoc, decodeServer, e1, e2, e3, e4, e5]
    rw [hv, if_neg (by omega), if_neg (by omega), if_pos rfl, if_pos (by simp)]
    rw [List.take_left' (by simp), List.drop_left' (by simp), valueBE_bigEndian (by simpa using hc'),
      if_pos (by simp)]
    simp

theorem carries_chosen {n : Nat} (h : n < 2 ^ 64) :
    (if n < 126 then Form.short else if n < 65535 then .medium else .long).Carries n := by
  by_cases h1 : n < 126
  · simp only [h1, if_true]; exact h1
  · by_cases h2 : n < 65535
    · simp only [h1, h2, if_true, if_false]; show n < 65536; omega
    · simp only [h1, h2, if_false]; exact h

/-- The bytes `send` puts on a working connection. -/
def Message.bytes (m : Message) : Bytes := (Frame.ofMessage m).bytes

theorem send_eq (m : Message) (s : Sink) : send m s = s.writeAll m.bytes := sendFrame_eq _ _

theorem decode_message (m : Message) (x : Bytes) (h : (wireOf m).payload.length < 2 ^ 64) :
    decodeServer (m.bytes ++ x) = some (wireOf m, x) := by
  unfold Message.bytes
  rw [Frame.bytes_eq]
  have hp : (Frame.ofMessage m).decoded = (wireOf m).payload := by
    cases m with
    | text s => rfl
    | binary b => rfl
    | ping p => cases p <;> rfl
    | pong p => cases p <;> rfl
  rw [hp, decodeServer_headBytes (code_lt _) (carries_chosen h)]
  cases m with
  | text s => rfl
  | binary b => rfl
  | ping p => cases p <;> rfl
  | pong p => cases p <;> rfl

/-! ## C01 -/

/-- **C01.** On a connection that accepts bytes `send` succeeds; whenever it succeeds it has appended
bytes `w` to the stream which any RFC 6455 client decodes, whatever follows, to exactly one final,
unmasked frame of the right type and payload, leaving what follows untouched. -/
theorem C01_send_decoded (m : Message) (h : (wireOf m).payload.length < 2 ^ 64) :
    (∀ o, ∃ o', send m ⟨o, none⟩ = (true, ⟨o', none⟩)) ∧
    ∀ s s', send m s = (true, s') → ∃ w, s'.out = s.out ++ w ∧
      ∀ x, decodeServer (w ++ x) = some (wireOf m, x) := by
  constructor
  · intro o; exact ⟨_, by rw [send_eq]; rfl⟩
  · intro s s' hs
    rw [send_eq, Sink.writeAll_ok_iff] at hs
    exact ⟨m.bytes, by rw [hs.2], fun x => decode_message m x h⟩

/-- non-vacuity: a text message over a working connection; the frame is the RFC 6455 5.7 example. -/
example : (wireOf (.text "Hello")).payload.length < 2 ^ 64 ∧
    send (.text "Hello") ⟨[], none⟩ = (true, ⟨[0x81, 0x05, 0x48, 0x65, 0x6c, 0x6c, 0x6f], none⟩) := by
  decide +kernel

/-! ## C02 -/

/-- A history of `WebSocket::send` calls (results ignored by the caller). -/
def sendAll : List Message → Sink → List Bool × Sink
  | [], s => ([], s)
  | m :: ms, s =>
    let (ok, s') := send m s
    let (oks, s'') := sendAll ms s'
    (ok :: oks, s'')

/-- The bytes a message occupies on a connection that never fails, observed through `send` itself. -/
def observed (m : Message) : Bytes := (send m ⟨[], none⟩).2.out

theorem observed_eq (m : Message) : observed m = m.bytes := by
  unfold observed; rw [send_eq]; simp

theorem bytes_pos (m : Message) : 0 < m.bytes.length := by
  simp [Message.bytes, Frame.bytes]

theorem sendAll_full (ms : List Message) (o : Bytes) :
    sendAll ms ⟨o, some 0⟩ = (ms.map fun _ => false, ⟨o, some 0⟩) := by
  induction ms with
  | nil => rfl
  | cons m ms ih =>
    have hp := bytes_pos m
    have : send m ⟨o, some 0⟩ = (false, ⟨o, some 0⟩) := by
      rw [send_eq]; unfold Sink.writeAll
      simp only
      rw [if_neg (by omega)]; simp
    simp only [sendAll, this, ih, List.map_cons]

theorem sendAll_room (ms : List Message) (o : Bytes) (k : Nat) :
    ∃ oks r, sendAll ms ⟨o, some k⟩ = (oks, ⟨o ++ ((ms.map Message.bytes).flatten).take k, r⟩) ∧
      oks.length = ms.length ∧
      ∀ i, i < ms.length → (oks[i]? = some true ↔ (((ms.take (i + 1)).map Message.bytes).flatten).length ≤ k) := by
  induction ms generalizing o k with
  | nil => exact ⟨[], some k, by simp [sendAll], rfl, by simp⟩
  | cons m ms ih =>
    by_cases hk : m.bytes.length ≤ k
    · have hs : send m ⟨o, some k⟩ = (true, ⟨o ++ m.bytes, some (k - m.bytes.length)⟩) := by
        rw [send_eq]; unfold Sink.writeAll; simp [hk]
      obtain ⟨oks, r, h1, h2, h3⟩ := ih (o ++ m.bytes) (k - m.bytes.length)
      refine ⟨true :: oks, r, ?_, by simp [h2], ?_⟩
      · simp only [sendAll, hs, h1, List.map_cons, List.flatten_cons]
        rw [take_app hk, List.append_assoc]
      · intro i hi
        cases i with
        | zero => simpa using hk
        | succ i =>
          simp only [List.getElem?_cons_succ, List.take_succ_cons, List.map_cons, List.flatten_cons,
            List.length_append]
          rw [h3 i (by simp at hi; omega)]
          omega
    · have hs : send m ⟨o, some k⟩ = (false, ⟨o ++ m.bytes.take k, some 0⟩) := by
        rw [send_eq]; unfold Sink.writeAll; simp [hk]
      refine ⟨false :: ms.map (fun _ => false), some 0, ?_, by simp, ?_⟩
      · simp only [sendAll, hs, sendAll_full, List.map_cons, List.flatten_cons]
        rw [List.take_append, show k - m.bytes.length = 0 by omega]
        simp
      · intro i hi
        constructor
        · intro h
          cases i with
          | zero => simp at h
          | succ i => simp only [List.getElem?_cons_succ, List.getElem?_map] at h
                      cases hm : ms[i]? <;> simp [hm] at h
        · intro h
          exfalso
          simp only [List.take_succ_cons, List.map_cons, List.flatten_cons, List.length_append] at h
          omega

/-- **C02 (crash points).** On a connection that accepts `k` more bytes, a history of sends leaves
exactly the first `k` bytes of the concatenated frames, in order, and the `i`-th `send` returns `Ok`
iff the frames up to and including the `i`-th fit in `k` bytes. -/
theorem C02_prefix_under_failure (ms : List Message) (o : Bytes) (k : Nat) :
    (sendAll ms ⟨o, some k⟩).2.out = o ++ ((ms.map observed).flatten).take k ∧
    (sendAll ms ⟨o, some k⟩).1.length = ms.length ∧
    ∀ i, i < ms.length → ((sendAll ms ⟨o, some k⟩).1[i]? = some true ↔
      (((ms.take (i + 1)).map observed).flatten).length ≤ k) := by
  obtain ⟨oks, r, h1, h2, h3⟩ := sendAll_room ms o k
  have he : observed = Message.bytes := funext observed_eq
  rw [he, h1]
  exact ⟨rfl, h2, h3⟩

theorem sendAll_none (ms : List Message) (o : Bytes) :
    sendAll ms ⟨o, none⟩ = (ms.map fun _ => true, ⟨o ++ (ms.map Message.bytes).flatten, none⟩) := by
  induction ms generalizing o with
  | nil => simp [sendAll]
  | cons m ms ih =>
    have : send m ⟨o, none⟩ = (true, ⟨o ++ m.bytes, none⟩) := by rw [send_eq]; rfl
    simp [sendAll, this, ih]

/-- **C02 (no failure).** If nothing fails every send succeeds and a client recovers exactly the
messages, in order (and is left with what follows: it decodes no more than `ms.length` frames from the
bytes that `ms` produced). -/
theorem C02_history_decoded (ms : List Message) (n : Nat)
    (h : ∀ m ∈ ms, (wireOf m).payload.length < 2 ^ 64) :
    (sendAll ms ⟨[], none⟩).1 = ms.map (fun _ => true) ∧
    decodeAll (ms.length + n) (sendAll ms ⟨[], none⟩).2.out = ms.map wireOf := by
  rw [sendAll_none]
  refine ⟨rfl, ?_⟩
  simp only [List.nil_append]
  induction ms with
  | nil => cases n <;> simp [decodeAll, decodeServer]
  | cons m ms ih =>
    rw [List.map_cons, List.flatten_cons, List.length_cons, Nat.add_right_comm, decodeAll,
      decode_message m _ (h m List.mem_cons_self)]
    simp only [List.map_cons]
    rw [ih fun m' hm' => h m' (List.mem_cons_of_mem _ hm')]

/-- non-vacuity: two messages, crash in the middle of the second. -/
example : (sendAll [.text "hi", .ping none, .binary [1, 2, 3]] ⟨[], some 5⟩) =
    ([true, false, false], ⟨[0x81, 2, 104, 105, 0x89], some 0⟩) := by decide +kernel

/-! ## C03 -/

/-- RFC 6455 5.2: the number of header bytes with the minimal length encoding. -/
def minimalHeader (len : Nat) : Nat := if len ≤ 125 then 2 else if len ≤ 65535 then 4 else 10

/-- **C03, all lengths but one**: the frame written is no longer than the minimal encoding. -/
theorem C03_minimal_partial (m : Message) (h : (wireOf m).payload.length ≠ 65535) :
    (observed m).length = minimalHeader (wireOf m).payload.length + (wireOf m).payload.length := by
  have hp : (Frame.ofMessage m).decoded = (wireOf m).payload := by
    cases m with
    | text s => rfl
    | binary b => rfl
    | ping p => cases p <;> rfl
    | pong p => cases p <;> rfl
  rw [observed_eq, Message.bytes, Frame.bytes_eq, List.length_append, length_headBytes, hp]
  congr 1
  unfold minimalHeader
  by_cases h1 : (wireOf m).payload.length < 126
  · simp [h1, show (wireOf m).payload.length ≤ 125 by omega]
  · by_cases h2 : (wireOf m).payload.length < 65535
    · simp [h1, h2, show ¬ (wireOf m).payload.length ≤ 125 by omega,
        show (wireOf m).payload.length ≤ 65535 by omega]
    · simp [h1, h2, show ¬ (wireOf m).payload.length ≤ 125 by omega,
        show ¬ (wireOf m).payload.length ≤ 65535 by omega]

/-- **C03 is false at 65535**: six bytes longer than the minimal encoding. -/
theorem C03_minimal_refuted (b : Bytes) (h : b.length = 65535) :
    (observed (.binary b)).length = minimalHeader 65535 + 65535 + 6 := by
  rw [observed_eq, Message.bytes, Frame.bytes_eq, List.length_append, length_headBytes]
  simp [Frame.ofMessage, h, minimalHeader]

example : ∃ b : Bytes, b.length = 65535 := ⟨List.replicate 65535 0, List.length_replicate⟩
example : (wireOf (.binary [1, 2, 3])).payload.length ≠ 65535 := by decide

end Puck
