import Verif.Props.FrameParse
import Verif.Model.Message
import Verif.Spec.Messages
/-!
# Properties of `Message::next` (C13 - C17)
-/
namespace Puck
open Rfc6455

theorem messageOf_means {n : Nat} {p : Bytes} {m : Message} (h : Means (kindOf n) p m) :
    messageOf (opOf n) p = .ok m := by
  unfold opOf
  generalize kindOf n = k at h
  cases h with
  | text s => simp [messageOf, fromUtf8_strBytes]
  | binary b => simp [messageOf]
  | pingEmpty => simp [messageOf]
  | ping b hb => simp [messageOf, hb]
  | pongEmpty => simp [messageOf]
  | pong b hb => simp [messageOf, hb]

theorem messageOf_none {n : Nat} {p : Bytes} (h : ¬ ∃ m, Means (kindOf n) p m) :
    messageOf (opOf n) p = .err .clientProtocolViolationError := by
  unfold opOf
  cases hk : kindOf n with
  | text =>
    simp only [messageOf]
    cases hu : fromUtf8 p with
    | none => rfl
    | some s =>
      exfalso; apply h; rw [hk]
      exact ⟨.text s, strBytes_of_fromUtf8 hu ▸ Means.text s⟩
  | binary => exact absurd ⟨.binary p, hk ▸ Means.binary p⟩ h
  | ping =>
    exfalso; apply h; rw [hk]
    by_cases hp : p = []
    · exact ⟨_, hp ▸ Means.pingEmpty⟩
    · exact ⟨_, Means.ping p hp⟩
  | pong =>
    exfalso; apply h; rw [hk]
    by_cases hp : p = []
    · exact ⟨_, hp ▸ Means.pongEmpty⟩
    · exact ⟨_, Means.pong p hp⟩
  | «continue» => rfl
  | close => rfl
  | reserved => rfl

theorem opOf_zero : opOf 0 = .continue := rfl

theorem opOf_terminate {n : Nat} : opOf n = .terminate ↔ kindOf n = .close := by
  unfold opOf; cases kindOf n <;> simp

/-- Continuation frames that are not final only add to the payload. -/
theorem nextLoop_conts {W : Nat} {op : OpCode} (ds : List Delivery) (p : Bytes) (rest : Raw)
    (hok : ∀ d ∈ ds, d.Ok W) (hc : ∀ d ∈ ds, d.frame.nibble = 0 ∧ d.frame.fin = false) :
    nextLoop W op p ((ds.map Delivery.reads).flatten ++ rest) =
      nextLoop W op (p ++ payloads (ds.map Delivery.frame)) rest := by
  induction ds generalizing p with
  | nil => simp [payloads]
  | cons d ds ih =>
    rw [List.map_cons, List.flatten_cons, List.append_assoc]
    rw [nextLoop, parse_delivery (hok d List.mem_cons_self)]
    obtain ⟨h0, hf⟩ := hc d List.mem_cons_self
    simp only [frameOf, h0, opOf_zero, hf]
    simp only [reduceCtorEq, if_false, ne_eq, not_true_eq_false, Bool.false_eq_true]
    rw [ih _ (fun d' h' => hok d' (List.mem_cons_of_mem _ h')) fun d' h' => hc d' (List.mem_cons_of_mem _ h')]
    simp [payloads, List.append_assoc]

theorem nextLoop_final {W : Nat} {op : OpCode} (ds : List Delivery) (p : Bytes) (rest : Raw)
    (hok : ∀ d ∈ ds, d.Ok W) (hc : Continues (ds.map Delivery.frame)) :
    nextLoop W op p ((ds.map Delivery.reads).flatten ++ rest) =
      (messageOf op (p ++ payloads (ds.map Delivery.frame)), rest) := by
  induction ds generalizing p with
  | nil => exact hc.elim
  | cons d ds ih =>
    rw [List.map_cons, List.flatten_cons, List.append_assoc]
    rw [nextLoop, parse_delivery (hok d List.mem_cons_self)]
    obtain ⟨h0, hf | hf⟩ := hc
    · obtain ⟨hf, hnil⟩ := hf
      have : ds = [] := List.map_eq_nil_iff.1 hnil
      subst this
      simp [frameOf, h0, opOf_zero, hf, payloads]
    · obtain ⟨hf, hcs⟩ := hf
      simp only [frameOf, h0, opOf_zero, hf]
      simp only [reduceCtorEq, if_false, ne_eq, not_true_eq_false, Bool.false_eq_true]
      rw [ih _ (fun d' h' => hok d' (List.mem_cons_of_mem _ h')) hcs]
      simp [payloads, List.append_assoc]

/-! ## C13 -/

/-- **C13.** The frames of one message (one final frame, or a first frame and continuations), each
arriving in reads of its own, are reassembled into the message their kind and concatenated payload mean;
if they mean none (invalid UTF-8, a stray continuation, a reserved opcode) the result is a protocol
violation.  Either way the stream is left exactly after the last frame. -/
theorem C13_reassembled (W : Nat) (k : Kind) (ds : List Delivery) (rest : Raw)
    (hok : ∀ d ∈ ds, d.Ok W) (hk : k ≠ .close) (hm : IsMessage k (ds.map Delivery.frame)) :
    (∀ m, Means k (payloads (ds.map Delivery.frame)) m →
      Message.next W ((ds.map Delivery.reads).flatten ++ rest) = (.ok m, rest)) ∧
    ((¬ ∃ m, Means k (payloads (ds.map Delivery.frame)) m) →
      Message.next W ((ds.map Delivery.reads).flatten ++ rest) =
        (.err .clientProtocolViolationError, rest)) := by
  cases ds with
  | nil => exact hm.elim
  | cons d ds =>
    obtain ⟨hkk, hm⟩ := hm
    subst hkk
    have key : Message.next W (((d :: ds).map Delivery.reads).flatten ++ rest) =
        (messageOf (opOf d.frame.nibble) (payloads ((d :: ds).map Delivery.frame)), rest) := by
      rw [List.map_cons, List.flatten_cons, List.append_assoc]
      unfold Message.next
      rw [parse_delivery (hok d List.mem_cons_self)]
      have hnt : (frameOf d.frame).opCode ≠ .terminate := by
        rw [frameOf, Ne, opOf_terminate]; exact hk
      simp only [hnt, if_false]
      rcases hm with ⟨hf, hnil⟩ | ⟨hf, hcs⟩
      · have : ds = [] := List.map_eq_nil_iff.1 hnil
        subst this
        simp [frameOf, hf, payloads]
      · simp only [frameOf, hf]
        simp only [Bool.false_eq_true, if_false]
        rw [nextLoop_final ds _ rest (fun d' h' => hok d' (List.mem_cons_of_mem _ h')) hcs]
        simp [payloads]
    rw [key]
    exact ⟨fun m h => by rw [messageOf_means h], fun h => by rw [messageOf_none h]⟩

def frag1 : ClientFrame := ⟨false, false, false, false, 1, (1, 1, 1, 1), [226], .short⟩
def frag2 : ClientFrame := ⟨true, false, false, false, 0, (2, 2, 2, 2), [130, 172], .short⟩

theorem ok_single {W : Nat} (f : ClientFrame) (hv : f.Valid) (hm : f.payload.length ≤ isizeMax W) :
    Delivery.Ok W ⟨f, [.data f.encode]⟩ := by
  refine ⟨hv, hm, ?_⟩
  by_cases hp : f.payload = []
  · exact Or.inr ⟨hp, rfl⟩
  · have hhl : 2 ≤ f.head.length ∧ f.head.length + 4 + f.payload.length = f.encode.length := by
      unfold ClientFrame.encode ClientFrame.head
      rw [length_headBytes]
      cases f.form <;> simp [length_headBytes] <;> omega
    have hpl := List.length_pos_iff.2 hp
    have hnb : ∀ k, 0 < k → k < f.encode.length → ¬ Raw.Boundary [.data f.encode] k := by
      intro k hk hlt
      apply not_boundary_of
      intro n hn
      have : n = 0 ∨ n = 1 := by simp at hn; omega
      rcases this with rfl | rfl
      · simp [Raw.bytes]; omega
      · simp [Raw.bytes]; omega
    have hu : Raw.Unsplit [.data f.encode] f.head.length :=
      ⟨hnb _ (by omega) (by omega), hnb _ (by omega) (by omega), hnb _ (by omega) (by omega),
        hnb _ (by omega) (by omega)⟩
    refine Or.inl ⟨hp, ?_, by simp [Raw.Clean], by simp [Raw.bytes], hu⟩
    intro b hb; simp at hb; subst hb
    intro h0; rw [h0] at hhl; simp at hhl

/-- non-vacuity: the euro sign split between two fragments (each half is invalid UTF-8 on its own). -/
example : ∃ ds : List Delivery, (∀ d ∈ ds, d.Ok 32) ∧ IsMessage .text (ds.map Delivery.frame) ∧
    Means .text (payloads (ds.map Delivery.frame)) (.text "€") ∧ ds.length = 2 := by
  refine ⟨[⟨frag1, [.data frag1.encode]⟩, ⟨frag2, [.data frag2.encode]⟩], ?_, ?_, ?_, rfl⟩
  · intro d hd
    simp at hd
    rcases hd with rfl | rfl <;> exact ok_single _ (by decide) (by decide)
  · exact ⟨by decide, Or.inr ⟨rfl, rfl, Or.inl ⟨rfl, rfl⟩⟩⟩
  · have : payloads ([⟨frag1, [.data frag1.encode]⟩, ⟨frag2, [.data frag2.encode]⟩].map Delivery.frame) =
      strBytes "€" := by decide
    rw [this]; exact Means.text _

/-! ## C14, C16 -/

theorem next_unfinished {W : Nat} {k : Kind} (ds : List Delivery) (rest : Raw) (hok : ∀ d ∈ ds, d.Ok W)
    (hk : k ≠ .close) (hu : Unfinished k (ds.map Delivery.frame)) :
    ∃ op p, Message.next W ((ds.map Delivery.reads).flatten ++ rest) = nextLoop W op p rest := by
  cases ds with
  | nil => exact hu.elim
  | cons d ds =>
    obtain ⟨hkk, hf, hcs⟩ := hu
    subst hkk
    rw [List.map_cons, List.flatten_cons, List.append_assoc]
    unfold Message.next
    rw [parse_delivery (hok d List.mem_cons_self)]
    have hnt : (frameOf d.frame).opCode ≠ .terminate := by
      rw [frameOf, Ne, opOf_terminate]; exact hk
    simp only [hnt, if_false]
    simp only [frameOf, hf, Bool.false_eq_true, if_false]
    refine ⟨_, _, nextLoop_conts ds _ rest (fun d' h' => hok d' (List.mem_cons_of_mem _ h')) ?_⟩
    intro d' h'
    exact hcs _ (List.mem_map_of_mem h')

/-- **C14 is false**, in every case: a ping or pong (indeed any frame that is neither a continuation nor a
close) between the fragments of a message ends the message with a protocol violation. -/
theorem C14_interleaved_refuted (W : Nat) (k : Kind) (ds : List Delivery) (c : Delivery) (rest : Raw)
    (hok : ∀ d ∈ ds, d.Ok W) (hk : k ≠ .close) (hu : Unfinished k (ds.map Delivery.frame))
    (hc : c.Ok W) (hck : kindOf c.frame.nibble = .ping ∨ kindOf c.frame.nibble = .pong) :
    Message.next W ((ds.map Delivery.reads).flatten ++ (c.reads ++ rest)) =
      (.err .clientProtocolViolationError, rest) := by
  obtain ⟨op, p, h⟩ := next_unfinished ds (c.reads ++ rest) hok hk hu
  rw [h, nextLoop, parse_delivery hc]
  have : opOf c.frame.nibble = .ping ∨ opOf c.frame.nibble = .pong := by
    unfold opOf; rcases hck with h | h <;> simp [h]
  rcases this with h | h <;> simp [frameOf, h]

/-- non-vacuity: an unfinished text message followed by an empty ping. -/
example : Unfinished .text [frag1] ∧ Delivery.Ok 32 ⟨frag1, [.data frag1.encode]⟩ ∧
    Delivery.Ok 32 ⟨⟨true, false, false, false, 9, (7, 7, 7, 7), [], .short⟩,
      [.data (ClientFrame.encode ⟨true, false, false, false, 9, (7, 7, 7, 7), [], .short⟩)]⟩ :=
  ⟨⟨rfl, rfl, by simp⟩, ok_single _ (by decide) (by decide), ok_single _ (by decide) (by decide)⟩

/-- **C16.** A close frame (any flags, any payload) ends the message stream with `ClientSentCloseFrame`,
alone or in the middle of a fragmented message; nothing received so far is delivered. -/
theorem C16_close_anywhere (W : Nat) (k : Kind) (ds : List Delivery) (c : Delivery) (rest : Raw)
    (hok : ∀ d ∈ ds, d.Ok W) (hk : k ≠ .close) (hu : ds = [] ∨ Unfinished k (ds.map Delivery.frame))
    (hc : c.Ok W) (hck : kindOf c.frame.nibble = .close) :
    Message.next W ((ds.map Delivery.reads).flatten ++ (c.reads ++ rest)) =
      (.err .clientSentCloseFrame, rest) := by
  have ht : (frameOf c.frame).opCode = .terminate := opOf_terminate.2 hck
  rcases hu with rfl | hu
  · simp only [List.map_nil, List.flatten_nil, List.nil_append]
    unfold Message.next
    rw [parse_delivery hc]
    simp [ht]
  · obtain ⟨op, p, h⟩ := next_unfinished ds (c.reads ++ rest) hok hk hu
    rw [h, nextLoop, parse_delivery hc]
    simp [ht]

/-- non-vacuity: a close frame with a status code, after one fragment. -/
example : Unfinished .text [frag1] ∧
    Delivery.Ok 32 ⟨⟨true, false, false, false, 8, (7, 7, 7, 7), [3, 232], .short⟩,
      [.data (ClientFrame.encode ⟨true, false, false, false, 8, (7, 7, 7, 7), [3, 232], .short⟩)]⟩ ∧
    kindOf 8 = .close :=
  ⟨⟨rfl, rfl, by simp⟩, ok_single _ (by decide) (by decide), rfl⟩

/-! ## C15 -/

/-- `Frame::parse`, called repeatedly, returns exactly these frames. -/
inductive Parses (W : Nat) : Raw → List Frame → Raw → Prop
  | nil (r : Raw) : Parses W r [] r
  | cons {r r' r'' : Raw} {f : Frame} {fs : List Frame} :
      Frame.parse W r = (.ok f, r') → Parses W r' fs r'' → Parses W r (f :: fs) r''

/-- Continuation frames up to and including the final one. -/
def FContinues : List Frame → Prop
  | [] => False
  | f :: fs => f.opCode = .continue ∧ (f.fin = true ∧ fs = [] ∨ f.fin = false ∧ FContinues fs)

/-- The kind of an opcode. -/
def kindOfOp : OpCode → Kind
  | .continue => .continue
  | .binary => .binary
  | .text => .text
  | .reserved => .reserved
  | .terminate => .close
  | .ping => .ping
  | .pong => .pong

theorem means_of_messageOf {op : OpCode} {p : Bytes} {m : Message} (h : messageOf op p = .ok m) :
    Means (kindOfOp op) p m := by
  cases op with
  | binary => simp [messageOf] at h; subst h; exact Means.binary p
  | text =>
    simp only [messageOf] at h
    cases hu : fromUtf8 p with
    | none => rw [hu] at h; cases h
    | some s =>
      rw [hu] at h
      cases h
      exact strBytes_of_fromUtf8 hu ▸ Means.text s
  | ping =>
    simp only [messageOf] at h
    by_cases hp : p = []
    · subst hp; simp at h; subst h; exact Means.pingEmpty
    · simp [hp] at h; subst h; exact Means.ping p hp
  | pong =>
    simp only [messageOf] at h
    by_cases hp : p = []
    · subst hp; simp at h; subst h; exact Means.pongEmpty
    · simp [hp] at h; subst h; exact Means.pong p hp
  | «continue» => cases h
  | reserved => cases h
  | terminate => cases h

theorem nextLoop_sound {W : Nat} {op : OpCode} : ∀ (n : Nat) (raw : Raw) (p : Bytes) (m : Message) (raw' : Raw),
    raw.size ≤ n → nextLoop W op p raw = (.ok m, raw') →
    ∃ fs, Parses W raw fs raw' ∧ FContinues fs ∧
      messageOf op (p ++ (fs.map Frame.decoded).flatten) = .ok m := by
  intro n
  induction n with
  | zero =>
    intro raw p m raw' hn h
    rw [nextLoop] at h
    split at h
    · simp at h
    · simp at h
    · rename_i msg r1 heq
      have := parse_shrinks heq; omega
  | succ n ih =>
    intro raw p m raw' hn h
    rw [nextLoop] at h
    split at h
    · simp at h
    · simp at h
    · rename_i msg r1 heq
      have hsh := parse_shrinks heq
      split at h
      · simp at h
      split at h
      · simp at h
      rename_i hop
      have hop' : msg.opCode = .continue := by
        cases ho : msg.opCode <;> simp [ho] at hop ⊢
      split at h
      · rename_i hf
        simp only [Prod.mk.injEq] at h
        obtain ⟨h1, h2⟩ := h
        subst h2
        exact ⟨[msg], .cons heq (.nil _), ⟨hop', Or.inl ⟨hf, rfl⟩⟩, by simpa using h1⟩
      · rename_i hf
        obtain ⟨fs, g1, g2, g3⟩ := ih r1 _ m raw' (by omega) h
        exact ⟨msg :: fs, .cons heq g1, ⟨hop', Or.inr ⟨by simpa using hf, g2⟩⟩, by simpa using g3⟩

/-- **C15.** For every stream (any bytes, segmentation, errors): a delivered message is exactly what the
frames parsed from the stream carry: the first gives the kind, the rest are continuations up to the final
one, and a text message is the string whose UTF-8 encoding is the concatenated payload (so no invalid
UTF-8 is ever delivered, nor repaired). -/
theorem C15_message_sound (W : Nat) (raw raw' : Raw) (m : Message)
    (h : Message.next W raw = (.ok m, raw')) :
    ∃ f fs, Parses W raw (f :: fs) raw' ∧ (f.fin = true ∧ fs = [] ∨ f.fin = false ∧ FContinues fs) ∧
      Means (kindOfOp f.opCode) (((f :: fs).map Frame.decoded).flatten) m := by
  unfold Message.next at h
  split at h
  · simp at h
  · simp at h
  · rename_i first r1 heq
    split at h
    · simp at h
    split at h
    · rename_i hf
      simp only [Prod.mk.injEq] at h
      obtain ⟨h1, h2⟩ := h
      subst h2
      exact ⟨first, [], .cons heq (.nil _), Or.inl ⟨hf, rfl⟩, means_of_messageOf (by simpa using h1)⟩
    · rename_i hf
      obtain ⟨fs, g1, g2, g3⟩ := nextLoop_sound _ _ _ _ _ (Nat.le_refl _) h
      exact ⟨first, fs, .cons heq g1, Or.inr ⟨by simpa using hf, g2⟩,
        means_of_messageOf (by simpa using g3)⟩

/-- Text in particular: the payload bytes are the UTF-8 encoding of the delivered string. -/
theorem C15_text_exact (W : Nat) (raw raw' : Raw) (s : String)
    (h : Message.next W raw = (.ok (.text s), raw')) :
    ∃ f fs, Parses W raw (f :: fs) raw' ∧ f.opCode = .text ∧
      ((f :: fs).map Frame.decoded).flatten = strBytes s := by
  obtain ⟨f, fs, h1, _, h3⟩ := C15_message_sound W raw raw' _ h
  refine ⟨f, fs, h1, ?_⟩
  generalize ((f :: fs).map Frame.decoded).flatten = p at h3 ⊢
  generalize hk : kindOfOp f.opCode = k at h3
  cases h3
  refine ⟨?_, rfl⟩
  cases ho : f.opCode <;> rw [ho] at hk <;> first | rfl | cases hk

/-- non-vacuity: the hypothesis is met by a one-frame text message. -/
example : Message.next 32 [.data demoFrame.encode] = (.ok (.text "Hi"), []) := by
  have := (C13_reassembled 32 .text [⟨demoFrame, [.data demoFrame.encode]⟩] []
    (by intro d hd; simp at hd; subst hd; exact ok_single _ (by decide) (by decide)) (by decide)
    ⟨rfl, Or.inl ⟨rfl, rfl⟩⟩).1 (.text "Hi") (by
      have : payloads ([⟨demoFrame, [.data demoFrame.encode]⟩].map Delivery.frame) = strBytes "Hi" := by decide
      rw [this]; exact Means.text _)
  simpa using this

/-! ## C17 -/

/-- **C17.** Any message a client sends in one frame (any key, any length form that fits) is delivered
unchanged, up to `Some(empty) = None` for ping and pong. -/
theorem C17_client_message (W : Nat) (m : Message) (d : Delivery) (rest : Raw) (hd : d.Ok W)
    (hfin : d.frame.fin = true) (hn : d.frame.nibble = clientNibble m)
    (hp : d.frame.payload = clientPayload m) :
    Message.next W (d.reads ++ rest) = (.ok (normalise m), rest) := by
  have hM : Means (kindOf d.frame.nibble) (payloads [d.frame]) (normalise m) := by
    have : payloads [d.frame] = clientPayload m := by simp [payloads, hp]
    rw [this, hn]
    cases m with
    | text s => exact Means.text s
    | binary b => exact Means.binary b
    | ping p =>
      cases p with
      | none => exact Means.pingEmpty
      | some p => cases p with
        | nil => exact Means.pingEmpty
        | cons x xs => exact Means.ping _ (by simp [clientPayload])
    | pong p =>
      cases p with
      | none => exact Means.pongEmpty
      | some p => cases p with
        | nil => exact Means.pongEmpty
        | cons x xs => exact Means.pong _ (by simp [clientPayload])
  have hk : kindOf d.frame.nibble ≠ .close := by
    rw [hn]; cases m <;> simp [clientNibble, kindOf]
  have := (C13_reassembled W (kindOf d.frame.nibble) [d] rest (by simpa using hd) hk
    ⟨rfl, Or.inl ⟨hfin, rfl⟩⟩).1 (normalise m) hM
  simpa using this

/-- non-vacuity. -/
example : Delivery.Ok 32 ⟨demoFrame, [.data demoFrame.encode]⟩ ∧ demoFrame.fin = true ∧
    demoFrame.nibble = clientNibble (.text "Hi") ∧ demoFrame.payload = clientPayload (.text "Hi") :=
  ⟨ok_single _ (by decide) (by decide), by decide, by decide, by decide⟩

end Puck
