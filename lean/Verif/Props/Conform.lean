import Verif.Props.WebSocket
import Verif.Spec.Conform
/-!
# RFC 6455 in both directions (C119, C120)
-/
namespace Puck
open Rfc6455

/-! ## C119 -/

/-- A frame that a client has nothing to object to. -/
def Frame.Fine (f : Frame) : Prop :=
  f.rsv1 = false ∧ f.rsv2 = false ∧ f.rsv3 = false ∧ f.fin = true ∧ f.opCode ≠ .reserved ∧ f.opCode ≠ .continue ∧
  (f.opCode = .terminate ∨ f.opCode = .ping ∨ f.opCode = .pong → f.decoded.length ≤ 125) ∧ (f.opCode = .terminate → f.decoded.length ≠ 1) ∧
  (f.opCode = .text → ∃ s : String, f.decoded = strBytes s) ∧ f.decoded.length ≠ 65535

theorem kindOf_code (o : OpCode) : kindOf o.code.toNat = match o with
    | .continue => .continue | .binary => .binary | .text => .text | .reserved => .reserved | .terminate => .close
    | .ping => .ping | .pong => .pong := by cases o <;> rfl

theorem frame_length (f : Frame) : f.bytes.length = (if f.decoded.length < 126 then 2 else if f.decoded.length < 65535 then 4 else 10) + f.decoded.length := by
  rw [Frame.bytes_eq, List.length_append, length_headBytes]
  congr 1
  by_cases h1 : f.decoded.length < 126
  · simp [h1]
  · by_cases h2 : f.decoded.length < 65535 <;> simp [h1, h2]

theorem takes_iff (f : Frame) (x : Bytes) (h : f.decoded.length < 2 ^ 64) : Takes (f.bytes ++ x) f.wire x ↔ f.Fine := by
  unfold Takes Frame.Fine
  rw [decode_frame f x h, List.length_append, frame_length]
  simp only [Frame.wire, kindOf_code, true_and]
  have hl : ((if f.decoded.length < 126 then 2 else if f.decoded.length < 65535 then 4 else 10) + f.decoded.length + x.length =
      shortestHeader f.decoded.length + f.decoded.length + x.length) ↔ f.decoded.length ≠ 65535 := by
    unfold shortestHeader
    split <;> split <;> (try split) <;> (try split) <;> omega
  rw [hl]
  cases f.opCode <;> simp [IsControl]

theorem ofMessage_wire (m : Message) : (Frame.ofMessage m).wire = wireOf m := by
  cases m with
  | text s => rfl
  | binary b => rfl
  | ping p => cases p <;> rfl
  | pong p => cases p <;> rfl

/-- A message that may be sent: not a ping or pong of more than 125 bytes, and not of exactly 65535 bytes. -/
def Sendable : Message → Prop
  | .text s => (strBytes s).length ≠ 65535
  | .binary b => b.length ≠ 65535
  | .ping p => (p.getD []).length ≤ 125
  | .pong p => (p.getD []).length ≤ 125

theorem ofMessage_fine (m : Message) : (Frame.ofMessage m).Fine ↔ Sendable m := by
  cases m with
  | text s => simp [Frame.Fine, Frame.ofMessage, Sendable]; exact fun _ => ⟨s, rfl⟩
  | binary b => simp [Frame.Fine, Frame.ofMessage, Sendable]
  | ping p => simp [Frame.Fine, Frame.ofMessage, Sendable]; omega
  | pong p => simp [Frame.Fine, Frame.ofMessage, Sendable]; omega

/-- **C119, one message, exactly.** A conforming client accepts what `send` writes for a message, whatever follows it, exactly if the message is
not a ping or pong of more than 125 bytes and not one of 65535 bytes. -/
theorem C119_send_exact_partial (m : Message) (x : Bytes) (h : (wireOf m).payload.length < 2 ^ 64) :
    Takes (observed m ++ x) (wireOf m) x ↔ Sendable m := by
  rw [observed_eq, Message.bytes, ← ofMessage_fine, ← ofMessage_wire]
  exact takes_iff _ x (by rw [← ofMessage_wire] at h; exact h)

/-- **C119 is false**: for every longer ping or pong payload, and for every message of 65535 bytes. -/
theorem C119_send_refuted (m : Message) (x : Bytes) (h : (wireOf m).payload.length < 2 ^ 64)
    (hm : (∃ p, m = .ping (some p) ∧ 125 < p.length) ∨ (∃ p, m = .pong (some p) ∧ 125 < p.length) ∨ ∃ b, m = .binary b ∧ b.length = 65535) :
    ∀ f rest, ¬ Takes (observed m ++ x) f rest := by
  intro f rest ht
  have hd := decode_message m x h
  have h1 := ht.1
  rw [observed_eq, hd, Option.some.injEq, Prod.mk.injEq] at h1
  obtain ⟨rfl, rfl⟩ := h1
  have := (C119_send_exact_partial m _ h).1 ht
  rcases hm with ⟨p, rfl, hp⟩ | ⟨p, rfl, hp⟩ | ⟨b, rfl, hb⟩
  · simp only [Sendable, Option.getD_some] at this; omega
  · simp only [Sendable, Option.getD_some] at this; omega
  · exact this hb

theorem accepts_frames : ∀ fs : List Frame, (∀ f ∈ fs, f.decoded.length < 2 ^ 64) → (∀ f ∈ fs, f.Fine) →
    Accepts (fs.map Frame.bytes).flatten (fs.map Frame.wire)
  | [], _, _ => .nil
  | f :: fs, h, hf => by
    rw [List.map_cons, List.flatten_cons, List.map_cons]
    exact .cons ((takes_iff f _ (h f List.mem_cons_self)).2 (hf f List.mem_cons_self))
      (accepts_frames fs (fun g hg => h g (List.mem_cons_of_mem _ hg)) fun g hg => hf g (List.mem_cons_of_mem _ hg))

theorem expected_wire : ∀ (rs : List Ret) (closed : Bool), ∀ w ∈ expected closed rs,
    (∃ m ok, Ret.sent m ok ∈ rs ∧ w = wireOf m) ∨ (∃ p, Ret.item (.ok (.ping p)) ∈ rs ∧ w = wireOf (.pong p)) ∨ w = closeWire := by
  intro rs
  induction rs with
  | nil => intro closed w h; simp [expected] at h
  | cons r rs ih =>
    intro closed w h
    have lift : ∀ c, w ∈ expected c rs → (∃ m ok, Ret.sent m ok ∈ r :: rs ∧ w = wireOf m) ∨
        (∃ p, Ret.item (.ok (.ping p)) ∈ r :: rs ∧ w = wireOf (.pong p)) ∨ w = closeWire := by
      intro c hc
      rcases ih c w hc with ⟨m, ok, h1, h2⟩ | ⟨p, h1, h2⟩ | h1
      · exact Or.inl ⟨m, ok, List.mem_cons_of_mem _ h1, h2⟩
      · exact Or.inr (Or.inl ⟨p, List.mem_cons_of_mem _ h1, h2⟩)
      · exact Or.inr (Or.inr h1)
    unfold expected at h
    split at h
    · cases h
    · rename_i heq
      cases heq
      rcases List.mem_cons.1 h with h | h
      · exact Or.inl ⟨_, _, List.mem_cons_self, h⟩
      · exact lift _ h
    · rename_i heq
      cases heq
      rcases List.mem_cons.1 h with h | h
      · exact Or.inr (Or.inl ⟨_, List.mem_cons_self, h⟩)
      · exact lift _ h
    · rename_i heq
      cases heq
      rcases List.mem_cons.1 h with h | h
      · exact Or.inr (Or.inr h)
      · exact lift _ h
    · rename_i heq
      cases heq
      exact lift _ h

theorem wire_fine {f g : Frame} (h : f.wire = g.wire) (hg : g.Fine) : f.Fine := by
  simp only [Frame.wire, WireFrame.mk.injEq] at h
  obtain ⟨h1, h2, h3, h4, h5, h6⟩ := h
  have ho : f.opCode = g.opCode := by
    revert h5
    cases f.opCode <;> cases g.opCode <;> decide
  unfold Frame.Fine
  rw [h1, h2, h3, h4, h6, ho]
  exact hg

theorem closeFrame_fine : closeFrame.Fine := by simp [Frame.Fine, closeFrame]

/-- **C119, a whole history.** For every history of reads and sends on an open socket in which nothing panicked and no send failed: if the
messages sent are sendable and the pings that came in had at most 125 bytes (as RFC 6455 demands of the client), a conforming client accepts
everything that was written, as the pongs, the messages and the close frame that C22 names. -/
theorem C119_history_partial (W : Nat) (cs : List Call) (st' : WsState) (c c' : Conn) (rs : List Ret)
    (h : WebSocket.run W cs .open c = (rs, st', c'))
    (hnp : .item .panic ∉ rs) (hns : ∀ m, Ret.sent m false ∉ rs)
    (hlen : ∀ m, Ret.sent m true ∈ rs → (wireOf m).payload.length < 2 ^ 64 ∧ Sendable m)
    (hping : ∀ p, Ret.item (.ok (.ping (some p))) ∈ rs → p.length ≤ 125) :
    ∃ w, c'.out.out = c.out.out ++ w ∧ Accepts w (expected false rs) := by
  obtain ⟨fs, g1, g2, g3, _⟩ := run_writes W cs .open st' c c' rs h hnp hns (fun m hm => (hlen m hm).1)
    (fun p hp => Nat.lt_of_le_of_lt (hping p hp) (by decide))
  refine ⟨_, g1, ?_⟩
  rw [show expected false rs = fs.map Frame.wire from g2.symm]
  refine accepts_frames fs g3 fun f hf => ?_
  have hw : f.wire ∈ expected false rs := by
    rw [show expected false rs = fs.map Frame.wire from g2.symm]
    exact List.mem_map.2 ⟨f, hf, rfl⟩
  rcases expected_wire rs false f.wire hw with ⟨m, ok, h1, h2⟩ | ⟨p, h1, h2⟩ | h1
  · have hok : ok = true := by
      cases ok with
      | true => rfl
      | false => exact absurd h1 (hns m)
    subst hok
    exact wire_fine (h2.trans (ofMessage_wire m).symm) ((ofMessage_fine m).2 (hlen m h1).2)
  · refine wire_fine (h2.trans (ofMessage_wire _).symm) ((ofMessage_fine _).2 ?_)
    cases p with
    | none => simp [Sendable]
    | some p => exact hping p h1
  · exact wire_fine (h1.trans closeFrame_wire.symm) closeFrame_fine

/-- non-vacuity: a ping is answered, a text is sent, and the client closes -/
example : ∃ w, Accepts w [wireOf (.pong (some [104, 105])), wireOf (.text "x"), closeWire] := by
  obtain ⟨w, _, h⟩ := C119_history_partial 32 _ _ _ _ _ demo_history (by simp) (by simp)
    (by intro m hm; simp at hm; subst hm; exact ⟨by decide +kernel, by simp only [Sendable]; decide +kernel⟩)
    (by intro p hp; simp at hp; subst hp; decide)
  exact ⟨w, h⟩

/-- non-vacuity of the refutation: such messages exist -/
example : Sendable (.ping (some (List.replicate 125 0))) ∧ ¬ Sendable (.ping (some (List.replicate 126 0))) ∧
    ¬ Sendable (.binary (List.replicate 65535 0)) := by
  simp only [Sendable, Option.getD_some, List.length_replicate]
  decide

/-! ## C120 -/

/-- the opcode of a message that was begun -/
def opFor : Kind → OpCode
  | .text => .text
  | .binary => .binary
  | .continue => .continue
  | .close => .terminate
  | .ping => .ping
  | .pong => .pong
  | .reserved => .reserved

theorem opOf_eq (n : Nat) : opOf n = opFor (kindOf n) := by
  unfold opOf opFor; cases kindOf n <;> rfl

/-- what is left of a call of `Message::next` after the fragments so far -/
def resume (W : Nat) (s : Option (Kind × Bytes)) (raw : Raw) : Outcome DecodeMessageError Message × Raw :=
  match s with
  | none => Message.next W raw
  | some (k, p) => nextLoop W (opFor k) p raw

/-- what `Message::next` says for a verdict -/
def Verdict.outcome : Verdict → Outcome DecodeMessageError Message
  | .message m => .ok m
  | .closed => .err .clientSentCloseFrame
  | .failed => .err .clientProtocolViolationError

theorem message_of {k : Kind} {p : Bytes} {m : Message} (h : Means k p m) : messageOf (opFor k) p = .ok m := by
  cases h with
  | text s => simp [opFor, messageOf, fromUtf8_strBytes]
  | binary b => simp [opFor, messageOf]
  | pingEmpty => simp [opFor, messageOf]
  | ping b hb => simp [opFor, messageOf, hb]
  | pongEmpty => simp [opFor, messageOf]
  | pong b hb => simp [opFor, messageOf, hb]

theorem message_none {p : Bytes} (h : ¬ ∃ m, Means .text p m) : messageOf .text p = .err .clientProtocolViolationError := by
  simp only [messageOf]
  cases hu : fromUtf8 p with
  | none => rfl
  | some s => exact absurd ⟨.text s, strBytes_of_fromUtf8 hu ▸ Means.text s⟩ h

theorem means_unique {k : Kind} {p : Bytes} {m m' : Message} (h : Means k p m) (h' : Means k p m') : m = m' := by
  have h1 := message_of h
  rw [message_of h'] at h1
  cases h1; rfl

/-- the specification gives at most one sequence of reports -/
theorem receives_unique {s : Option (Kind × Bytes)} {fs : List ClientFrame} {vs : List Verdict} (h : Receives s fs vs) :
    ∀ vs', Receives s fs vs' → vs = vs' := by
  induction h <;> intro vs' h' <;> cases h' <;> first | rfl | contradiction | grind [means_unique]

/-- ... and at least one -/
theorem receives_total : ∀ (fs : List ClientFrame) (s : Option (Kind × Bytes)), (∀ k p, s = some (k, p) → k = .text ∨ k = .binary) → ∃ vs, Receives s fs vs
  | [], s, _ => ⟨_, .done⟩
  | f :: fs, s, hs => by
    by_cases hl : Legal f
    · have ihn := receives_total fs none (fun _ _ h => nomatch h)
      have ihs : ∀ k p, k = .text ∨ k = .binary → ∃ vs, Receives (some (k, p)) fs vs := fun k p hk => receives_total fs _ (by rintro k' p' ⟨⟩; exact hk)
      have mb : ∀ p, ∃ m, Means .binary p m := fun p => ⟨_, .binary p⟩
      have ctl : ∀ k p, k = .ping ∨ k = .pong → ∃ m, Means k p m := by
        rintro k p (rfl | rfl) <;> by_cases h : p = []
        · subst h; exact ⟨_, Means.pingEmpty⟩
        · exact ⟨_, .ping p h⟩
        · subst h; exact ⟨_, Means.pongEmpty⟩
        · exact ⟨_, .pong p h⟩
      obtain ⟨vs, hn⟩ := receives_total fs s hs
      cases hk : kindOf f.nibble with
      | close => exact ⟨_, .close hl hk⟩
      | ping => obtain ⟨m, hm⟩ := ctl _ f.payload (Or.inl hk); exact ⟨_, .control hl (Or.inl hk) hm hn⟩
      | pong => obtain ⟨m, hm⟩ := ctl _ f.payload (Or.inr hk); exact ⟨_, .control hl (Or.inr hk) hm hn⟩
      | reserved => exact absurd hk hl.2.2.2.1
      | «continue» =>
        cases s with
        | none => exact ⟨_, .stray hl hk⟩
        | some kp =>
          obtain ⟨k, p⟩ := kp
          have hkt := hs k p rfl
          cases hfin : f.fin with
          | false => obtain ⟨vs, h⟩ := ihs k (p ++ f.payload) hkt; exact ⟨_, .more hl hk hfin h⟩
          | true =>
            obtain ⟨us, hus⟩ := ihn
            by_cases hm : ∃ m, Means k (p ++ f.payload) m
            · obtain ⟨m, hm⟩ := hm; exact ⟨_, .last hl hk hfin hm hus⟩
            · rcases hkt with rfl | rfl
              · exact ⟨_, .texts hl hk hfin hm⟩
              · exact absurd (mb _) hm
      | text =>
        cases s with
        | some kp => exact ⟨_, .restart hl (Or.inl hk)⟩
        | none =>
          cases hfin : f.fin with
          | false => obtain ⟨vs, h⟩ := ihs (kindOf f.nibble) f.payload (Or.inl hk); exact ⟨_, .start hl (Or.inl hk) hfin h⟩
          | true =>
            obtain ⟨us, hus⟩ := ihn
            by_cases hm : ∃ m, Means .text f.payload m
            · obtain ⟨m, hm⟩ := hm; exact ⟨_, .whole hl (Or.inl hk) hfin (by rw [hk]; exact hm) hus⟩
            · exact ⟨_, .text hl hk hfin hm⟩
      | binary =>
        cases s with
        | some kp => exact ⟨_, .restart hl (Or.inr hk)⟩
        | none =>
          cases hfin : f.fin with
          | false => obtain ⟨vs, h⟩ := ihs (kindOf f.nibble) f.payload (Or.inr hk); exact ⟨_, .start hl (Or.inr hk) hfin h⟩
          | true => obtain ⟨us, hus⟩ := ihn; exact ⟨_, .whole hl (Or.inr hk) hfin (by rw [hk]; exact Means.binary _) hus⟩
    · exact ⟨_, .illegal hl⟩

theorem opFor_terminate {k : Kind} : opFor k = .terminate ↔ k = .close := by cases k <;> simp [opFor]

theorem opFor_continue {k : Kind} : opFor k = .continue ↔ k = .continue := by cases k <;> simp [opFor]

theorem resume_none {W : Nat} {d : Delivery} (h : d.Ok W) (X : Raw) : resume W none (d.reads ++ X) =
    if kindOf d.frame.nibble = .close then (.err .clientSentCloseFrame, X)
    else if d.frame.fin then (messageOf (opFor (kindOf d.frame.nibble)) d.frame.payload, X)
    else resume W (some (kindOf d.frame.nibble, d.frame.payload)) X := by
  simp only [resume]
  unfold Message.next
  rw [parse_delivery h]
  simp only [frameOf, opOf_eq, opFor_terminate]

theorem resume_some {W : Nat} {d : Delivery} (h : d.Ok W) (k : Kind) (p : Bytes) (X : Raw) : resume W (some (k, p)) (d.reads ++ X) =
    if kindOf d.frame.nibble = .close then (.err .clientSentCloseFrame, X)
    else if kindOf d.frame.nibble ≠ .continue then (.err .clientProtocolViolationError, X)
    else if d.frame.fin then (messageOf (opFor k) (p ++ d.frame.payload), X)
    else resume W (some (k, p ++ d.frame.payload)) X := by
  simp only [resume]
  rw [nextLoop, parse_delivery h]
  simp only [frameOf, opOf_eq, opFor_terminate, opFor_continue, ne_eq]

/-- the first verdict -/
theorem resume_first {W : Nat} {s : Option (Kind × Bytes)} {fs : List ClientFrame} {us : List Verdict} (h : Receives s fs us) :
    ∀ (v : Verdict) (vs : List Verdict) (ds : List Delivery) (rest : Raw), us = v :: vs → fs = ds.map Delivery.frame → (∀ d ∈ ds, d.Ok W) →
    Undisturbed s.isSome fs → (∀ f ∈ fs, ¬ Legal f → kindOf f.nibble = .reserved) →
    ∃ es : List Delivery, (∀ d ∈ es, d ∈ ds) ∧ resume W s ((ds.map Delivery.reads).flatten ++ rest) = (Verdict.outcome v, (es.map Delivery.reads).flatten ++ rest) ∧
      ((∃ m, v = .message m) → Receives none (es.map Delivery.frame) vs ∧ Undisturbed false (es.map Delivery.frame)) ∧
      ((¬ ∃ m, v = .message m) → vs = []) := by
  have cons_of : ∀ {f : ClientFrame} {fs : List ClientFrame} {ds : List Delivery}, f :: fs = ds.map Delivery.frame →
      ∃ d ds', ds = d :: ds' ∧ d.frame = f ∧ fs = ds'.map Delivery.frame := by
    intro f fs ds h
    cases ds with
    | nil => cases h
    | cons d ds => rw [List.map_cons, List.cons.injEq] at h; exact ⟨d, ds, rfl, h.1.symm, h.2⟩
  have undist : ∀ {b : Bool} {f : ClientFrame} {fs : List ClientFrame}, Undisturbed b (f :: fs) →
      (b = true → kindOf f.nibble ≠ .ping ∧ kindOf f.nibble ≠ .pong) ∧
      (b = false → kindOf f.nibble = .continue ∨ kindOf f.nibble = .reserved → f.fin = true) ∧
      (¬ IsControl (kindOf f.nibble) → Undisturbed (!f.fin) fs) ∧ (IsControl (kindOf f.nibble) → Undisturbed b fs) := by
    intro b f fs h
    rw [Undisturbed] at h
    refine ⟨h.1, h.2.1, fun hc => ?_, fun hc => ?_⟩
    · have := h.2.2; rw [if_neg hc] at this; exact this
    · have := h.2.2; rw [if_pos hc] at this; exact this
  have lift : ∀ {d : Delivery} {ds : List Delivery} {es : List Delivery}, (∀ e ∈ es, e ∈ ds) → ∀ e ∈ es, e ∈ d :: ds :=
    fun h e he => List.mem_cons_of_mem _ (h e he)
  induction h with
  | done => intro v vs ds rest hv; cases hv
  | @close s f0 fs0 hl hk =>
    intro v vs ds rest hv hf hok hu hr
    cases hv
    obtain ⟨d, ds, rfl, rfl, rfl⟩ := cons_of hf
    refine ⟨ds, fun e he => List.mem_cons_of_mem _ he, ?_, fun ⟨m, h⟩ => (nomatch h), fun _ => rfl⟩
    rw [List.map_cons, List.flatten_cons, List.append_assoc]
    cases s with
    | none => rw [resume_none (hok d List.mem_cons_self), if_pos hk]; rfl
    | some kp => rw [resume_some (hok d List.mem_cons_self), if_pos hk]; rfl
  | @control s f0 fs0 m0 vs0 hl hk hm hrec ih =>
    intro v vs ds rest hv hf hok hu hr
    cases hv
    obtain ⟨d, ds, rfl, rfl, rfl⟩ := cons_of hf
    obtain ⟨u1, u2, u3, u4⟩ := undist hu
    have hc : IsControl (kindOf d.frame.nibble) := Or.inr hk
    cases s with
    | some kp =>
      have := u1 rfl
      rcases hk with hk | hk
      · exact absurd hk this.1
      · exact absurd hk this.2
    | none =>
      refine ⟨ds, fun e he => List.mem_cons_of_mem _ he, ?_, fun _ => ⟨hrec, u4 hc⟩, fun h => absurd ⟨_, rfl⟩ h⟩
      rw [List.map_cons, List.flatten_cons, List.append_assoc, resume_none (hok d List.mem_cons_self),
        if_neg (by rcases hk with h | h <;> rw [h] <;> simp), if_pos (hl.2.2.2.2.1 hc).1, message_of hm]
      rfl
  | whole hl hk hfin hm hrec ih =>
    intro v vs ds rest hv hf hok hu hr
    cases hv
    obtain ⟨d, ds, rfl, rfl, rfl⟩ := cons_of hf
    obtain ⟨u1, u2, u3, u4⟩ := undist hu
    have hc : ¬ IsControl (kindOf d.frame.nibble) := by rcases hk with h | h <;> rw [h] <;> simp [IsControl]
    refine ⟨ds, fun e he => List.mem_cons_of_mem _ he, ?_, fun _ => ⟨hrec, by have := u3 hc; rw [hfin] at this; exact this⟩, fun h => absurd ⟨_, rfl⟩ h⟩
    rw [List.map_cons, List.flatten_cons, List.append_assoc, resume_none (hok d List.mem_cons_self),
      if_neg (by rcases hk with h | h <;> rw [h] <;> simp), if_pos hfin, message_of hm]
    rfl
  | start hl hk hfin hrec ih =>
    intro v vs ds rest hv hf hok hu hr
    obtain ⟨d, ds, rfl, rfl, rfl⟩ := cons_of hf
    obtain ⟨u1, u2, u3, u4⟩ := undist hu
    have hc : ¬ IsControl (kindOf d.frame.nibble) := by rcases hk with h | h <;> rw [h] <;> simp [IsControl]
    obtain ⟨es, h1, h2, h3⟩ := ih v vs ds rest hv rfl (fun e he => hok e (List.mem_cons_of_mem _ he)) (by have := u3 hc; rw [hfin] at this; exact this)
      (fun f hf => hr f (List.mem_cons_of_mem _ hf))
    refine ⟨es, lift h1, ?_, h3⟩
    rw [List.map_cons, List.flatten_cons, List.append_assoc, resume_none (hok d List.mem_cons_self),
      if_neg (by rcases hk with h | h <;> rw [h] <;> simp), if_neg (by rw [hfin]; simp)]
    exact h2
  | more hl hk hfin hrec ih =>
    intro v vs ds rest hv hf hok hu hr
    obtain ⟨d, ds, rfl, rfl, rfl⟩ := cons_of hf
    obtain ⟨u1, u2, u3, u4⟩ := undist hu
    have hc : ¬ IsControl (kindOf d.frame.nibble) := by rw [hk]; simp [IsControl]
    obtain ⟨es, h1, h2, h3⟩ := ih v vs ds rest hv rfl (fun e he => hok e (List.mem_cons_of_mem _ he)) (by have := u3 hc; rw [hfin] at this; exact this)
      (fun f hf => hr f (List.mem_cons_of_mem _ hf))
    refine ⟨es, lift h1, ?_, h3⟩
    rw [List.map_cons, List.flatten_cons, List.append_assoc, resume_some (hok d List.mem_cons_self),
      if_neg (by rw [hk]; simp), if_neg (by rw [hk]; simp), if_neg (by rw [hfin]; simp)]
    exact h2
  | last hl hk hfin hm hrec ih =>
    intro v vs ds rest hv hf hok hu hr
    cases hv
    obtain ⟨d, ds, rfl, rfl, rfl⟩ := cons_of hf
    obtain ⟨u1, u2, u3, u4⟩ := undist hu
    have hc : ¬ IsControl (kindOf d.frame.nibble) := by rw [hk]; simp [IsControl]
    refine ⟨ds, fun e he => List.mem_cons_of_mem _ he, ?_, fun _ => ⟨hrec, by have := u3 hc; rw [hfin] at this; exact this⟩, fun h => absurd ⟨_, rfl⟩ h⟩
    rw [List.map_cons, List.flatten_cons, List.append_assoc, resume_some (hok d List.mem_cons_self),
      if_neg (by rw [hk]; simp), if_neg (by rw [hk]; simp), if_pos hfin, message_of hm]
    rfl
  | @illegal s f0 fs0 hl =>
    intro v vs ds rest hv hf hok hu hr
    cases hv
    obtain ⟨d, ds, rfl, rfl, rfl⟩ := cons_of hf
    obtain ⟨u1, u2, u3, u4⟩ := undist hu
    have hk := hr d.frame List.mem_cons_self hl
    refine ⟨ds, fun e he => List.mem_cons_of_mem _ he, ?_, fun ⟨m, h⟩ => (nomatch h), fun _ => rfl⟩
    rw [List.map_cons, List.flatten_cons, List.append_assoc]
    cases s with
    | none =>
      rw [resume_none (hok d List.mem_cons_self), if_neg (by rw [hk]; simp), if_pos (u2 rfl (Or.inr hk)), hk]
      rfl
    | some kp => rw [resume_some (hok d List.mem_cons_self), if_neg (by rw [hk]; simp), if_pos (by rw [hk]; simp)]; rfl
  | stray hl hk =>
    intro v vs ds rest hv hf hok hu hr
    cases hv
    obtain ⟨d, ds, rfl, rfl, rfl⟩ := cons_of hf
    obtain ⟨u1, u2, u3, u4⟩ := undist hu
    refine ⟨ds, fun e he => List.mem_cons_of_mem _ he, ?_, fun ⟨m, h⟩ => (nomatch h), fun _ => rfl⟩
    rw [List.map_cons, List.flatten_cons, List.append_assoc, resume_none (hok d List.mem_cons_self), if_neg (by rw [hk]; simp),
      if_pos (u2 rfl (Or.inl hk)), hk]
    rfl
  | restart hl hk =>
    intro v vs ds rest hv hf hok hu hr
    cases hv
    obtain ⟨d, ds, rfl, rfl, rfl⟩ := cons_of hf
    refine ⟨ds, fun e he => List.mem_cons_of_mem _ he, ?_, fun ⟨m, h⟩ => (nomatch h), fun _ => rfl⟩
    rw [List.map_cons, List.flatten_cons, List.append_assoc, resume_some (hok d List.mem_cons_self),
      if_neg (by rcases hk with h | h <;> rw [h] <;> simp), if_pos (by rcases hk with h | h <;> rw [h] <;> simp)]
    rfl
  | text hl hk hfin hm =>
    intro v vs ds rest hv hf hok hu hr
    cases hv
    obtain ⟨d, ds, rfl, rfl, rfl⟩ := cons_of hf
    refine ⟨ds, fun e he => List.mem_cons_of_mem _ he, ?_, fun ⟨m, h⟩ => (nomatch h), fun _ => rfl⟩
    rw [List.map_cons, List.flatten_cons, List.append_assoc, resume_none (hok d List.mem_cons_self), if_neg (by rw [hk]; simp), if_pos hfin, hk]
    simp only [opFor, message_none hm]
    rfl
  | texts hl hk hfin hm =>
    intro v vs ds rest hv hf hok hu hr
    cases hv
    obtain ⟨d, ds, rfl, rfl, rfl⟩ := cons_of hf
    refine ⟨ds, fun e he => List.mem_cons_of_mem _ he, ?_, fun ⟨m, h⟩ => (nomatch h), fun _ => rfl⟩
    rw [List.map_cons, List.flatten_cons, List.append_assoc, resume_some (hok d List.mem_cons_self), if_neg (by rw [hk]; simp),
      if_neg (by rw [hk]; simp), if_pos hfin]
    simp only [opFor, message_none hm]
    rfl

/-- what the iterator returns for a verdict -/
def Verdict.item : Verdict → Ret
  | .message m => .item (.ok m)
  | .closed => .item (.err .connectionClosed)
  | .failed => .item (.err .clientError)

theorem next_verdict {W : Nat} {raw raw' : Raw} {v : Verdict} (h : Message.next W raw = (Verdict.outcome v, raw')) (o : Bytes) :
    ∃ r st o', WebSocket.next W .open ⟨raw, ⟨o, none⟩⟩ = (r, st, ⟨raw', ⟨o', none⟩⟩) ∧ Verdict.item v = .item r ∧ r ≠ .panic ∧ (st = .closed ↔ v = .closed) := by
  unfold WebSocket.next
  rw [h]
  cases v with
  | message m =>
    cases m with
    | ping p => simp only [Verdict.outcome, sendFrame_eq]; exact ⟨_, _, _, rfl, rfl, by simp, by simp⟩
    | text s => exact ⟨_, _, _, rfl, rfl, by simp, by simp⟩
    | binary b => exact ⟨_, _, _, rfl, rfl, by simp, by simp⟩
    | pong p => exact ⟨_, _, _, rfl, rfl, by simp, by simp⟩
  | closed => simp only [Verdict.outcome, sendFrame_eq]; exact ⟨_, _, _, rfl, rfl, by simp, by simp⟩
  | failed => exact ⟨_, _, _, rfl, rfl, by simp, by simp⟩

/-- **C120 (what holds).** Whatever complete frames a client sends: if no ping or pong comes between fragments, if what neither begins nor continues
a message is not marked as having continuations, and if the only illegal frames are those with unknown opcodes, then the iterator reports exactly
what RFC 6455 says (messages, the close, the first violation), one result per call. -/
theorem C120_verdicts_partial (W : Nat) (ds : List Delivery) (hok : ∀ d ∈ ds, d.Ok W) (vs : List Verdict)
    (h : Receives none (ds.map Delivery.frame) vs) (hu : Undisturbed false (ds.map Delivery.frame))
    (hr : ∀ d ∈ ds, ¬ Legal d.frame → kindOf d.frame.nibble = .reserved) (rest : Raw) (o : Bytes) :
    (WebSocket.run W (vs.map fun _ => .next) .open ⟨(ds.map Delivery.reads).flatten ++ rest, ⟨o, none⟩⟩).1 = vs.map Verdict.item := by
  induction vs generalizing ds o with
  | nil => rfl
  | cons v vs ih =>
    obtain ⟨es, h1, h2, h3, h4⟩ := resume_first h v vs ds rest rfl rfl hok hu (by
      intro f hf
      obtain ⟨d, hd, rfl⟩ := List.mem_map.1 hf
      exact hr d hd)
    obtain ⟨r, st, o', g1, g2, g3, g4⟩ := next_verdict h2 o
    rw [List.map_cons, WebSocket.run, g1, List.map_cons, g2]
    have key : (WebSocket.run W (vs.map fun _ => .next) st ⟨(es.map Delivery.reads).flatten ++ rest, ⟨o', none⟩⟩).1 = vs.map Verdict.item := by
      by_cases hm : ∃ m, v = .message m
      · have hs : st = .open := by
          cases st with
          | «open» => rfl
          | closed => obtain ⟨m, rfl⟩ := hm; exact nomatch g4.1 rfl
        subst hs
        exact ih es (fun d hd => hok d (h1 d hd)) (h3 hm).1 (h3 hm).2 (fun d hd => hr d (h1 d hd)) o'
      · rw [h4 hm]; rfl
    cases r with
    | panic => exact absurd rfl g3
    | ok m => simp only; rw [key]
    | err e => simp only; rw [key]

/-- non-vacuity: a text in two fragments, then a ping, then an unknown opcode -/
example : ∃ ds : List Delivery, (∀ d ∈ ds, d.Ok 32) ∧
    Receives none (ds.map Delivery.frame) [.message (.text "€"), .message (.ping (some [104, 105])), .failed] ∧
    Undisturbed false (ds.map Delivery.frame) ∧ ∀ d ∈ ds, ¬ Legal d.frame → kindOf d.frame.nibble = .reserved := by
  refine ⟨[⟨frag1, [.data frag1.encode]⟩, ⟨frag2, [.data frag2.encode]⟩, ⟨pingFrame, [.data pingFrame.encode]⟩,
    ⟨⟨true, false, false, false, 5, (1, 2, 3, 4), [1], .short⟩, [.data (ClientFrame.encode ⟨true, false, false, false, 5, (1, 2, 3, 4), [1], .short⟩)]⟩], ?_, ?_, ?_, ?_⟩
  · simp only [List.mem_cons, List.not_mem_nil, or_false, forall_eq_or_imp, forall_eq]
    exact ⟨ok_single _ (by decide) (by decide), ok_single _ (by decide) (by decide), ok_single _ (by decide) (by decide), ok_single _ (by decide) (by decide)⟩
  · refine .start ?_ (by decide) rfl (.last (m := .text "€") ?_ (by decide) rfl ?_ (.control (m := .ping (some [104, 105])) ?_ (by decide) ?_ (.illegal ?_)))
    · simp [Legal, frag1, kindOf, IsControl, Form.shortest]
    · simp [Legal, frag2, kindOf, IsControl, Form.shortest]
    · have : strBytes "€" = [226] ++ [130, 172] := by decide +kernel
      exact this ▸ Means.text "€"
    · simp [Legal, pingFrame, kindOf, IsControl, Form.shortest]
    · exact Means.ping _ (by decide)
    · simp [Legal, kindOf]
  · simp [Undisturbed, frag1, frag2, pingFrame, kindOf, IsControl]
  · simp [Legal, frag1, frag2, pingFrame, kindOf, IsControl, Form.shortest]

/-- **C120 is false**: (1) every final frame with a known opcode is delivered as if it were legal, whatever its reserved bits, its length form and (for a
control frame) its size; (2) so is every fragmented ping or pong. -/
theorem C120_accepted_refuted (W : Nat) :
    (∀ (d : Delivery) (rest : Raw) (o : Bytes) (m : Message), d.Ok W → d.frame.fin = true → Means (kindOf d.frame.nibble) d.frame.payload m → ¬ Legal d.frame →
      Receives none [d.frame] [.failed] ∧ (WebSocket.run W [.next] .open ⟨d.reads ++ rest, ⟨o, none⟩⟩).1 = [.item (.ok m)]) ∧
    (∀ (k : Kind) (ds : List Delivery) (rest : Raw) (o : Bytes) (m : Message), (∀ d ∈ ds, d.Ok W) → k = .ping ∨ k = .pong → IsMessage k (ds.map Delivery.frame) →
      2 ≤ ds.length → Means k (payloads (ds.map Delivery.frame)) m →
      Receives none (ds.map Delivery.frame) [.failed] ∧
      (WebSocket.run W [.next] .open ⟨(ds.map Delivery.reads).flatten ++ rest, ⟨o, none⟩⟩).1 = [.item (.ok m)]) := by
  have fin : ∀ {raw raw' : Raw} {m : Message} (o : Bytes), Message.next W raw = (.ok m, raw') →
      (WebSocket.run W [.next] .open ⟨raw, ⟨o, none⟩⟩).1 = [.item (.ok m)] := by
    intro raw raw' m o h
    obtain ⟨r, st, o', g1, g2, g3, _⟩ := next_verdict (v := .message m) h o
    rw [WebSocket.run, g1]
    cases g2
    rfl
  refine ⟨fun d rest o m hok hf hm hl => ⟨.illegal hl, fin (raw' := rest) o ?_⟩, fun k ds rest o m hok hk hi h2 hm => ⟨?_, fin (raw' := rest) o ?_⟩⟩
  · have hc : kindOf d.frame.nibble ≠ .close := by intro h; rw [h] at hm; cases hm
    have := resume_none hok rest
    rw [if_neg hc, if_pos hf, message_of hm] at this
    exact this
  · cases ds with
    | nil => exact hi.elim
    | cons d ds =>
      refine .illegal fun hl => ?_
      obtain ⟨h1, h3 | h3⟩ := hi
      · have := h3.2
        simp only [List.map_eq_nil_iff] at this
        subst this
        simp at h2
      · have := (hl.2.2.2.2.1 (by rw [h1]; exact Or.inr hk)).1
        rw [h3.1] at this
        cases this
  · exact (C13_reassembled W k ds rest hok (by rcases hk with rfl | rfl <;> simp) hi).1 m hm

/-- non-vacuity of (1): reserved bit set; a length not in the shortest form; a ping of 126 bytes -/
example : (∃ f : ClientFrame, f.Valid ∧ f.rsv1 = true ∧ ¬ Legal f ∧ ∃ m, Means (kindOf f.nibble) f.payload m) ∧
    (∃ f : ClientFrame, f.Valid ∧ f.form = .long ∧ ¬ Legal f ∧ ∃ m, Means (kindOf f.nibble) f.payload m) ∧
    (∃ f : ClientFrame, f.Valid ∧ f.payload.length = 126 ∧ ¬ Legal f ∧ ∃ m, Means (kindOf f.nibble) f.payload m) := by
  refine ⟨⟨⟨true, true, false, false, 2, (1, 2, 3, 4), [7], .short⟩, by decide, rfl, by simp [Legal], _, Means.binary _⟩,
    ⟨⟨true, false, false, false, 2, (1, 2, 3, 4), [7], .long⟩, by decide, rfl, by simp [Legal, Form.shortest], _, Means.binary _⟩,
    ⟨⟨true, false, false, false, 9, (1, 2, 3, 4), List.replicate 126 0, .medium⟩, ⟨by simp, by simp only [Form.Carries, List.length_replicate]; decide⟩, List.length_replicate,
      fun h => absurd (h.2.2.2.2.1 (Or.inr (Or.inl rfl))).2 (by rw [List.length_replicate]; decide), _, Means.ping _ (fun h => nomatch h)⟩⟩

end Puck
