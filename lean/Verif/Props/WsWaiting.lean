import Verif.Lemmas.WsWaiting
import Verif.Props.WebSocket
import Verif.Props.FrameParse
/-!
# C145: a WebSocket message is settled once it has arrived
-/
namespace Puck
open Rfc6455

theorem readPayloadLength_lt {second : UInt8} {r r' : Buf} {L : Nat} (h : readPayloadLength second r = (some L, r')) : L < 2 ^ 64 := by
  unfold readPayloadLength at h
  have key : ∀ n, n ≤ 8 → ∀ b r'', r.readExact defaultCap n = (some b, r'') → beNat b < 2 ^ 64 := by
    intro n hn b r'' hb
    have h1 := readExactGo_length n n [] r r'' b hb
    have h2 := valueBE_lt b
    rw [beNat_eq]
    simp only [List.length_nil, Nat.zero_add] at h1
    calc valueBE b < 256 ^ b.length := h2
      _ ≤ 256 ^ 8 := Nat.pow_le_pow_right (by omega) (by omega)
      _ = 2 ^ 64 := by decide
  split at h
  · cases hx : r.readExact defaultCap 2 with
    | mk o1 r1 =>
      rw [hx] at h
      cases o1 with
      | none => simp at h
      | some b => simp only [Prod.mk.injEq, Option.some.injEq] at h; rw [← h.1]; exact key 2 (by omega) b r1 hx
  · split at h
    · cases hx : r.readExact defaultCap 8 with
      | mk o1 r1 =>
        rw [hx] at h
        cases o1 with
        | none => simp at h
        | some b => simp only [Prod.mk.injEq, Option.some.injEq] at h; rw [← h.1]; exact key 8 (by omega) b r1 hx
    · simp only [Prod.mk.injEq, Option.some.injEq] at h
      rw [← h.1]
      have := (second &&& 0x7F).toNat_lt
      omega

theorem parse_later {W : Nat} (hW : 64 ≤ W) {a raw' : Raw} {o : Outcome ParseFrameError Frame} (h : Frame.parse W a = (o, raw')) :
    ((∃ e, o = .err e) ∧ raw' = []) ∨ ∀ more, Frame.parse W (a ++ more) = (o, raw' ++ more) := by
  unfold Frame.parse at h
  rcases Buf.pending_or ⟨[], a⟩ with hp | hp
  · have hl := fun more => Buf.read_later (cap := defaultCap) (n := 2) hp more
    simp only [Buf.later] at hl
    cases hr : (Buf.mk [] a).read defaultCap 2 with
    | mk o1 r1 =>
      simp only [hr] at h hl
      match o1, h, hl with
      | none, h, hl =>
        simp only [Prod.mk.injEq] at h
        obtain ⟨rfl, rfl⟩ := h
        exact Or.inr fun more => by unfold Frame.parse; rw [hl more]
      | some [], h, hl =>
        simp only [Prod.mk.injEq] at h
        obtain ⟨rfl, rfl⟩ := h
        exact Or.inr fun more => by unfold Frame.parse; rw [hl more]
      | some [_], h, hl =>
        simp only [Prod.mk.injEq] at h
        obtain ⟨rfl, rfl⟩ := h
        exact Or.inr fun more => by unfold Frame.parse; rw [hl more]
      | some (_ :: _ :: _ :: _), h, hl =>
        simp only [Prod.mk.injEq] at h
        obtain ⟨rfl, rfl⟩ := h
        exact Or.inr fun more => by unfold Frame.parse; rw [hl more]
      | some [first, second], h, hl =>
        simp only at h
        cases hop : opCodeOfNibble (first &&& 0x0F) with
        | none =>
          simp only [hop, Prod.mk.injEq] at h
          obtain ⟨rfl, rfl⟩ := h
          exact Or.inr fun more => by unfold Frame.parse; rw [hl more]; simp only [hop]
        | some op =>
          simp only [hop] at h
          cases hlen : readPayloadLength second r1 with
          | mk oL r2 =>
            rw [hlen] at h
            rcases readPayloadLength_later hlen with ⟨rfl, g⟩ | g
            · simp only [Prod.mk.injEq] at h
              obtain ⟨rfl, rfl⟩ := h
              exact Or.inl ⟨⟨_, rfl⟩, g.2⟩
            · simp only [Buf.later] at g
              cases oL with
              | none =>
                simp only [Prod.mk.injEq] at h
                obtain ⟨rfl, rfl⟩ := h
                exact Or.inr fun more => by unfold Frame.parse; rw [hl more]; simp only [hop, g more]
              | some L =>
                simp only at h
                by_cases h1 : (decide (L > 0) && !(second &&& 0x80 != 0)) = true
                · rw [if_pos h1] at h
                  simp only [Prod.mk.injEq] at h
                  obtain ⟨rfl, rfl⟩ := h
                  exact Or.inr fun more => by unfold Frame.parse; rw [hl more]; simp only [hop, g more, if_pos h1]
                · rw [if_neg h1] at h
                  by_cases h2 : L > 0
                  · rw [if_pos h2] at h
                    cases hpl : readPayload W (first &&& 0x80 != 0) L r2 with
                    | mk oP r3 =>
                      rw [hpl] at h
                      have hL : L < 2 ^ W := Nat.lt_of_lt_of_le (readPayloadLength_lt hlen) (Nat.pow_le_pow_right (by omega) hW)
                      rcases readPayload_later hL hpl with ⟨⟨e, rfl⟩, q⟩ | q
                      · simp only [Prod.mk.injEq] at h
                        obtain ⟨rfl, rfl⟩ := h
                        exact Or.inl ⟨⟨_, rfl⟩, q.2⟩
                      · simp only [Buf.later] at q
                        refine Or.inr fun more => ?_
                        unfold Frame.parse
                        rw [hl more]
                        simp only [hop, g more, if_neg h1, if_pos h2, q more]
                        cases oP <;> simp only [Prod.mk.injEq] at h <;> obtain ⟨rfl, rfl⟩ := h <;> rfl
                  · rw [if_neg h2] at h
                    simp only [Prod.mk.injEq] at h
                    obtain ⟨rfl, rfl⟩ := h
                    exact Or.inr fun more => by
                      unfold Frame.parse; rw [hl more]; simp only [hop, g more, if_neg h1, if_neg h2]
  · rw [Buf.read_atEnd hp] at h
    simp only [Prod.mk.injEq] at h
    obtain ⟨rfl, rfl⟩ := h
    exact Or.inl ⟨⟨_, rfl⟩, hp.2⟩

theorem nextLoop_later {W : Nat} (hW : 64 ≤ W) (op : OpCode) : ∀ (a : Raw) (payload : Bytes) (o : Outcome DecodeMessageError Message) (raw' : Raw),
    nextLoop W op payload a = (o, raw') →
    (o = .err .clientProtocolViolationError ∧ raw' = []) ∨ ∀ more, nextLoop W op payload (a ++ more) = (o, raw' ++ more) := by
  intro a payload
  fun_induction nextLoop W op payload a with
  | case1 payload a e raw1 hp =>
    intro o raw' h
    simp only [Prod.mk.injEq] at h
    obtain ⟨rfl, rfl⟩ := h
    rcases parse_later hW hp with ⟨_, g⟩ | g
    · exact Or.inl ⟨rfl, g⟩
    · exact Or.inr fun more => by rw [nextLoop]; split <;> simp_all
  | case2 payload a raw1 hp =>
    intro o raw' h
    simp only [Prod.mk.injEq] at h
    obtain ⟨rfl, rfl⟩ := h
    rcases parse_later hW hp with ⟨⟨_, e⟩, g⟩ | g
    · cases e
    · exact Or.inr fun more => by rw [nextLoop]; split <;> simp_all
  | case3 payload a f raw1 hp h1 =>
    intro o raw' h
    simp only [Prod.mk.injEq] at h
    obtain ⟨rfl, rfl⟩ := h
    rcases parse_later hW hp with ⟨⟨_, e⟩, g⟩ | g
    · cases e
    · exact Or.inr fun more => by rw [nextLoop]; split <;> simp_all
  | case4 payload a f raw1 hp h1 h2 =>
    intro o raw' h
    simp only [Prod.mk.injEq] at h
    obtain ⟨rfl, rfl⟩ := h
    rcases parse_later hW hp with ⟨⟨_, e⟩, g⟩ | g
    · cases e
    · exact Or.inr fun more => by rw [nextLoop]; split <;> simp_all
  | case5 payload a f raw1 hp h1 h2 h3 =>
    intro o raw' h
    simp only [Prod.mk.injEq] at h
    obtain ⟨rfl, rfl⟩ := h
    rcases parse_later hW hp with ⟨⟨_, e⟩, g⟩ | g
    · cases e
    · exact Or.inr fun more => by rw [nextLoop]; split <;> simp_all
  | case6 payload a f raw1 hp h1 h2 h3 ih =>
    intro o raw' h
    rcases parse_later hW hp with ⟨⟨_, e⟩, g⟩ | g
    · cases e
    · rcases ih o raw' h with q | q
      · exact Or.inl q
      · exact Or.inr fun more => by
          rw [nextLoop]; split <;> simp_all
          rename_i heq
          rw [← heq.2]; exact q more

theorem messageNext_later {W : Nat} (hW : 64 ≤ W) {a raw' : Raw} {o : Outcome DecodeMessageError Message} (h : Message.next W a = (o, raw')) :
    (o = .err .clientProtocolViolationError ∧ raw' = []) ∨ ∀ more, Message.next W (a ++ more) = (o, raw' ++ more) := by
  unfold Message.next at h
  cases hp : Frame.parse W a with
  | mk oF raw1 =>
    rw [hp] at h
    rcases parse_later hW hp with ⟨⟨e, rfl⟩, rfl⟩ | g
    · simp only [Prod.mk.injEq] at h
      obtain ⟨rfl, rfl⟩ := h
      exact Or.inl ⟨rfl, rfl⟩
    · cases oF with
      | err e =>
        simp only [Prod.mk.injEq] at h
        obtain ⟨rfl, rfl⟩ := h
        exact Or.inr fun more => by unfold Message.next; rw [g more]
      | panic =>
        simp only [Prod.mk.injEq] at h
        obtain ⟨rfl, rfl⟩ := h
        exact Or.inr fun more => by unfold Message.next; rw [g more]
      | ok first =>
        simp only at h
        split at h
        · rename_i h1
          simp only [Prod.mk.injEq] at h
          obtain ⟨rfl, rfl⟩ := h
          exact Or.inr fun more => by unfold Message.next; rw [g more]; simp only [if_pos h1]
        · rename_i h1
          split at h
          · rename_i h2
            simp only [Prod.mk.injEq] at h
            obtain ⟨rfl, rfl⟩ := h
            exact Or.inr fun more => by unfold Message.next; rw [g more]; simp only [if_neg h1, if_pos h2]
          · rename_i h2
            rcases nextLoop_later hW _ _ _ _ _ h with q | q
            · exact Or.inl q
            · exact Or.inr fun more => by unfold Message.next; rw [g more]; simp only [if_neg h1, if_neg h2, q more]

/-! ## C145 -/

/-- **C145 (one call, 64-bit `usize`).** A client has sent `a`, in whatever reads, and then closes the connection.  Either the call of the iterator reports `ClientError`
and has read everything; or it gives the same result, in the same state, having written the same bytes, whatever the client goes on to send instead, and leaves all of that for the
next call: it has not waited for any of it. -/
theorem C145_settled_partial (W : Nat) (hW : 64 ≤ W) (st st' : WsState) (a : Raw) (out : Sink) (o : Outcome NextMessageError Message) (c' : Conn)
    (h : WebSocket.next W st ⟨a, out⟩ = (o, st', c')) :
    (o = .err .clientError ∧ c'.inp = []) ∨ ∀ more, WebSocket.next W st ⟨a ++ more, out⟩ = (o, st', ⟨c'.inp ++ more, c'.out⟩) := by
  cases st with
  | closed =>
    simp only [WebSocket.next, Prod.mk.injEq] at h
    obtain ⟨rfl, rfl, rfl⟩ := h
    exact Or.inr fun more => rfl
  | «open» =>
    unfold WebSocket.next at h
    simp only at h
    cases hn : Message.next W a with
    | mk oM inp =>
      rw [hn] at h
      rcases messageNext_later hW hn with ⟨rfl, rfl⟩ | g
      · simp only [Prod.mk.injEq] at h
        obtain ⟨rfl, rfl, rfl⟩ := h
        exact Or.inl ⟨rfl, rfl⟩
      · refine Or.inr fun more => ?_
        unfold WebSocket.next
        simp only [g more]
        match oM, h with
        | .ok (.ping p), h =>
          simp only at h ⊢
          cases hs : sendFrame (pongFrame p) out with
          | mk ok out1 => rw [hs] at h; cases ok <;> simp only [Prod.mk.injEq] at h <;> obtain ⟨rfl, rfl, rfl⟩ := h <;> rfl
        | .ok (.pong _), h => simp only [Prod.mk.injEq] at h; obtain ⟨rfl, rfl, rfl⟩ := h; rfl
        | .ok (.text _), h => simp only [Prod.mk.injEq] at h; obtain ⟨rfl, rfl, rfl⟩ := h; rfl
        | .ok (.binary _), h => simp only [Prod.mk.injEq] at h; obtain ⟨rfl, rfl, rfl⟩ := h; rfl
        | .err .clientProtocolViolationError, h => simp only [Prod.mk.injEq] at h; obtain ⟨rfl, rfl, rfl⟩ := h; rfl
        | .err .clientSentCloseFrame, h =>
          simp only at h ⊢
          cases hs : sendFrame closeFrame out with
          | mk ok out1 => rw [hs] at h; cases ok <;> simp only [Prod.mk.injEq] at h <;> obtain ⟨rfl, rfl, rfl⟩ := h <;> rfl
        | .panic, h => simp only [Prod.mk.injEq] at h; obtain ⟨rfl, rfl, rfl⟩ := h; rfl

/-- **C145 (histories, 64-bit `usize`).** Any calls on a WebSocket, of the iterator and of `send`: all the results up to the first `ClientError` are the same whatever the client sends
afterwards. -/
theorem C145_history_partial (W : Nat) (hW : 64 ≤ W) (more : Raw) : ∀ (cs : List Call) (st : WsState) (a : Raw) (out : Sink),
    (WebSocket.run W cs st ⟨a, out⟩).1.takeWhile (· ≠ .item (.err .clientError)) <+: (WebSocket.run W cs st ⟨a ++ more, out⟩).1
  | [], st, a, out => by simp [WebSocket.run]
  | .send m :: cs, st, a, out => by
    have ih := C145_history_partial W hW more cs st a (WebSocket.send m ⟨a, out⟩).2.out
    simp only [WebSocket.run, WebSocket.send] at ih ⊢
    rw [List.takeWhile_cons_of_pos (by simp)]
    exact (List.prefix_cons_inj _).2 ih
  | .next :: cs, st, a, out => by
    cases hn : WebSocket.next W st ⟨a, out⟩ with
    | mk o q =>
      obtain ⟨st', c'⟩ := q
      rcases C145_settled_partial W hW st st' a out o c' hn with ⟨rfl, _⟩ | g
      · simp [WebSocket.run, hn]
      · have ih := C145_history_partial W hW more cs st' c'.inp c'.out
        simp only [WebSocket.run, hn, g more]
        cases o with
        | panic => simp
        | ok m =>
          simp only
          rw [List.takeWhile_cons_of_pos (by simp)]
          exact (List.prefix_cons_inj _).2 ih
        | err e =>
          simp only
          by_cases he : e = .clientError
          · subst he; simp
          · rw [List.takeWhile_cons_of_pos (by simpa using he)]
            exact (List.prefix_cons_inj _).2 ih

/-- **C145 (nothing early, 64-bit `usize`).** If a call, on all of `a` and `b`, takes something of `b`, then on `a` alone, with the connection closed after it, it reports `ClientError`
and nothing else. -/
theorem C145_not_early_partial (W : Nat) (hW : 64 ≤ W) (st st' : WsState) (a b : Raw) (out : Sink) (o : Outcome NextMessageError Message) (c' : Conn)
    (h : WebSocket.next W st ⟨a ++ b, out⟩ = (o, st', c')) (hb : ¬ b <:+ c'.inp) :
    (WebSocket.next W st ⟨a, out⟩).1 = .err .clientError ∧ (WebSocket.next W st ⟨a, out⟩).2.2.inp = [] := by
  cases hn : WebSocket.next W st ⟨a, out⟩ with
  | mk o1 q =>
    obtain ⟨st1, c1⟩ := q
    rcases C145_settled_partial W hW st st1 a out o1 c1 hn with g | g
    · exact g
    · rw [g b] at h
      simp only [Prod.mk.injEq] at h
      obtain ⟨-, -, rfl⟩ := h
      exact absurd ⟨_, rfl⟩ hb

/-- **C145 is false on 32-bit targets** (wasm32 is the project's default): a frame announces `2^32 + 5` bytes; if the client closes the connection after five of them, they are
delivered as a message; if one more byte comes, they are not. -/
theorem C145_settled_refuted : (WebSocket.next 32 .open ⟨[.data wrapBytes], ⟨[], none⟩⟩).1 = .ok (.binary [1, 2, 3, 4, 5]) ∧
    (WebSocket.next 32 .open ⟨[.data wrapBytes, .data [6]], ⟨[], none⟩⟩).1 = .err .clientError := by
  decide +kernel

/-- A case: a text in one frame is delivered, and the pong for a ping after it written, whatever comes later. -/
example (more : Raw) : ∃ c, WebSocket.run 64 [.next, .next] .open
      ⟨[.data [0x81, 0x82, 0, 0, 0, 0, 104, 105], .data [0x89, 0x80]] ++ more, ⟨[], none⟩⟩ =
    ([.item (.ok (.text "hi")), .item (.ok (.ping none))], .open, c) ∧ c.inp = more := by
  have h1 : WebSocket.next 64 .open ⟨[.data [0x81, 0x82, 0, 0, 0, 0, 104, 105], .data [0x89, 0x80]], ⟨[], none⟩⟩ =
      (.ok (.text "hi"), .open, ⟨[.data [0x89, 0x80]], ⟨[], none⟩⟩) := by decide +kernel
  have h2 : WebSocket.next 64 .open ⟨[.data [0x89, 0x80]], ⟨[], none⟩⟩ = (.ok (.ping none), .open, ⟨[], ⟨[0x8a, 0], none⟩⟩) := by decide +kernel
  have g1 := (C145_settled_partial 64 (by omega) _ _ _ _ _ _ h1).resolve_left (by simp) more
  have g2 := (C145_settled_partial 64 (by omega) _ _ _ _ _ _ h2).resolve_left (by simp) more
  exact ⟨⟨[] ++ more, ⟨[0x8a, 0], none⟩⟩, by simp only [WebSocket.run, g1, g2], rfl⟩

end Puck
