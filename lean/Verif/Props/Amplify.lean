import Verif.Lemmas.Account
import Verif.Props.Broken
import Verif.Props.Message
/-!
# C147: a WebSocket client cannot make the server send more than it has sent itself
-/
namespace Puck
open Rfc6455

theorem leastCost_add (a b : Nat) : leastCost (a + b) ≤ leastCost a + leastCost b := by
  unfold leastCost
  split <;> split <;> split <;> (try split) <;> (try split) <;> (try split) <;> (try split) <;> (try split) <;> (try split) <;> omega

theorem sent_frame_length (f : Frame) : f.bytes.length =
    f.decoded.length + if f.decoded.length < 126 then 2 else if f.decoded.length < 65535 then 4 else 10 := by
  rw [Frame.bytes_eq, List.length_append, length_headBytes]
  by_cases h1 : f.decoded.length < 126
  · simp only [h1, if_true]; omega
  · by_cases h2 : f.decoded.length < 65535
    · simp only [h1, h2, if_true, if_false]; omega
    · simp only [h1, h2, if_false]; omega

/-- The bytes of the reply to a ping with a payload of so many bytes. -/
theorem pong_length (p : Option Bytes) : (pongFrame p).bytes.length =
    (p.getD []).length + if (p.getD []).length < 126 then 2 else if (p.getD []).length < 65535 then 4 else 10 :=
  sent_frame_length (pongFrame p)

theorem ping_length {op : OpCode} {d : Bytes} {p : Option Bytes} (h : messageOf op d = .ok (.ping p)) : (p.getD []).length = d.length := by
  unfold messageOf at h
  split at h
  · cases h
  · split at h <;> cases h
  · simp only [Outcome.ok.injEq, Message.ping.injEq] at h
    subst h
    cases d <;> simp
  · simp at h
  · cases h

theorem nextLoop_spent {W : Nat} {op : OpCode} : ∀ (n : Nat) (raw : Raw) (acc : Bytes), raw.size ≤ n → ∀ o raw', nextLoop W op acc raw = (o, raw') →
    (Raw.bytes raw').length ≤ (Raw.bytes raw).length ∧
    (o = .err .clientSentCloseFrame → (Raw.bytes raw').length + 2 ≤ (Raw.bytes raw).length) ∧
    ∀ p, o = .ok (.ping p) → (Raw.bytes raw').length + leastCost (p.getD []).length ≤ (Raw.bytes raw).length + leastCost acc.length := by
  intro n
  induction n with
  | zero =>
    intro raw acc hs o raw' h
    rw [nextLoop] at h
    split at h
    · rename_i e; cases h
      have := parse_mono W raw; rw [e] at this; exact ⟨this, by simp, by simp⟩
    · rename_i e; cases h
      have := parse_mono W raw; rw [e] at this; exact ⟨this, by simp, by simp⟩
    · rename_i e; have := parse_shrinks e; omega
  | succ n ih =>
    intro raw acc hs o raw' h
    rw [nextLoop] at h
    split at h
    · rename_i e; cases h
      have := parse_mono W raw; rw [e] at this; exact ⟨this, by simp, by simp⟩
    · rename_i e; cases h
      have := parse_mono W raw; rw [e] at this; exact ⟨this, by simp, by simp⟩
    · rename_i msg raw1 e
      have h1 := parse_spent e
      have h2 : 2 ≤ leastCost msg.decoded.length := by unfold leastCost; split <;> (try split) <;> (try split) <;> omega
      split at h
      · cases h; exact ⟨by omega, fun _ => by omega, by simp⟩
      · split at h
        · cases h; exact ⟨by omega, by simp, by simp⟩
        · have h3 := leastCost_add acc.length msg.decoded.length
          split at h
          · simp only [Prod.mk.injEq] at h
            obtain ⟨ho, rfl⟩ := h
            refine ⟨by omega, fun _ => by omega, fun p hp => ?_⟩
            rw [hp] at ho
            have := ping_length ho
            rw [this, List.length_append]; omega
          · have h4 := ih raw1 (acc ++ msg.decoded) (by have := parse_shrinks e; omega) o raw' h
            refine ⟨by omega, fun ho => by have := h4.2.1 ho; omega, fun p hp => ?_⟩
            have := h4.2.2 p hp
            rw [List.length_append] at this
            omega
theorem message_spent {W : Nat} {raw raw' : Raw} {o : Outcome DecodeMessageError Message} (h : Message.next W raw = (o, raw')) :
    (Raw.bytes raw').length ≤ (Raw.bytes raw).length ∧
    (o = .err .clientSentCloseFrame → (Raw.bytes raw').length + 2 ≤ (Raw.bytes raw).length) ∧
    ∀ p, o = .ok (.ping p) → (Raw.bytes raw').length + leastCost (p.getD []).length ≤ (Raw.bytes raw).length := by
  unfold Message.next at h
  split at h
  · rename_i e; cases h
    have := parse_mono W raw; rw [e] at this; exact ⟨this, by simp, by simp⟩
  · rename_i e; cases h
    have := parse_mono W raw; rw [e] at this; exact ⟨this, by simp, by simp⟩
  · rename_i msg raw1 e
    have h1 := parse_spent e
    have h2 : 2 ≤ leastCost msg.decoded.length := by unfold leastCost; split <;> (try split) <;> (try split) <;> omega
    split at h
    · cases h; exact ⟨by omega, fun _ => by omega, by simp⟩
    · split at h
      · simp only [Prod.mk.injEq] at h
        obtain ⟨ho, rfl⟩ := h
        refine ⟨by omega, fun _ => by omega, fun p hp => ?_⟩
        rw [hp] at ho
        rw [ping_length ho]; omega
      · have h3 := nextLoop_spent _ raw1 msg.decoded (Nat.le_refl _) o raw' h
        refine ⟨by omega, fun ho => by have := h3.2.1 ho; omega, fun p hp => ?_⟩
        have := h3.2.2 p hp
        omega

/-- What a call of the iterator has written, on any connection. -/
theorem next_spent {W : Nat} {st st' : WsState} {c c' : Conn} {r : Outcome NextMessageError Message} (h : WebSocket.next W st c = (r, st', c')) :
    (c'.out.out.length + (Raw.bytes c'.inp).length ≤ c.out.out.length + (Raw.bytes c.inp).length) ∨
    ((Raw.bytes c'.inp).length + 65543 ≤ (Raw.bytes c.inp).length ∧
      c'.out.out.length + (Raw.bytes c'.inp).length ≤ c.out.out.length + (Raw.bytes c.inp).length + 2 ∧
      (r = .panic ∨ ∃ p, r = .ok (.ping (some p)) ∧ p.length = 65535)) := by
  unfold WebSocket.next at h
  split at h
  · cases h; exact .inl (Nat.le_refl _)
  split at h
  · rename_i msg inp e
    have hm := message_spent e
    split at h
    · rename_i payload
      have h1 := hm.2.2 payload rfl
      obtain ⟨w, hw, hw2, hw3⟩ := Sink.writeAll_prefix (pongFrame payload).bytes c.out
      have hl := hw.length_le
      rw [pong_length] at hl
      rw [sendFrame_eq] at h
      have hcost : leastCost (payload.getD []).length + (if (payload.getD []).length = 65535 then 2 else 0) ≥
          (payload.getD []).length + if (payload.getD []).length < 126 then 2 else if (payload.getD []).length < 65535 then 4 else 10 := by
        unfold leastCost
        generalize (payload.getD []).length = n
        repeat' split
        all_goals omega
      have h65 : (payload.getD []).length = 65535 → leastCost (payload.getD []).length = 65543 := by intro e; rw [e]; rfl
      have key : ∀ r : Outcome NextMessageError Message, (∀ p, payload = some p → r = .ok (.ping (some p)) ∨ r = .panic) → 
          ((c.out.writeAll (pongFrame payload).bytes).2.out.length + (Raw.bytes inp).length ≤ c.out.out.length + (Raw.bytes c.inp).length) ∨
          ((Raw.bytes inp).length + 65543 ≤ (Raw.bytes c.inp).length ∧
            (c.out.writeAll (pongFrame payload).bytes).2.out.length + (Raw.bytes inp).length ≤ c.out.out.length + (Raw.bytes c.inp).length + 2 ∧
            (r = .panic ∨ ∃ p, r = Outcome.ok (.ping (some p)) ∧ p.length = 65535)) := by
        intro r hr
        rw [hw2, List.length_append]
        by_cases e65 : (payload.getD []).length = 65535
        · right
          rw [if_pos e65] at hcost
          have := h65 e65
          refine ⟨by omega, by omega, ?_⟩
          cases payload with
          | none => simp at e65
          | some p => exact (hr p rfl).symm.imp_right fun h => ⟨p, h, e65⟩
        · left
          rw [if_neg e65] at hcost
          omega
      split at h
      · rename_i out ew
        cases h
        have := key (.ok (.ping payload)) (fun p hp => .inl (by rw [hp]))
        rw [ew] at this; exact this
      · rename_i out ew
        cases h
        have := key .panic (fun p _ => .inr rfl)
        rw [ew] at this; exact this
    · cases h; left; simp only; omega
  · rename_i inp e
    have hm := message_spent e
    cases h; left; simp only; omega
  · rename_i inp e
    have hm := (message_spent e).2.1 rfl
    obtain ⟨w, hw, hw2, hw3⟩ := Sink.writeAll_prefix closeFrame.bytes c.out
    have hl := hw.length_le
    have hc : closeFrame.bytes.length = 2 := by decide
    rw [sendFrame_eq] at h
    split at h
    · rename_i out ew; cases h; rw [ew] at hw2; left; simp only; rw [hw2, List.length_append]; omega
    · rename_i out ew; cases h; rw [ew] at hw2; left; simp only; rw [hw2, List.length_append]; omega
  · rename_i inp e
    have hm := message_spent e
    cases h; left; simp only; omega

/-- Nothing written is taken back, and nothing read comes again. -/
theorem next_grows {W : Nat} {st st' : WsState} {c c' : Conn} {r : Outcome NextMessageError Message} (h : WebSocket.next W st c = (r, st', c')) :
    c.out.out.length ≤ c'.out.out.length ∧ (Raw.bytes c'.inp).length ≤ (Raw.bytes c.inp).length := by
  refine ⟨?_, (next_left h).1⟩
  have hw : ∀ b, c.out.out.length ≤ (c.out.writeAll b).2.out.length := fun b => by
    obtain ⟨w, _, h2, _⟩ := Sink.writeAll_prefix b c.out
    rw [h2, List.length_append]; omega
  unfold WebSocket.next at h
  split at h
  · cases h; exact Nat.le_refl _
  split at h
  · split at h
    · rename_i payload _
      have := hw (pongFrame payload).bytes
      rw [sendFrame_eq] at h
      split at h
      · rename_i out ew; rw [ew] at this; cases h; exact this
      · rename_i out ew; rw [ew] at this; cases h; exact this
    · cases h; exact Nat.le_refl _
  · cases h; exact Nat.le_refl _
  · have := hw closeFrame.bytes
    rw [sendFrame_eq] at h
    split at h
    · rename_i out ew; rw [ew] at this; cases h; exact this
    · rename_i out ew; rw [ew] at this; cases h; exact this
  · cases h; exact Nat.le_refl _

theorem run_succ {W n : Nat} {st st' : WsState} {c c' : Conn} {rs : List Ret} (h : WebSocket.run W (List.replicate (n + 1) .next) st c = (rs, st', c')) :
    ∃ r st1 c1, WebSocket.next W st c = (r, st1, c1) ∧ ((r = .panic ∧ rs = [.item .panic] ∧ c' = c1) ∨
      ∃ rs1, rs = .item r :: rs1 ∧ WebSocket.run W (List.replicate n .next) st1 c1 = (rs1, st', c')) := by
  simp only [List.replicate_succ, WebSocket.run] at h
  split at h
  · rename_i st1 c1 e
    cases h
    exact ⟨_, _, _, e, .inl ⟨rfl, rfl, rfl⟩⟩
  · rename_i r st1 c1 _ e
    refine ⟨r, st1, c1, e, .inr ?_⟩
    cases hr : WebSocket.run W (List.replicate n .next) st1 c1 with
    | mk rs1 q =>
      rw [hr] at h
      cases h
      exact ⟨rs1, rfl, rfl⟩

/-- **C147, the part that holds exactly.** However often the iterator is called, whatever arrives in whatever reads, and whichever errors there are: unless a ping with a payload of
exactly 65535 bytes is delivered, the server has written no more bytes than it has read. -/
theorem C147_no_more_partial (W n : Nat) (st st' : WsState) (c c' : Conn) (rs : List Ret) (h : WebSocket.run W (List.replicate n .next) st c = (rs, st', c'))
    (hp : ∀ p, .item (.ok (.ping (some p))) ∈ rs → p.length ≠ 65535) (hr : .item .panic ∉ rs) :
    ∃ written read, c'.out.out.length = c.out.out.length + written ∧ (Raw.bytes c.inp).length = (Raw.bytes c'.inp).length + read ∧ written ≤ read := by
  have key : c.out.out.length ≤ c'.out.out.length ∧ (Raw.bytes c'.inp).length ≤ (Raw.bytes c.inp).length ∧
      c'.out.out.length + (Raw.bytes c'.inp).length ≤ c.out.out.length + (Raw.bytes c.inp).length := by
    induction n generalizing st c rs with
    | zero => simp only [List.replicate_zero, WebSocket.run, Prod.mk.injEq] at h; obtain ⟨_, _, rfl⟩ := h; simp
    | succ n ih =>
      obtain ⟨r, st1, c1, hn, ⟨e1, e2, _⟩ | ⟨rs1, rfl, hrun⟩⟩ := run_succ h
      · exact absurd (by simp [e2]) hr
      · have hg := next_grows hn
        have := ih st1 c1 rs1 hrun (fun p hp' => hp p (by simp [hp'])) (fun hp' => hr (by simp [hp']))
        rcases next_spent hn with hs | ⟨_, _, hs | ⟨p, hs, hs2⟩⟩
        · omega
        · exact absurd (by simp [hs]) hr
        · exact absurd hs2 (hp p (by simp [hs]))
  exact ⟨c'.out.out.length - c.out.out.length, (Raw.bytes c.inp).length - (Raw.bytes c'.inp).length, by omega, by omega, by omega⟩

/-- **C147, the bound that holds always.** Whatever arrives and whatever fails, what the server writes in answer is at most 1/32768 more than what it has read: it cannot be used as an
amplifier. -/
theorem C147_factor (W n : Nat) (st st' : WsState) (c c' : Conn) (rs : List Ret) (h : WebSocket.run W (List.replicate n .next) st c = (rs, st', c')) :
    ∃ written read, c'.out.out.length = c.out.out.length + written ∧ (Raw.bytes c.inp).length = (Raw.bytes c'.inp).length + read ∧ 32768 * written ≤ 32769 * read := by
  have key : c.out.out.length ≤ c'.out.out.length ∧ (Raw.bytes c'.inp).length ≤ (Raw.bytes c.inp).length ∧
      32768 * c'.out.out.length + 32769 * (Raw.bytes c'.inp).length ≤ 32768 * c.out.out.length + 32769 * (Raw.bytes c.inp).length := by
    induction n generalizing st c rs with
    | zero => simp only [List.replicate_zero, WebSocket.run, Prod.mk.injEq] at h; obtain ⟨_, _, rfl⟩ := h; simp
    | succ n ih =>
      obtain ⟨r, st1, c1, hn, ⟨_, _, rfl⟩ | ⟨rs1, rfl, hrun⟩⟩ := run_succ h
      · have hg := next_grows hn
        rcases next_spent hn with hs | ⟨_, _, _⟩ <;> omega
      · have hg := next_grows hn
        have := ih st1 c1 rs1 hrun
        rcases next_spent hn with hs | ⟨_, _, _⟩ <;> omega
  exact ⟨c'.out.out.length - c.out.out.length, (Raw.bytes c.inp).length - (Raw.bytes c'.inp).length, by omega, by omega, by omega⟩

/-- **C147 is false**, because of the length encoding (C03): a ping with a payload of 65535 bytes, which takes 65543 bytes, is answered with 65545 bytes. -/
theorem C147_no_more_refuted (W : Nat) (hW : 32 ≤ W) : ∃ (c c' : Conn) (p : Bytes), WebSocket.run W [.next] .open c = ([.item (.ok (.ping (some p)))], .open, c') ∧
    (Raw.bytes c.inp).length = 65543 ∧ c'.inp = [] ∧ c.out.out = [] ∧ c'.out.out.length = 65545 := by
  let p : Bytes := List.replicate 65535 0
  let f : ClientFrame := ⟨true, false, false, false, 9, (1, 2, 3, 4), p, .medium⟩
  have hl : p.length = 65535 := List.length_replicate
  have hel : f.encode.length = 65543 := by
    simp only [f, ClientFrame.encode, ClientFrame.head, List.length_append, length_headBytes, length_mask, hl]
    simp [Key.bytes]
  have hh : f.head.length = 4 := by simp only [f, ClientFrame.head, length_headBytes]
  have hb : ∀ k, 0 < k → k < 65543 → ¬ Raw.Boundary [.data f.encode] k := fun k k0 k6 => not_boundary_of fun n hn => by
    match n, hn with
    | 0, _ => simp [Raw.bytes]; omega
    | 1, _ => simp [Raw.bytes, hel]; omega
  have hi : 65535 ≤ isizeMax W := by
    have := Nat.pow_le_pow_right (n := 2) (by decide) (show 31 ≤ W - 1 by omega)
    unfold isizeMax; omega
  have hok : Delivery.Ok W ⟨f, [.data f.encode]⟩ := by
    refine ⟨⟨by simp [f], by simp [f, Form.Carries, hl]⟩, by simp only [f, hl]; exact hi, Or.inl ⟨?_, ?_, by simp [Raw.Clean], by simp [Raw.bytes], ?_⟩⟩
    · exact fun e => by have := congrArg List.length e; rw [hl] at this; simp at this
    · intro b hb; simp at hb; subst hb
      exact fun e => by rw [e] at hel; simp at hel
    · rw [hh]; exact ⟨hb 1 (by decide) (by decide), hb 5 (by decide) (by decide), hb 6 (by decide) (by decide), hb 7 (by decide) (by decide)⟩
  have hm := C17_client_message W (.ping (some p)) ⟨f, [.data f.encode]⟩ [] hok rfl rfl rfl
  have hnorm : normalise (.ping (some p)) = .ping (some p) := by
    generalize p = q at hl
    cases q with
    | nil => simp at hl
    | cons => rfl
  rw [hnorm, List.append_nil] at hm
  have hnext : WebSocket.next W .open ⟨[.data f.encode], ⟨[], none⟩⟩ = (.ok (.ping (some p)), .open, ⟨[], ⟨(pongFrame (some p)).bytes, none⟩⟩) := by
    simp only [WebSocket.next, hm, sendFrame_eq, Sink.writeAll_none, List.nil_append]
  refine ⟨⟨[.data f.encode], ⟨[], none⟩⟩, ⟨[], ⟨(pongFrame (some p)).bytes, none⟩⟩, p, ?_, by simp [Raw.bytes, hel], rfl, rfl, ?_⟩
  · simp only [WebSocket.run, hnext]
  · show (pongFrame (some p)).bytes.length = 65545
    rw [pong_length, Option.getD_some, hl]; decide

/-- The hypotheses of the partial theorem are met: an empty ping in two bytes is answered with two bytes. -/
example : ∃ c', WebSocket.run 64 (List.replicate 2 .next) .open ⟨[.data [0x89, 0x80]], ⟨[], none⟩⟩ =
      ([.item (.ok (.ping none)), .item (.err .clientError)], .open, c') ∧ c'.out.out = [0x8A, 0x00] := by
  refine ⟨_, Prod.ext (by decide +kernel) (Prod.ext (by decide +kernel) rfl), by decide +kernel⟩

end Puck
