import Verif.Props.Message
import Verif.Props.Send
/-!
# Properties of `WebSocket` (C18 - C23)
-/
namespace Puck
open Rfc6455

/-! ## Histories -/

/-- A call on a `WebSocket` value. -/
inductive Call where
  | next
  | send (m : Message)
  deriving DecidableEq

/-- What a call returned. -/
inductive Ret where
  | item (r : Outcome NextMessageError Message)
  | sent (m : Message) (ok : Bool)
  deriving DecidableEq

/-- A history of calls on one `WebSocket` value; a panic ends it. -/
def WebSocket.run (W : Nat) : List Call → WsState → Conn → List Ret × WsState × Conn
  | [], st, c => ([], st, c)
  | .send m :: cs, st, c =>
    let (ok, c') := WebSocket.send m c
    let (rs, st', c'') := WebSocket.run W cs st c'
    (.sent m ok :: rs, st', c'')
  | .next :: cs, st, c =>
    match WebSocket.next W st c with
    | (.panic, st', c') => ([.item .panic], st', c')
    | (r, st', c') =>
      let (rs, st'', c'') := WebSocket.run W cs st' c'
      (.item r :: rs, st'', c'')

/-- RFC 6455 5.5.1: an empty close frame. -/
def closeWire : WireFrame := ⟨true, false, false, false, 8, []⟩

/-- The frames the peer should see for a history of results: a pong for every ping delivered, one close
frame the first time the connection is reported closed, every message that was sent; nothing else.
`closed` tells whether the close has already been reported. -/
def expected : Bool → List Ret → List WireFrame
  | _, [] => []
  | closed, .sent m _ :: rs => wireOf m :: expected closed rs
  | closed, .item (.ok (.ping p)) :: rs => wireOf (.pong p) :: expected closed rs
  | false, .item (.err .connectionClosed) :: rs => closeWire :: expected true rs
  | closed, .item _ :: rs => expected closed rs

/-- A frame on the wire. -/
def Frame.wire (f : Frame) : WireFrame := ⟨f.fin, f.rsv1, f.rsv2, f.rsv3, f.opCode.code.toNat, f.decoded⟩

theorem decode_frame (f : Frame) (x : Bytes) (h : f.decoded.length < 2 ^ 64) :
    decodeServer (f.bytes ++ x) = some (f.wire, x) := by
  rw [Frame.bytes_eq, decodeServer_headBytes (code_lt _) (carries_chosen h)]
  rfl

theorem pongFrame_wire (p : Option Bytes) : (pongFrame p).wire = wireOf (.pong p) := by
  cases p <;> rfl

theorem closeFrame_wire : closeFrame.wire = closeWire := rfl

/-! ## C18 -/

/-- **C18.** Whenever the iterator returns a ping, exactly one pong with the same payload was written
during that call, and nothing else. -/
theorem C18_ping_ponged (W : Nat) (st st' : WsState) (c c' : Conn) (p : Option Bytes)
    (hp : (p.getD []).length < 2 ^ 64)
    (h : WebSocket.next W st c = (.ok (.ping p), st', c')) :
    ∃ w, c'.out.out = c.out.out ++ w ∧
      ∀ x, decodeServer (w ++ x) = some (⟨true, false, false, false, 10, p.getD []⟩, x) := by
  unfold WebSocket.next at h
  split at h
  · simp at h
  split at h
  · rename_i msg inp _
    split at h
    · rename_i payload _
      split at h
      · rename_i out hs
        simp only [Prod.mk.injEq, Outcome.ok.injEq, Message.ping.injEq] at h
        obtain ⟨rfl, rfl, rfl⟩ := h
        rw [sendFrame_eq, Sink.writeAll_ok_iff] at hs
        refine ⟨_, by rw [hs.2], fun x => ?_⟩
        rw [decode_frame _ _ hp]; rfl
      · simp at h
    · rename_i hm
      simp only [Prod.mk.injEq, Outcome.ok.injEq] at h
      exact absurd h.1 (hm p)
  · simp at h
  · split at h <;> simp at h
  · simp at h

/-- A ping frame from a client, in one read. -/
def pingFrame : ClientFrame := ⟨true, false, false, false, 9, (1, 2, 3, 4), [104, 105], .short⟩

/-- non-vacuity: a ping with payload "hi" on an open socket. -/
example : WebSocket.next 32 .open ⟨[.data pingFrame.encode], ⟨[], none⟩⟩ =
    (.ok (.ping (some [104, 105])), .open, ⟨[], ⟨[0x8a, 2, 104, 105], none⟩⟩) := by
  have := C17_client_message 32 (.ping (some [104, 105])) ⟨pingFrame, [.data pingFrame.encode]⟩ []
    (ok_single _ (by decide) (by decide)) rfl rfl rfl
  simp only [List.append_nil] at this
  simp only [WebSocket.next, this]
  decide +kernel

/-! ## C19 -/

/-- **C19.** Once the iterator has returned `ConnectionClosed`, any number of further calls return
`ConnectionClosed` and neither read nor write. -/
theorem C19_stays_closed (W : Nat) (st st' : WsState) (c c' : Conn)
    (h : WebSocket.next W st c = (.err .connectionClosed, st', c')) (n : Nat) :
    WebSocket.run W (List.replicate n .next) st' c' =
      (List.replicate n (.item (.err .connectionClosed)), st', c') := by
  have hst : st' = .closed := by
    unfold WebSocket.next at h
    split at h
    · simp at h; exact h.1.symm
    split at h
    · split at h
      · split at h <;> simp at h
      · simp at h
    · simp at h
    · split at h <;> simp at h
      exact h.1.symm
    · simp at h
  subst hst
  induction n with
  | zero => rfl
  | succ n ih => simp [List.replicate_succ, WebSocket.run, WebSocket.next, ih]

/-- A close frame from a client, in one read. -/
def closeClient : ClientFrame := ⟨true, false, false, false, 8, (1, 2, 3, 4), [3, 232], .short⟩

theorem next_close (W : Nat) (hW : 2 ≤ isizeMax W) (rest : Raw) (o : Bytes) :
    WebSocket.next W .open ⟨.data closeClient.encode :: rest, ⟨o, none⟩⟩ =
      (.err .connectionClosed, .closed, ⟨rest, ⟨o ++ [0x88, 0], none⟩⟩) := by
  have := C16_close_anywhere W .text [] ⟨closeClient, [.data closeClient.encode]⟩ rest
    (by simp) (by simp) (Or.inl rfl) (ok_single _ (by decide) (by exact hW)) rfl
  simp only [List.map_nil, List.flatten_nil, List.nil_append, List.cons_append] at this
  simp only [WebSocket.next, this, sendFrame_eq]
  rfl

/-- non-vacuity: the peer closes, then sends more. -/
example : ∃ c', WebSocket.next 32 .open ⟨[.data closeClient.encode, .data pingFrame.encode], ⟨[], none⟩⟩ =
    (.err .connectionClosed, .closed, c') := ⟨_, next_close 32 (by decide) _ _⟩

/-! ## C22 -/

/-- What one call of the iterator appends, by result; the socket's state tells whether the close had been
reported before. -/
theorem next_writes {W : Nat} {st st' : WsState} {c c' : Conn} {r : Outcome NextMessageError Message}
    (h : WebSocket.next W st c = (r, st', c')) (hr : r ≠ .panic) :
    ∃ fs : List Frame, c'.out.out = c.out.out ++ (fs.map Frame.bytes).flatten ∧
      (∀ rs, expected (decide (st = .closed)) (.item r :: rs) =
        fs.map Frame.wire ++ expected (decide (st' = .closed)) rs) ∧
      (∀ f ∈ fs, f = closeFrame ∨ ∃ p, r = .ok (.ping p) ∧ f = pongFrame p) := by
  unfold WebSocket.next at h
  split at h
  · simp only [Prod.mk.injEq] at h
    obtain ⟨rfl, rfl, rfl⟩ := h
    exact ⟨[], by simp, by simp [expected], by simp⟩
  split at h
  · rename_i msg inp _
    split at h
    · rename_i payload _
      split at h
      · rename_i out hs
        simp only [Prod.mk.injEq] at h
        obtain ⟨rfl, rfl, rfl⟩ := h
        rw [sendFrame_eq, Sink.writeAll_ok_iff] at hs
        refine ⟨[pongFrame payload], ?_, ?_, ?_⟩
        · simp [hs.2]
        · simp [expected, pongFrame_wire]
        · intro f hf; simp at hf; exact Or.inr ⟨_, rfl, hf⟩
      · simp only [Prod.mk.injEq] at h
        exact absurd h.1.symm hr
    · rename_i hm
      simp only [Prod.mk.injEq] at h
      obtain ⟨rfl, rfl, rfl⟩ := h
      refine ⟨[], by simp, ?_, by simp⟩
      intro rs
      cases msg with
      | ping p => exact absurd rfl (hm p)
      | text s => simp [expected]
      | binary b => simp [expected]
      | pong p => simp [expected]
  · simp only [Prod.mk.injEq] at h
    obtain ⟨rfl, rfl, rfl⟩ := h
    exact ⟨[], by simp, by simp [expected], by simp⟩
  · split at h
    · rename_i out hs
      simp only [Prod.mk.injEq] at h
      obtain ⟨rfl, rfl, rfl⟩ := h
      rw [sendFrame_eq, Sink.writeAll_ok_iff] at hs
      exact ⟨[closeFrame], by simp [hs.2], by simp [expected, closeFrame_wire], by simp⟩
    · simp only [Prod.mk.injEq] at h
      exact absurd h.1.symm hr
  · simp only [Prod.mk.injEq] at h
    exact absurd h.1.symm hr

theorem run_writes (W : Nat) (cs : List Call) (st st' : WsState) (c c' : Conn) (rs : List Ret)
    (h : WebSocket.run W cs st c = (rs, st', c'))
    (hnp : .item .panic ∉ rs) (hns : ∀ m, Ret.sent m false ∉ rs)
    (hlen : ∀ m, Ret.sent m true ∈ rs → (wireOf m).payload.length < 2 ^ 64)
    (hping : ∀ p, Ret.item (.ok (.ping (some p))) ∈ rs → p.length < 2 ^ 64) :
    ∃ fs : List Frame, c'.out.out = c.out.out ++ (fs.map Frame.bytes).flatten ∧
      fs.map Frame.wire = expected (decide (st = .closed)) rs ∧
      (∀ f ∈ fs, f.decoded.length < 2 ^ 64) ∧
      (st' = .closed ↔ st = .closed ∨ .item (.err .connectionClosed) ∈ rs) := by
  induction cs generalizing st c rs with
  | nil =>
    simp only [WebSocket.run, Prod.mk.injEq] at h
    obtain ⟨rfl, rfl, rfl⟩ := h
    exact ⟨[], by simp, by simp [expected], by simp, by simp⟩
  | cons call cs ih =>
    cases call with
    | send m =>
      simp only [WebSocket.run] at h
      cases hw : WebSocket.send m c with
      | mk ok c1 =>
      cases hrun : WebSocket.run W cs st c1 with
      | mk rs1 q =>
      obtain ⟨st1, c2⟩ := q
      simp only [hw, hrun, Prod.mk.injEq] at h
      obtain ⟨rfl, rfl, rfl⟩ := h
      have hok : ok = true := by
        cases ok with
        | true => rfl
        | false => exact absurd List.mem_cons_self (hns m)
      subst hok
      obtain ⟨fs, g1, g2, g3, g4⟩ := ih st c1 rs1 hrun (fun hh => hnp (List.mem_cons_of_mem _ hh))
        (fun m' hh => hns m' (List.mem_cons_of_mem _ hh))
        (fun m' hh => hlen m' (List.mem_cons_of_mem _ hh))
        (fun p hh => hping p (List.mem_cons_of_mem _ hh))
      have hc1 : c1.out.out = c.out.out ++ (Frame.ofMessage m).bytes := by
        unfold WebSocket.send at hw
        rw [send_eq] at hw
        cases hs : c.out.writeAll m.bytes with
        | mk ok out =>
        simp only [hs, Prod.mk.injEq] at hw
        obtain ⟨rfl, rfl⟩ := hw
        rw [Sink.writeAll_ok_iff] at hs
        rw [hs.2]; rfl
      have hwire : (Frame.ofMessage m).wire = wireOf m := by
        cases m with
        | text s => rfl
        | binary b => rfl
        | ping p => cases p <;> rfl
        | pong p => cases p <;> rfl
      refine ⟨Frame.ofMessage m :: fs, ?_, ?_, ?_, ?_⟩
      · rw [g1, hc1]; simp
      · simp [expected, hwire, g2]
      · intro f hf
        rcases List.mem_cons.1 hf with rfl | hf
        · have := hlen m List.mem_cons_self
          rw [← hwire] at this; exact this
        · exact g3 f hf
      · rw [g4]; simp
    | next =>
      simp only [WebSocket.run] at h
      cases hw : WebSocket.next W st c with
      | mk r q =>
      obtain ⟨st1, c1⟩ := q
      by_cases hr : r = .panic
      · subst hr
        simp only [hw, Prod.mk.injEq] at h
        obtain ⟨rfl, _, _⟩ := h
        exact absurd List.mem_cons_self hnp
      · cases hrun : WebSocket.run W cs st1 c1 with
        | mk rs1 q =>
        obtain ⟨st2, c2⟩ := q
        have h' : rs = .item r :: rs1 ∧ st2 = st' ∧ c2 = c' := by
          cases r with
          | panic => exact absurd rfl hr
          | ok m =>
            simp only [hw, hrun, Prod.mk.injEq] at h
            exact ⟨h.1.symm, h.2⟩
          | err e =>
            simp only [hw, hrun, Prod.mk.injEq] at h
            exact ⟨h.1.symm, h.2⟩
        obtain ⟨rfl, rfl, rfl⟩ := h'
        obtain ⟨fs1, k1, k2, k3⟩ := next_writes hw hr
        obtain ⟨fs, g1, g2, g3, g4⟩ := ih st1 c1 rs1 hrun (fun hh => hnp (List.mem_cons_of_mem _ hh))
          (fun m' hh => hns m' (List.mem_cons_of_mem _ hh))
          (fun m' hh => hlen m' (List.mem_cons_of_mem _ hh))
          (fun p hh => hping p (List.mem_cons_of_mem _ hh))
        refine ⟨fs1 ++ fs, ?_, ?_, ?_, ?_⟩
        · rw [g1, k1]; simp
        · rw [List.map_append, g2, k2]
        · intro f hf
          rcases List.mem_append.1 hf with hf | hf
          · rcases k3 f hf with rfl | ⟨p, rfl, rfl⟩
            · simp [closeFrame]
            · cases p with
              | none => simp [pongFrame]
              | some p => exact hping p List.mem_cons_self
          · exact g3 f hf
        · rw [g4, List.mem_cons]
          have : st1 = .closed ↔ st = .closed ∨ Ret.item r = .item (.err .connectionClosed) := by
            clear g1 g2 g3 g4 k1 k2 k3 h hrun ih hping hlen hns hnp
            unfold WebSocket.next at hw
            repeat' split at hw
            all_goals simp only [Prod.mk.injEq] at hw; obtain ⟨rfl, rfl, rfl⟩ := hw
            all_goals simp_all
          rw [this, or_assoc]
          constructor
          · rintro (h | h | h)
            · exact Or.inl h
            · exact Or.inr (Or.inl h.symm)
            · exact Or.inr (Or.inr h)
          · rintro (h | h | h)
            · exact Or.inl h
            · exact Or.inr (Or.inl h.symm)
            · exact Or.inr (Or.inr h)

theorem decodeAll_frames (fs : List Frame) (h : ∀ f ∈ fs, f.decoded.length < 2 ^ 64) (n : Nat) :
    decodeAll n (fs.map Frame.bytes).flatten = (fs.map Frame.wire).take n := by
  induction fs generalizing n with
  | nil => cases n <;> simp [decodeAll, decodeServer]
  | cons f fs ih =>
    cases n with
    | zero => rfl
    | succ n =>
      rw [List.map_cons, List.flatten_cons, decodeAll, decode_frame _ _ (h f List.mem_cons_self)]
      simp only [List.map_cons, List.take_succ_cons]
      rw [ih fun g hg => h g (List.mem_cons_of_mem _ hg)]

/-- **C22.** For every history of `next` and `send` calls on an open socket in which nothing panicked and
no send failed, the bytes written decode, frame by frame, to: one pong (same payload) per ping
delivered, the messages sent, and one close frame at the first `ConnectionClosed`; nothing is written for
any other result. -/
theorem C22_history (W : Nat) (cs : List Call) (st' : WsState) (c c' : Conn) (rs : List Ret)
    (h : WebSocket.run W cs .open c = (rs, st', c'))
    (hnp : .item .panic ∉ rs) (hns : ∀ m, Ret.sent m false ∉ rs)
    (hlen : ∀ m, Ret.sent m true ∈ rs → (wireOf m).payload.length < 2 ^ 64)
    (hping : ∀ p, Ret.item (.ok (.ping (some p))) ∈ rs → p.length < 2 ^ 64) :
    ∃ w, c'.out.out = c.out.out ++ w ∧ ∀ n, decodeAll n w = (expected false rs).take n := by
  obtain ⟨fs, g1, g2, g3, _⟩ := run_writes W cs .open st' c c' rs h hnp hns hlen hping
  refine ⟨_, g1, fun n => ?_⟩
  rw [decodeAll_frames fs g3, g2]; rfl

/-- **C22 (one call, any connection).** A call that delivers a text, binary or pong message or reports a
client error writes no byte at all, whatever the connection's condition. -/
theorem C22_silent (W : Nat) (st st' : WsState) (c c' : Conn) (r : Outcome NextMessageError Message)
    (h : WebSocket.next W st c = (r, st', c')) (hr : r ≠ .panic) (hp : ∀ p, r ≠ .ok (.ping p))
    (hc : r ≠ .err .connectionClosed) : c'.out = c.out := by
  unfold WebSocket.next at h
  repeat' split at h
  all_goals simp only [Prod.mk.injEq] at h; obtain ⟨rfl, rfl, rfl⟩ := h
  all_goals simp_all

/-- non-vacuity: ping, then a send, then a close, then another `next`. -/
theorem demo_history : WebSocket.run 32 [.next, .send (.text "x"), .next, .next] .open
    ⟨[.data pingFrame.encode, .data closeClient.encode], ⟨[], none⟩⟩ =
    ([.item (.ok (.ping (some [104, 105]))), .sent (.text "x") true, .item (.err .connectionClosed),
      .item (.err .connectionClosed)], .closed,
     ⟨[], ⟨[0x8a, 2, 104, 105, 0x81, 1, 120, 0x88, 0], none⟩⟩) := by
  have h := C17_client_message 32 (.ping (some [104, 105])) ⟨pingFrame, [.data pingFrame.encode]⟩
    [.data closeClient.encode] (ok_single _ (by decide) (by decide)) rfl rfl rfl
  simp only [List.cons_append, List.nil_append] at h
  have h1 : WebSocket.next 32 .open ⟨[.data pingFrame.encode, .data closeClient.encode], ⟨[], none⟩⟩ =
      (.ok (.ping (some [104, 105])), .open, ⟨[.data closeClient.encode], ⟨[0x8a, 2, 104, 105], none⟩⟩) := by
    simp only [WebSocket.next, h]; decide +kernel
  have h2 : WebSocket.send (.text "x") ⟨[.data closeClient.encode], ⟨[0x8a, 2, 104, 105], none⟩⟩ =
      (true, ⟨[.data closeClient.encode], ⟨[0x8a, 2, 104, 105, 0x81, 1, 120], none⟩⟩) := by decide +kernel
  have h3 := next_close 32 (by decide) [] [0x8a, 2, 104, 105, 0x81, 1, 120]
  simp only [WebSocket.run, h1, h2, h3]
  rfl

/-! ## C20 -/

theorem expected_close (rs : List Ret) (closed : Bool) :
    (expected closed rs).countP (fun f => f.nibble == 8) =
      if closed = false ∧ .item (.err .connectionClosed) ∈ rs then 1 else 0 := by
  induction rs generalizing closed with
  | nil => simp [expected]
  | cons r rs ih =>
    cases r with
    | sent m ok =>
      have : (wireOf m).nibble ≠ 8 := by
        cases m with
        | text s => simp [wireOf]
        | binary b => simp [wireOf]
        | ping p => cases p <;> simp [wireOf]
        | pong p => cases p <;> simp [wireOf]
      simp [expected, this, ih]
    | item r =>
      cases r with
      | panic => cases closed <;> simp [expected, ih]
      | ok m =>
        cases m with
        | ping p =>
          have : (wireOf (.pong p)).nibble ≠ 8 := by cases p <;> simp [wireOf]
          simp [expected, this, ih]
        | pong p => cases closed <;> simp [expected, ih]
        | text p => cases closed <;> simp [expected, ih]
        | binary p => cases closed <;> simp [expected, ih]
      | err e =>
        cases e with
        | clientError => cases closed <;> simp [expected, ih]
        | connectionClosed => cases closed <;> simp [expected, ih, closeWire]

/-- **C20.** Any history of reads and sends on a socket, followed by `close`, puts exactly one close frame
on the wire (at most one without the final `close`), whoever initiated it. -/
theorem C20_one_close (W : Nat) (cs : List Call) (st' : WsState) (c c' c'' : Conn) (rs : List Ret)
    (h : WebSocket.run W cs .open c = (rs, st', c'))
    (hnp : .item .panic ∉ rs) (hns : ∀ m, Ret.sent m false ∉ rs)
    (hlen : ∀ m, Ret.sent m true ∈ rs → (wireOf m).payload.length < 2 ^ 64)
    (hping : ∀ p, Ret.item (.ok (.ping (some p))) ∈ rs → p.length < 2 ^ 64)
    (hc : WebSocket.close st' c' = (some (), c'')) :
    (∃ w, c'.out.out = c.out.out ++ w ∧
      ∀ n, (decodeAll n w).countP (fun f => f.nibble == 8) ≤ 1) ∧
    (∃ w k, c''.out.out = c.out.out ++ w ∧
      ∀ n, k ≤ n → (decodeAll n w).countP (fun f => f.nibble == 8) = 1) := by
  obtain ⟨fs, g1, g2, g3, g4⟩ := run_writes W cs .open st' c c' rs h hnp hns hlen hping
  have hcount := expected_close rs false
  rw [show (false : Bool) = decide (WsState.open = .closed) from rfl, ← g2] at hcount
  constructor
  · refine ⟨_, g1, fun n => ?_⟩
    rw [decodeAll_frames fs g3]
    have h1 : ((fs.map Frame.wire).take n).countP (fun f => f.nibble == 8) ≤
        (fs.map Frame.wire).countP (fun f => f.nibble == 8) := List.Sublist.countP_le (List.take_sublist _ _)
    have h2 : (fs.map Frame.wire).countP (fun f => f.nibble == 8) ≤ 1 := by
      rw [hcount]; split <;> omega
    omega
  · unfold WebSocket.close at hc
    cases hst : st' with
    | closed =>
      subst hst
      simp only [Prod.mk.injEq, true_and] at hc
      subst hc
      refine ⟨_, fs.length, g1, fun n hn => ?_⟩
      rw [decodeAll_frames fs g3, List.take_of_length_le (by simpa using hn), hcount]
      rw [if_pos ⟨rfl, (g4.1 rfl).resolve_left (by simp)⟩]
    | «open» =>
      subst hst
      simp only at hc
      split at hc
      · rename_i out hs
        simp only [Prod.mk.injEq, true_and] at hc
        subst hc
        rw [sendFrame_eq, Sink.writeAll_ok_iff] at hs
        refine ⟨((fs ++ [closeFrame]).map Frame.bytes).flatten, fs.length + 1, ?_, fun n hn => ?_⟩
        · rw [hs.2]; simp [g1]
        · rw [decodeAll_frames (fs ++ [closeFrame]), List.take_of_length_le (by simpa using hn),
            List.map_append, List.countP_append, hcount, if_neg]
          · rfl
          · intro hh
            have := g4.2 (Or.inr hh.2)
            simp at this
          · intro f hf
            rcases List.mem_append.1 hf with hf | hf
            · exact g3 f hf
            · simp at hf; subst hf; simp [closeFrame]
      · simp at hc

/-- **C20 is false with `make_copy`**: a copy keeps its own state, so after the original has answered the
peer's close frame, closing the copy sends a second close frame on the same connection. -/
theorem C20_make_copy_refuted (rest : Raw) (o : Bytes) :
    ∃ c1 c2, WebSocket.next 32 .open ⟨.data closeClient.encode :: rest, ⟨o, none⟩⟩ =
        (.err .connectionClosed, .closed, c1) ∧
      WebSocket.close .open c1 = (some (), c2) ∧
      c2.out.out = o ++ [0x88, 0] ++ [0x88, 0] ∧
      decodeAll 3 ([0x88, 0] ++ [0x88, 0]) = [closeWire, closeWire] :=
  ⟨_, ⟨rest, ⟨o ++ [0x88, 0] ++ [0x88, 0], none⟩⟩, next_close 32 (by decide) rest o,
    by simp only [WebSocket.close, sendFrame_eq]; rfl, rfl, by decide +kernel⟩

/-! ## C21 -/

theorem parse_eof (W : Nat) : Frame.parse W [] = (.err .insufficientData, []) := by
  unfold Frame.parse
  rfl

/-- **C21 is false**: when the peer's connection ends without a close frame, every call of the iterator,
forever, returns `ClientError` and the socket stays open; neither `ConnectionClosed` nor the end of the
iterator is ever reported. -/
theorem C21_eof_refuted (W : Nat) (out : Sink) (n : Nat) :
    WebSocket.run W (List.replicate n .next) .open ⟨[], out⟩ =
      (List.replicate n (.item (.err .clientError)), .open, ⟨[], out⟩) := by
  induction n with
  | zero => rfl
  | succ n ih =>
    have : WebSocket.next W .open ⟨[], out⟩ = (.err .clientError, .open, ⟨[], out⟩) := by
      simp [WebSocket.next, Message.next, parse_eof]
    simp [List.replicate_succ, WebSocket.run, this, ih]

theorem nextLoop_close {W : Nat} {op : OpCode} : ∀ (n : Nat) (raw : Raw) (p : Bytes) (raw' : Raw),
    raw.size ≤ n → nextLoop W op p raw = (.err .clientSentCloseFrame, raw') →
    ∃ fs f, Parses W raw (fs ++ [f]) raw' ∧ f.opCode = .terminate := by
  intro n
  induction n with
  | zero =>
    intro raw p raw' hn h
    rw [nextLoop] at h
    split at h
    · simp at h
    · simp at h
    · rename_i msg r1 heq
      have := parse_shrinks heq; omega
  | succ n ih =>
    intro raw p raw' hn h
    rw [nextLoop] at h
    split at h
    · simp at h
    · simp at h
    · rename_i msg r1 heq
      have hsh := parse_shrinks heq
      split at h
      · rename_i ht
        simp only [Prod.mk.injEq, true_and] at h
        subst h
        exact ⟨[], msg, .cons heq (.nil _), ht⟩
      split at h
      · simp at h
      split at h
      · have : ∀ op p, messageOf op p ≠ .err .clientSentCloseFrame := by
          intro op p; cases op <;> simp only [messageOf] <;> try split <;> simp
          all_goals simp
        simp only [Prod.mk.injEq] at h
        exact absurd h.1 (this _ _)
      · obtain ⟨fs, f, g1, g2⟩ := ih r1 _ raw' (by omega) h
        exact ⟨msg :: fs, f, .cons heq g1, g2⟩

/-- What does hold of C21: `ConnectionClosed` is only ever reported by an open socket because a close frame
was parsed from the stream (never because of anything else the peer does). -/
theorem C21_closed_means_close_frame_partial (W : Nat) (st' : WsState) (c c' : Conn)
    (h : WebSocket.next W .open c = (.err .connectionClosed, st', c')) :
    ∃ fs f, Parses W c.inp (fs ++ [f]) c'.inp ∧ f.opCode = .terminate := by
  unfold WebSocket.next at h
  simp only at h
  split at h
  · split at h
    · split at h <;> simp at h
    · simp at h
  · simp at h
  · rename_i inp hm
    have hfin : c'.inp = inp := by
      split at h
      · simp at h; rw [← h.2]
      · simp at h
    rw [hfin]
    unfold Message.next at hm
    split at hm
    · simp at hm
    · simp at hm
    · rename_i first r1 heq
      split at hm
      · rename_i ht
        simp only [Prod.mk.injEq, true_and] at hm
        subst hm
        exact ⟨[], first, .cons heq (.nil _), ht⟩
      split at hm
      · have : ∀ op p, messageOf op p ≠ .err .clientSentCloseFrame := by
          intro op p; cases op <;> simp only [messageOf] <;> try split <;> simp
          all_goals simp
        simp only [Prod.mk.injEq] at hm
        exact absurd hm.1 (this _ _)
      · obtain ⟨fs, f, g1, g2⟩ := nextLoop_close _ _ _ _ (Nat.le_refl _) hm
        exact ⟨first :: fs, f, .cons heq g1, g2⟩
  · simp at h

/-! ## C23 -/

/-- **C23 is false**: after the close reply has been written, `send` still succeeds and writes a data
frame after it, for every message. -/
theorem C23_send_after_close_refuted (m : Message) (rest : Raw) (o : Bytes) :
    WebSocket.run 32 [.next, .send m] .open ⟨.data closeClient.encode :: rest, ⟨o, none⟩⟩ =
      ([.item (.err .connectionClosed), .sent m true], .closed,
        ⟨rest, ⟨o ++ [0x88, 0] ++ observed m, none⟩⟩) := by
  have h := next_close 32 (by decide) rest o
  simp only [WebSocket.run, h, WebSocket.send, send_eq, observed_eq]
  rfl

/-- What does hold of C23: after `ConnectionClosed` the iterator itself writes nothing more; everything
written afterwards was explicitly sent by the application. -/
theorem C23_after_close_only_sends_partial (W : Nat) (cs : List Call) (st' : WsState) (c c' : Conn)
    (rs : List Ret) (h : WebSocket.run W cs .closed c = (rs, st', c'))
    (hns : ∀ m, Ret.sent m false ∉ rs) :
    c'.inp = c.inp ∧ st' = .closed ∧
    c'.out.out = c.out.out ++ ((cs.filterMap fun x => match x with
      | .send m => some (observed m) | .next => none).flatten) := by
  induction cs generalizing c rs with
  | nil =>
    simp only [WebSocket.run, Prod.mk.injEq] at h
    obtain ⟨rfl, rfl, rfl⟩ := h
    simp
  | cons call cs ih =>
    cases call with
    | next =>
      simp only [WebSocket.run, WebSocket.next] at h
      cases hrun : WebSocket.run W cs .closed c with
      | mk rs1 q =>
      obtain ⟨st1, c2⟩ := q
      simp only [hrun, Prod.mk.injEq] at h
      obtain ⟨rfl, rfl, rfl⟩ := h
      simpa using ih c rs1 hrun (fun m' hh => hns m' (List.mem_cons_of_mem _ hh))
    | send m =>
      simp only [WebSocket.run] at h
      cases hw : WebSocket.send m c with
      | mk ok c1 =>
      cases hrun : WebSocket.run W cs .closed c1 with
      | mk rs1 q =>
      obtain ⟨st1, c2⟩ := q
      simp only [hw, hrun, Prod.mk.injEq] at h
      obtain ⟨rfl, rfl, rfl⟩ := h
      obtain ⟨g1, g2, g3⟩ := ih c1 rs1 hrun (fun m' hh => hns m' (List.mem_cons_of_mem _ hh))
      unfold WebSocket.send at hw
      rw [send_eq] at hw
      cases hs : c.out.writeAll m.bytes with
      | mk ok2 out =>
      simp only [hs, Prod.mk.injEq] at hw
      obtain ⟨rfl, rfl⟩ := hw
      cases ok2 with
      | false => exact absurd List.mem_cons_self (hns m)
      | true =>
        rw [Sink.writeAll_ok_iff] at hs
        refine ⟨g1, g2, ?_⟩
        rw [g3, hs.2]
        simp [observed_eq]

/-- **C23, exactly**, also on a connection that breaks: after `ConnectionClosed` nothing is read any more, and what is written and what the sends report
is what it would be for a history of these sends alone (C02): the iterator adds nothing, and the socket holds nothing back. -/
theorem C23_after_close_exact_partial (W : Nat) (cs : List Call) (st' : WsState) (c c' : Conn) (rs : List Ret)
    (h : WebSocket.run W cs .closed c = (rs, st', c')) :
    let ms := cs.filterMap fun x => match x with | .send m => some m | .next => none
    st' = .closed ∧ c' = ⟨c.inp, (sendAll ms c.out).2⟩ ∧
    (rs.filterMap fun r => match r with | .sent m ok => some (m, ok) | .item _ => none) = ms.zip (sendAll ms c.out).1 ∧
    ∀ r ∈ rs, r = .item (.err .connectionClosed) ∨ ∃ m ok, r = .sent m ok := by
  induction cs generalizing c rs with
  | nil =>
    simp only [WebSocket.run, Prod.mk.injEq] at h
    obtain ⟨rfl, rfl, rfl⟩ := h
    simp [sendAll]
  | cons call cs ih =>
    cases call with
    | next =>
      simp only [WebSocket.run, WebSocket.next] at h
      cases hrun : WebSocket.run W cs .closed c with
      | mk rs1 q =>
      obtain ⟨st1, c2⟩ := q
      simp only [hrun, Prod.mk.injEq] at h
      obtain ⟨rfl, rfl, rfl⟩ := h
      obtain ⟨g1, g2, g3, g4⟩ := ih c rs1 hrun
      refine ⟨g1, g2, ?_, ?_⟩
      · simpa using g3
      · intro r hr
        rcases List.mem_cons.1 hr with rfl | hr
        · exact Or.inl rfl
        · exact g4 r hr
    | send m =>
      simp only [WebSocket.run, WebSocket.send] at h
      cases hs : Puck.send m c.out with
      | mk ok out =>
      cases hrun : WebSocket.run W cs .closed ⟨c.inp, out⟩ with
      | mk rs1 q =>
      obtain ⟨st1, c2⟩ := q
      simp only [hs, hrun, Prod.mk.injEq] at h
      obtain ⟨rfl, rfl, rfl⟩ := h
      obtain ⟨g1, g2, g3, g4⟩ := ih ⟨c.inp, out⟩ rs1 hrun
      refine ⟨g1, ?_, ?_, ?_⟩
      · simpa [sendAll, hs] using g2
      · simpa [sendAll, hs] using g3
      · intro r hr
        rcases List.mem_cons.1 hr with rfl | hr
        · exact Or.inr ⟨m, ok, rfl⟩
        · exact g4 r hr

/-- non-vacuity. -/
example : WebSocket.run 32 [.next, .send (.ping none), .next] .closed ⟨[], ⟨[], none⟩⟩ =
    ([.item (.err .connectionClosed), .sent (.ping none) true, .item (.err .connectionClosed)], .closed,
      ⟨[], ⟨[0x89, 0], none⟩⟩) := by decide +kernel

/-- non-vacuity of C20 and C22: the history of `demo_history` meets the hypotheses of both, and C20 then gives one close frame. -/
example : (∃ w, [0x8a, 2, 104, 105, 0x81, 1, 120, 0x88, 0] = ([] : Bytes) ++ w ∧
    ∀ n, (decodeAll n w).countP (fun f => f.nibble == 8) ≤ 1) ∧
    ∃ w k, [0x8a, 2, 104, 105, 0x81, 1, 120, 0x88, 0] = ([] : Bytes) ++ w ∧
      ∀ n, k ≤ n → (decodeAll n w).countP (fun f => f.nibble == 8) = 1 := by
  refine C20_one_close 32 _ _ _ _ ⟨[], ⟨[0x8a, 2, 104, 105, 0x81, 1, 120, 0x88, 0], none⟩⟩ _ demo_history (by decide +kernel) ?_ ?_ ?_
    (by decide +kernel)
  · intro m hm
    simp at hm
  · intro m hm
    simp only [List.mem_cons, reduceCtorEq, Ret.sent.injEq, and_true, List.not_mem_nil, or_false, false_or] at hm
    subst hm
    decide +kernel
  · intro p hp
    simp only [List.mem_cons, Ret.item.injEq, Outcome.ok.injEq, Message.ping.injEq, Option.some.injEq, reduceCtorEq, List.not_mem_nil, or_false] at hp
    subst hp
    decide

end Puck
