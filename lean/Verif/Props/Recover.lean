import Verif.Props.InterruptWrite
import Verif.Props.Send
/-!
# C159: a connection that fails for a while
-/
namespace Puck
open Rfc6455

/-- Specification: what messages sent one after the other can leave on a connection.  One that was sent: its frame, as it is on a connection that never fails; one whose sending failed: a part of
its frame, from the beginning, and not all of it. -/
inductive LeftBy : List Message → List Bool → Bytes → Prop
  | nil : LeftBy [] [] []
  | sent {m ms oks x} : LeftBy ms oks x → LeftBy (m :: ms) (true :: oks) (observed m ++ x)
  | failed {m ms oks x} (k : Nat) : k < (observed m).length → LeftBy ms oks x → LeftBy (m :: ms) (false :: oks) ((observed m).take k ++ x)

/-- Specification: the messages whose sending succeeded. -/
def succeeded : List Message → List Bool → List Message
  | m :: ms, true :: oks => m :: succeeded ms oks
  | _ :: ms, false :: oks => succeeded ms oks
  | _, _ => []

/-- one message -/
theorem WSink.send_left (m : Message) (w : WSink) : (w.send m).1 = true ∧ (w.send m).2.out = w.out ++ observed m ∨
    (w.send m).1 = false ∧ ∃ k, k < (observed m).length ∧ (w.send m).2.out = w.out ++ (observed m).take k := by
  obtain ⟨h1, h2⟩ := C158_send m w
  rw [← h1, ← h2, send_eq, observed_eq]
  unfold Sink.writeAll WSink.whole
  simp only
  cases roomLeft w.sched with
  | none => exact .inl ⟨rfl, rfl⟩
  | some k =>
    simp only
    split
    · exact .inl ⟨rfl, rfl⟩
    · exact .inr ⟨rfl, k, by omega, rfl⟩

/-- **C159 (exactly what is left on the connection).** However a connection fails, and recovers, while messages are sent one after the other: each one reported as sent has left its whole frame, each
other one a part of its frame from the beginning, which may be nothing and is never all of it, and there is nothing else. -/
theorem C159_exact_partial (ms : List Message) (w : WSink) : ∃ x, LeftBy ms (w.sendAll ms).1 x ∧ (w.sendAll ms).2.out = w.out ++ x := by
  induction ms generalizing w with
  | nil => exact ⟨[], .nil, by simp [WSink.sendAll]⟩
  | cons m ms ih =>
    obtain ⟨x, h1, h2⟩ := ih (w.send m).2
    simp only [WSink.sendAll]
    rcases WSink.send_left m w with ⟨h3, h4⟩ | ⟨h3, k, h5, h4⟩
    · exact ⟨observed m ++ x, by rw [h3]; exact .sent h1, by rw [h2, h4, List.append_assoc]⟩
    · exact ⟨(observed m).take k ++ x, by rw [h3]; exact .failed k h5 h1, by rw [h2, h4, List.append_assoc]⟩

/-- room for `k` more bytes, if there is any -/
def roomFor (k : Nat) (s : List WEv) : List WEv := if k = 0 then s else .room k :: s

theorem writeAllGo_fits (b out : Bytes) (k : Nat) (s : List WEv) : writeAllGo b out (roomFor (b.length + k) s) = (true, ⟨out ++ b, roomFor k s⟩) := by
  by_cases hb : b = []
  · subst hb
    simp only [List.length_nil, Nat.zero_add, List.append_nil]
    cases roomFor k s with
    | nil => simp [writeAllGo]
    | cons e t => cases e <;> rfl
  · have hl : 0 < b.length := List.length_pos_iff.2 hb
    unfold roomFor
    rw [if_neg (by omega), writeAllGo, if_neg hb, if_neg (by omega)]
    by_cases hk : k = 0
    · rw [if_neg (by omega), if_pos hk, hk, Nat.add_zero, List.drop_length, List.take_length]
      cases s with
      | nil => simp [writeAllGo]
      | cons e t => cases e <;> rfl
    · rw [if_pos (by omega), if_neg hk, Nat.add_sub_cancel_left]

theorem writeEach_fits (bs : List Bytes) (out : Bytes) (s : List WEv) (k : Nat) :
    (WSink.mk out (roomFor (bs.flatten.length + k) s)).writeEach bs = (true, ⟨out ++ bs.flatten, roomFor k s⟩) := by
  induction bs generalizing out with
  | nil => simp [WSink.writeEach]
  | cons b bs ih =>
    rw [WSink.writeEach, WSink.writeAll, List.flatten_cons, List.length_append, Nat.add_assoc, writeAllGo_fits]
    simp only
    rw [ih, List.append_assoc]

theorem writeAllGo_short (b out : Bytes) (k : Nat) (s : List WEv) (hk : k < b.length) : writeAllGo b out (roomFor k (.fail :: s)) = (false, ⟨out ++ b.take k, s⟩) := by
  have hb : b ≠ [] := by intro h; rw [h] at hk; simp at hk
  unfold roomFor
  split
  · rename_i h0
    rw [writeAllGo, if_neg hb, h0]
    simp
  · rename_i h0
    have hd : b.drop k ≠ [] := by
      intro h
      have := congrArg List.length h
      simp only [List.length_drop, List.length_nil] at this
      omega
    rw [writeAllGo, if_neg hb, if_neg h0, if_neg (by omega), writeAllGo, if_neg hd]

theorem writeEach_short (bs : List Bytes) (out : Bytes) (s : List WEv) (k : Nat) (hk : k < bs.flatten.length) :
    (WSink.mk out (roomFor k (.fail :: s))).writeEach bs = (false, ⟨out ++ bs.flatten.take k, s⟩) := by
  induction bs generalizing out k with
  | nil => simp at hk
  | cons b bs ih =>
    rw [List.flatten_cons, List.length_append] at hk
    rw [WSink.writeEach, WSink.writeAll, List.flatten_cons]
    simp only
    by_cases h : k < b.length
    · rw [writeAllGo_short _ _ _ _ h, List.take_append_of_le_length (by omega)]
    · obtain ⟨d, rfl⟩ := Nat.exists_eq_add_of_le (Nat.le_of_not_lt h)
      rw [writeAllGo_fits]
      simp only
      rw [ih _ _ (by omega), List.take_length_add_append, List.append_assoc]

/-- **C159 (all of it can happen).** For every such outcome there is a connection that fails and recovers in such a way. -/
theorem C159_possible_partial (ms : List Message) (oks : List Bool) (x : Bytes) (h : LeftBy ms oks x) :
    ∃ sched, ((WSink.mk [] sched).sendAll ms).1 = oks ∧ ((WSink.mk [] sched).sendAll ms).2.out = x := by
  have hf : ∀ m : Message, (frameWrites (Frame.ofMessage m)).flatten = observed m := fun m => by rw [frameWrites_flatten, observed_eq]; rfl
  have key : ∀ out : Bytes, ∃ sched, ((WSink.mk out sched).sendAll ms).1 = oks ∧ ((WSink.mk out sched).sendAll ms).2.out = out ++ x := by
    induction h with
    | nil => exact fun out => ⟨[], rfl, by simp [WSink.sendAll]⟩
    | @sent m ms oks x _ ih =>
      intro out
      obtain ⟨s, h1, h2⟩ := ih (out ++ observed m)
      have hw : (WSink.mk out (roomFor ((observed m).length + 0) s)).send m = (true, ⟨out ++ observed m, s⟩) := by
        unfold WSink.send
        rw [← hf m, writeEach_fits]
        rfl
      refine ⟨roomFor ((observed m).length + 0) s, ?_⟩
      simp only [WSink.sendAll, hw, h1, h2, List.append_assoc, and_self]
    | @failed m ms oks x k hk _ ih =>
      intro out
      obtain ⟨s, h1, h2⟩ := ih (out ++ (observed m).take k)
      have hw : (WSink.mk out (roomFor k (.fail :: s))).send m = (false, ⟨out ++ (observed m).take k, s⟩) := by
        unfold WSink.send
        rw [← hf m] at hk ⊢
        exact writeEach_short _ _ _ _ hk
      refine ⟨roomFor k (.fail :: s), ?_⟩
      simp only [WSink.sendAll, hw, h1, h2, List.append_assoc, and_self]
  obtain ⟨s, h1, h2⟩ := key []
  exact ⟨s, h1, by simpa using h2⟩

theorem LeftBy.least {ms : List Message} {oks : List Bool} {x : Bytes} (h : LeftBy ms oks x) :
    ((succeeded ms oks).map observed).flatten.length ≤ x.length ∧
      (x.length ≤ ((succeeded ms oks).map observed).flatten.length → x = ((succeeded ms oks).map observed).flatten) := by
  induction h with
  | nil => exact ⟨Nat.le_refl _, fun _ => rfl⟩
  | sent _ ih =>
    simp only [succeeded, List.map_cons, List.flatten_cons, List.length_append]
    exact ⟨by omega, fun h => by rw [ih.2 (by omega)]⟩
  | failed k hk _ ih =>
    simp only [succeeded, List.length_append]
    refine ⟨by omega, fun h => ?_⟩
    have h0 := ih.1
    rw [List.length_take] at h
    have : k = 0 := by omega
    rw [this, List.take_zero, List.nil_append]
    exact ih.2 (by omega)

/-- **C159, when nothing was left of a message that failed.** If the connection has taken no more bytes than the frames of the messages reported as sent have, a client decodes exactly these messages,
in order. -/
theorem C159_decoded_partial (ms : List Message) (sched : List WEv) (n : Nat) (hlen : ∀ m ∈ ms, (wireOf m).payload.length < 2 ^ 64)
    (h : ((WSink.mk [] sched).sendAll ms).2.out.length ≤ ((succeeded ms ((WSink.mk [] sched).sendAll ms).1).map observed).flatten.length) :
    decodeAll ((succeeded ms ((WSink.mk [] sched).sendAll ms).1).length + n) ((WSink.mk [] sched).sendAll ms).2.out =
      (succeeded ms ((WSink.mk [] sched).sendAll ms).1).map wireOf := by
  obtain ⟨x, h1, h2⟩ := C159_exact_partial ms (WSink.mk [] sched)
  rw [List.nil_append] at h2
  rw [h2] at h ⊢
  rw [h1.least.2 h]
  have hsub : ∀ (ms : List Message) (oks : List Bool), ∀ m ∈ succeeded ms oks, m ∈ ms := by
    intro ms
    induction ms with
    | nil => intro oks m hm; simp [succeeded] at hm
    | cons a ms ih =>
      intro oks m hm
      rcases oks with _ | ⟨_ | _, oks⟩
      · simp [succeeded] at hm
      · exact List.mem_cons_of_mem _ (ih oks m hm)
      · simp only [succeeded, List.mem_cons] at hm ⊢
        exact hm.imp_right (ih oks m)
  have := (C02_history_decoded (succeeded ms ((WSink.mk [] sched).sendAll ms).1) n fun m hm => hlen m (hsub _ _ m hm)).2
  rw [sendAll_none] at this
  simp only [List.nil_append] at this
  rw [show observed = Message.bytes from funext observed_eq]
  exact this

/-- non-vacuity: the first message fails with nothing written, the connection recovers, the second is sent -/
example : ((WSink.mk [] [.fail]).sendAll [.text "lost", .text "hi"]).1 = [false, true] ∧
    decodeAll 5 ((WSink.mk [] [.fail]).sendAll [.text "lost", .text "hi"]).2.out = [wireOf (.text "hi")] := by decide +kernel

/-- **C159 is false of the code.** Two messages: the first is broken off after the header of its frame and reported as failed; the second is reported as sent.  The client decodes one message
that nobody sent, and neither of the two. -/
theorem C159_recover_refuted : ∃ (m m' : Message) (sched : List WEv) (f : WireFrame),
    ((WSink.mk [] sched).sendAll [m, m']).1 = [false, true] ∧ f ≠ wireOf m ∧ f ≠ wireOf m' ∧
      ∀ n, decodeAll (1 + n) ((WSink.mk [] sched).sendAll [m, m']).2.out = [f] := by
  refine ⟨.text "hello", .text "bye", [.room 2, .fail], ⟨true, false, false, false, 1, [0x81, 3, 0x62, 0x79, 0x65]⟩, by decide +kernel, by decide +kernel, by decide +kernel, ?_⟩
  intro n
  have e : ((WSink.mk [] [.room 2, .fail]).sendAll [.text "hello", .text "bye"]).2.out = [0x81, 5, 0x81, 3, 0x62, 0x79, 0x65] := by decide +kernel
  have e' : decodeServer [0x81, 5, 0x81, 3, 0x62, 0x79, 0x65] = some (⟨true, false, false, false, 1, [0x81, 3, 0x62, 0x79, 0x65]⟩, []) := by decide +kernel
  have e'' : decodeServer [] = none := by decide +kernel
  rw [e, Nat.add_comm, decodeAll, e']
  simp only
  cases n with
  | zero => rfl
  | succ n => simp only [decodeAll, e'']

end Puck
