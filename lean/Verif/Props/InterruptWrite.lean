import Verif.Model.InterruptWrite
import Verif.Props.Interrupt
import Verif.Props.Interleave
/-!
# C158: interrupted and short writes
-/
namespace Puck

theorem writeAllGo_whole (b : Bytes) : ∀ (s : List WEv) (out : Bytes),
    (Sink.writeAll b ⟨out, roomLeft s⟩).1 = (writeAllGo b out s).1 ∧ (Sink.writeAll b ⟨out, roomLeft s⟩).2.out = (writeAllGo b out s).2.out ∧
      ((writeAllGo b out s).1 = true → (Sink.writeAll b ⟨out, roomLeft s⟩).2 = (writeAllGo b out s).2.whole) := by
  intro s
  induction s generalizing b with
  | nil => intro out; exact ⟨rfl, rfl, fun _ => rfl⟩
  | cons e s ih =>
    intro out
    by_cases hb : b = []
    · subst hb
      have h1 : writeAllGo [] out (e :: s) = (true, ⟨out, e :: s⟩) := by cases e <;> rfl
      rw [h1]
      unfold Sink.writeAll WSink.whole
      cases roomLeft (e :: s) with
      | none => simp
      | some k => simp
    · have hlen : 0 < b.length := List.length_pos_iff.2 hb
      cases e with
      | intr =>
        rw [writeAllGo, if_neg hb]
        exact ih b out
      | fail =>
        rw [writeAllGo, if_neg hb]
        simp only [roomLeft, Sink.writeAll]
        rw [if_neg (by omega)]
        simp
      | room k =>
        rw [writeAllGo, if_neg hb]
        by_cases hk : k = 0
        · rw [if_pos hk]
          simp only [roomLeft, if_pos hk, Sink.writeAll]
          rw [if_neg (by omega)]
          simp
        · rw [if_neg hk]
          by_cases hl : b.length < k
          · rw [if_pos hl]
            have hk' : ¬k - b.length = 0 := by omega
            simp only [roomLeft, if_neg hk, WSink.whole, if_neg hk']
            unfold Sink.writeAll
            cases roomLeft s with
            | none => simp
            | some m =>
              simp only [Option.map_some]
              rw [if_pos (by omega)]
              refine ⟨rfl, rfl, fun _ => ?_⟩
              simp only [Sink.mk.injEq, Option.some.injEq, true_and]
              omega
          · rw [if_neg hl]
            have ih' := ih (b.drop k) (out ++ b.take k)
            simp only [roomLeft, if_neg hk]
            unfold Sink.writeAll at ih' ⊢
            cases hr : roomLeft s with
            | none =>
              rw [hr] at ih'
              simp only [Option.map_none] at ih' ⊢
              rw [List.append_assoc, List.take_append_drop] at ih'
              exact ih'
            | some m =>
              rw [hr] at ih'
              simp only [Option.map_some, List.length_drop] at ih' ⊢
              by_cases hm : b.length - k ≤ m
              · rw [if_pos hm] at ih'
                rw [if_pos (by omega)]
                rw [List.append_assoc, List.take_append_drop] at ih'
                rw [show k + m - b.length = m - (b.length - k) by omega]
                exact ih'
              · rw [if_neg hm] at ih'
                rw [if_neg (by omega)]
                have e : out ++ b.take k ++ (b.drop k).take m = out ++ b.take (k + m) := by
                  rw [List.append_assoc, List.take_add]
                rw [e] at ih'
                exact ih'

/-- **C158, writing.** Whatever the single writes of a connection do (accept fewer bytes than offered, be interrupted, fail), a sequence of `write_all`s, as in the sending of frames, requests and
responses, reports the same and leaves the same bytes on the connection as on a writer that takes everything until its room is used up. -/
theorem C158_write (bs : List Bytes) (w : WSink) :
    (Sink.writeEach bs w.whole).1 = (w.writeEach bs).1 ∧ (Sink.writeEach bs w.whole).2.out = (w.writeEach bs).2.out ∧
      ((w.writeEach bs).1 = true → (Sink.writeEach bs w.whole).2 = (w.writeEach bs).2.whole) := by
  induction bs generalizing w with
  | nil => exact ⟨rfl, rfl, fun _ => rfl⟩
  | cons b bs ih =>
    obtain ⟨h1, h2, h3⟩ := writeAllGo_whole b w.sched w.out
    unfold Sink.writeEach WSink.writeEach
    unfold WSink.writeAll
    rw [show w.whole = ⟨w.out, roomLeft w.sched⟩ from rfl]
    cases hs : Sink.writeAll b ⟨w.out, roomLeft w.sched⟩ with
    | mk o s' =>
      cases hw : writeAllGo b w.out w.sched with
      | mk o' w' =>
        rw [hs, hw] at h1 h2 h3
        simp only at h1 h2 h3
        subst h1
        cases o with
        | false => exact ⟨rfl, h2, by simp⟩
        | true =>
          rw [h3 rfl]
          exact ih w'

/-- **C158: without the interruptions** the same is written and reported. -/
theorem C158_write_calm (bs : List Bytes) (w : WSink) :
    ((WSink.mk w.out (w.sched.filter (· != .intr))).writeEach bs).1 = (w.writeEach bs).1 ∧
      ((WSink.mk w.out (w.sched.filter (· != .intr))).writeEach bs).2.out = (w.writeEach bs).2.out := by
  have hroom : ∀ s : List WEv, roomLeft (s.filter (· != .intr)) = roomLeft s := by
    intro s
    induction s with
    | nil => rfl
    | cons e s ih =>
      cases e with
      | intr => simpa [roomLeft] using ih
      | fail => rfl
      | room k =>
        rw [List.filter_cons_of_pos (by simp)]
        simp only [roomLeft, ih]
  have e : (WSink.mk w.out (w.sched.filter (· != .intr))).whole = w.whole := by
    simp only [WSink.whole, hroom]
  obtain ⟨h1, h2, -⟩ := C158_write bs (WSink.mk w.out (w.sched.filter (· != .intr)))
  obtain ⟨h3, h4, -⟩ := C158_write bs w
  rw [e] at h1 h2
  exact ⟨h1.symm.trans h3, h2.symm.trans h4⟩

/-- **C158, sending a message**, whatever the single writes do: it succeeds exactly when the connection takes the frame's bytes before it fails, and leaves as many of them on it as it takes. -/
theorem C158_send (m : Message) (w : WSink) :
    (send m w.whole).1 = (w.send m).1 ∧ (send m w.whole).2.out = (w.send m).2.out := by
  have e : ∀ (bs : List Bytes) (s : Sink), writeEach bs s = Sink.writeEach bs s := by
    intro bs
    induction bs with
    | nil => intro s; rfl
    | cons b bs ih =>
      intro s
      simp only [writeEach, Sink.writeEach, ih]
      rfl
  unfold send WSink.send
  rw [sendFrame_writes, e]
  obtain ⟨h1, h2, -⟩ := C158_write (frameWrites (Frame.ofMessage m)) w
  exact ⟨h1, h2⟩

/-- non-vacuity: two calls, five bytes, in pieces of two and one, with interruptions; and one that fails in the second -/
example : (WSink.mk [] [.intr, .room 2, .intr, .room 1]).writeEach [[1, 2, 3], [4, 5]] = (true, ⟨[1, 2, 3, 4, 5], []⟩) ∧
    (WSink.mk [] [.room 2, .intr, .room 2, .intr, .fail]).writeEach [[1, 2, 3], [4, 5]] = (false, ⟨[1, 2, 3, 4], []⟩) := by decide

end Puck
