import Verif.Model.Writes
import Verif.Props.Send
import Verif.Lemmas.Ascii
/-!
# Concurrent sends (C82)
-/
namespace Puck
open Rfc6455

/-- Making the calls one after the other. -/
def writeEach : List Bytes → Sink → Bool × Sink
  | [], s => (true, s)
  | b :: bs, s =>
    match s.writeAll b with
    | (false, s') => (false, s')
    | (true, s') => writeEach bs s'

/-- `frameWrites` are the calls `send_frame` makes. -/
theorem sendFrame_writes (f : Frame) (s : Sink) : sendFrame f s = writeEach (frameWrites f) s := by
  unfold sendFrame Frame.format frameWrites
  by_cases h : 126 ≤ f.decoded.length
  · simp only [h, if_true, List.cons_append, List.nil_append, writeEach]
    cases s.writeAll [f.byteOne, formatLength f.decoded.length] with
    | mk ok s1 =>
      cases ok with
      | false => rfl
      | true =>
        simp only
        cases s1.writeAll (extLength f.decoded.length) with
        | mk ok s2 =>
          cases ok with
          | false => rfl
          | true =>
            simp only
            cases s2.writeAll f.decoded with
            | mk ok s3 => cases ok <;> rfl
  · simp only [h, if_false, List.singleton_append, List.append_nil, writeEach]
    cases s.writeAll [f.byteOne, formatLength f.decoded.length] with
    | mk ok s1 =>
      cases ok with
      | false => rfl
      | true =>
        simp only
        cases s1.writeAll f.decoded with
        | mk ok s3 => cases ok <;> rfl

theorem frameWrites_flatten (f : Frame) : (frameWrites f).flatten = f.bytes := by
  unfold frameWrites Frame.bytes
  by_cases h : 126 ≤ f.decoded.length
  · simp [h]
  · simp [h, extLength_small h]

theorem utf8_lead (c : Char) : ∃ b bs, String.utf8EncodeChar c = b :: bs ∧ ¬ (128 ≤ b.toNat ∧ b.toNat < 192) := by
  unfold String.utf8EncodeChar
  simp only
  split
  · refine ⟨_, _, rfl, ?_⟩
    simp only [UInt8.toNat_ofNat']
    omega
  · split
    · refine ⟨_, _, rfl, ?_⟩
      simp only [UInt8.toNat_ofNat']
      omega
    · split
      · refine ⟨_, _, rfl, ?_⟩
        simp only [UInt8.toNat_ofNat']
        omega
      · refine ⟨_, _, rfl, ?_⟩
        simp only [UInt8.toNat_ofNat']
        omega

theorem strBytes_lead {s : String} {b : UInt8} {bs : Bytes} (h : strBytes s = b :: bs) : ¬ (128 ≤ b.toNat ∧ b.toNat < 192) := by
  rw [strBytes_eq_flatMap] at h
  cases hl : s.toList with
  | nil => rw [hl] at h; cases h
  | cons c cs =>
    rw [hl, List.flatMap_cons] at h
    obtain ⟨x, xs, h1, h2⟩ := utf8_lead c
    rw [h1] at h
    simp only [List.cons_append, List.cons.injEq] at h
    rw [← h.1]
    exact h2

theorem merge_nest {α : Type} (l1 l2 bs : List α) : Merge (l1 ++ l2) bs (l1 ++ bs ++ l2) := by
  induction l1 with
  | cons a l1 ih => exact .left ih
  | nil =>
    induction bs with
    | cons b bs ih => exact .right ih
    | nil =>
      show Merge l2 [] l2
      induction l2 with
      | nil => exact .nil
      | cons a l2 ih => exact .left ih

theorem merge_seq {α : Type} (as bs : List α) : Merge as bs (as ++ bs) ∧ Merge as bs (bs ++ as) := by
  have h1 := merge_nest as [] bs
  have h2 := merge_nest [] as bs
  simp only [List.append_nil, List.nil_append] at h1 h2
  exact ⟨h1, h2⟩

/-- **C82 (what holds).** If the calls of the two processes happen one frame after the other, in either order, a
client reads both messages whole. -/
theorem C82_sequential_partial (m m' : Message) (h : (wireOf m).payload.length < 2 ^ 64) (h' : (wireOf m').payload.length < 2 ^ 64) :
    (∃ cs, Merge (frameWrites (Frame.ofMessage m)) (frameWrites (Frame.ofMessage m')) cs ∧
      ∀ k, decodeAll (2 + k) cs.flatten = [wireOf m, wireOf m']) ∧
    (∃ cs, Merge (frameWrites (Frame.ofMessage m)) (frameWrites (Frame.ofMessage m')) cs ∧
      ∀ k, decodeAll (2 + k) cs.flatten = [wireOf m', wireOf m]) := by
  have dec : ∀ (x y : Message) (k : Nat), (wireOf x).payload.length < 2 ^ 64 → (wireOf y).payload.length < 2 ^ 64 →
      decodeAll (2 + k) (x.bytes ++ y.bytes) = [wireOf x, wireOf y] := by
    intro x y k hx hy
    have hy' := decode_message y [] hy
    rw [List.append_nil] at hy'
    rw [show 2 + k = (k + 1) + 1 by omega, decodeAll, decode_message x _ hx]
    simp only
    rw [decodeAll, hy']
    simp only
    cases k <;> simp [decodeAll, decodeServer]
  have hm := merge_seq (frameWrites (Frame.ofMessage m)) (frameWrites (Frame.ofMessage m'))
  refine ⟨⟨_, hm.1, fun k => ?_⟩, ⟨_, hm.2, fun k => ?_⟩⟩
  · rw [List.flatten_append, frameWrites_flatten, frameWrites_flatten]; exact dec m m' k h h'
  · rw [List.flatten_append, frameWrites_flatten, frameWrites_flatten]; exact dec m' m k h' h

theorem merge_prepend {α : Type} {as bs cs : List α} (l : List α) (h : Merge as bs cs) : Merge (l ++ as) bs (l ++ cs) ∧ Merge as (l ++ bs) (l ++ cs) := by
  induction l with
  | nil => exact ⟨h, h⟩
  | cons x l ih => exact ⟨.left ih.1, .right ih.2⟩

/-- **C82 (what holds), histories.** Take any messages of the two processes in any order, and make the calls of each message together: that is an order of
the calls of the two processes, and a client reads exactly those messages in that order. -/
theorem C82_whole_frames_partial (as bs ws : List Message) (h : Merge as bs ws) (hl : ∀ m ∈ ws, (wireOf m).payload.length < 2 ^ 64) :
    Merge (as.flatMap fun m => frameWrites (Frame.ofMessage m)) (bs.flatMap fun m => frameWrites (Frame.ofMessage m))
      (ws.flatMap fun m => frameWrites (Frame.ofMessage m)) ∧
    ∀ k, decodeAll (ws.length + k) (ws.flatMap fun m => frameWrites (Frame.ofMessage m)).flatten = ws.map wireOf := by
  constructor
  · induction h with
    | nil => exact .nil
    | left _ ih => exact (merge_prepend _ (ih fun m hm => hl m (List.mem_cons_of_mem _ hm))).1
    | right _ ih => exact (merge_prepend _ (ih fun m hm => hl m (List.mem_cons_of_mem _ hm))).2
  · intro k
    have e : (ws.flatMap fun m => frameWrites (Frame.ofMessage m)).flatten = (sendAll ws ⟨[], none⟩).2.out := by
      rw [sendAll_none]
      clear h hl
      induction ws with
      | nil => rfl
      | cons w ws ih =>
        simp only [List.flatMap_cons, List.flatten_append, frameWrites_flatten, ih, List.nil_append, List.map_cons, List.flatten_cons, Message.bytes]
    rw [e, (C02_history_decoded ws k hl).2]

/-- **C82 is false**: whenever one process sends a text that is not empty and another sends any message, there is an
order of their calls in which the first thing a client reads is a text frame whose contents are not UTF-8 (so that
RFC 6455 requires it to fail the connection). -/
theorem C82_interleaved_refuted (s : String) (hs : s ≠ "") (hlen : (strBytes s).length < 2 ^ 64) (m : Message) :
    ∃ cs, Merge (frameWrites (Frame.ofMessage (.text s))) (frameWrites (Frame.ofMessage m)) cs ∧
      ∃ w rest, decodeServer cs.flatten = some (w, rest) ∧ w.nibble = 1 ∧ ∀ t : String, w.payload ≠ strBytes t := by
  have hp : strBytes s ≠ [] := fun h => hs (strBytes_inj.1 (h.trans strBytes_empty.symm))
  have hsplit : frameWrites (Frame.ofMessage (.text s)) =
      ([[Frame.byteOne (Frame.ofMessage (.text s)), formatLength (strBytes s).length]] ++
        (if 126 ≤ (strBytes s).length then [extLength (strBytes s).length] else [])) ++ [strBytes s] := rfl
  refine ⟨_, by rw [hsplit]; exact merge_nest _ _ _, ?_⟩
  have hflat : (([[Frame.byteOne (Frame.ofMessage (.text s)), formatLength (strBytes s).length]] ++
        (if 126 ≤ (strBytes s).length then [extLength (strBytes s).length] else [])) ++ frameWrites (Frame.ofMessage m) ++ [strBytes s]).flatten =
      headBytes true false false false 1 false
        (if (strBytes s).length < 126 then .short else if (strBytes s).length < 65535 then .medium else .long) (strBytes s).length ++
      (m.bytes ++ strBytes s) := by
    have hb := Frame.bytes_eq (Frame.ofMessage (.text s))
    have hcode : (Frame.ofMessage (.text s)).opCode.code.toNat = 1 := by rfl
    rw [hcode] at hb
    have hb' : [Frame.byteOne (Frame.ofMessage (.text s)), formatLength (strBytes s).length] ++ extLength (strBytes s).length =
        headBytes true false false false 1 false
        (if (strBytes s).length < 126 then .short else if (strBytes s).length < 65535 then .medium else .long) (strBytes s).length :=
      List.append_cancel_right hb
    rw [← hb']
    rw [List.flatten_append, List.flatten_append, List.flatten_append, frameWrites_flatten]
    by_cases h : 126 ≤ (strBytes s).length
    · simp [h, Message.bytes]
    · simp [h, extLength_small h, Message.bytes]
  rw [hflat]
  obtain ⟨b0, tl, hb0, hb1⟩ : ∃ b0 tl, m.bytes = b0 :: tl ∧ (128 ≤ b0.toNat ∧ b0.toNat < 192) := by
    refine ⟨_, _, rfl, ?_⟩
    have key : ∀ o : OpCode, 128 ≤ (Frame.byteOne ⟨true, false, false, false, o, []⟩).toNat ∧
        (Frame.byteOne ⟨true, false, false, false, o, []⟩).toNat < 192 := by
      intro o; cases o <;> decide
    exact key (Frame.ofMessage m).opCode
  have hlen2 : (strBytes s).length ≤ (m.bytes ++ strBytes s).length := by simp
  have htake : (m.bytes ++ strBytes s) = (m.bytes ++ strBytes s).take (strBytes s).length ++ (m.bytes ++ strBytes s).drop (strBytes s).length := by
    rw [List.take_append_drop]
  have hl : ((m.bytes ++ strBytes s).take (strBytes s).length).length = (strBytes s).length := by
    rw [List.length_take]; omega
  have hdec := decodeServer_headBytes (a := true) (b := false) (c := false) (d := false) (n := 1)
    (form := if (strBytes s).length < 126 then .short else if (strBytes s).length < 65535 then .medium else .long)
    (p := (m.bytes ++ strBytes s).take (strBytes s).length) (x := (m.bytes ++ strBytes s).drop (strBytes s).length) (by omega)
    (by rw [hl]; exact carries_chosen hlen)
  rw [hl, List.append_assoc, ← htake] at hdec
  refine ⟨_, _, hdec, rfl, ?_⟩
  intro t ht
  simp only at ht
  rw [hb0] at ht
  cases hx : strBytes s with
  | nil => exact hp hx
  | cons y ys =>
    rw [hx] at ht
    simp only [List.cons_append, List.length_cons, List.take_succ_cons] at ht
    exact strBytes_lead ht.symm hb1

/-- non-vacuity: a one-letter text and a pong -/
example : ∃ cs, Merge (frameWrites (Frame.ofMessage (.text "a"))) (frameWrites (Frame.ofMessage (.pong none))) cs ∧
    cs.flatten = [0x81, 1, 0x8a, 0, 97] := by
  refine ⟨[[0x81, 1], [0x8a, 0], [], [97]], ?_, by decide⟩
  have := merge_nest [[0x81, 1]] [[97]] (frameWrites (Frame.ofMessage (.pong none)))
  exact this

end Puck
