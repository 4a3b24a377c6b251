import Verif.Model.MessageClone
import Verif.Props.Message
/-!
# `Message::next` on any reader that can be cloned (C112)
-/
namespace Puck
open Rfc6455

theorem nextLoopClone_shared (W : Nat) (op : OpCode) (payload : Bytes) (raw : Raw) :
    ∃ n, ∀ fuel, n ≤ fuel → nextLoopClone .shared W op fuel payload raw = some (nextLoop W op payload raw) := by
  fun_induction nextLoop W op payload raw
  · rename_i h
    refine ⟨1, fun fuel hf => ?_⟩
    obtain ⟨fuel, rfl⟩ : ∃ m, fuel = m + 1 := ⟨fuel - 1, by omega⟩
    rw [nextLoopClone, h]; rfl
  · rename_i h
    refine ⟨1, fun fuel hf => ?_⟩
    obtain ⟨fuel, rfl⟩ : ∃ m, fuel = m + 1 := ⟨fuel - 1, by omega⟩
    rw [nextLoopClone, h]; rfl
  · rename_i h ht
    refine ⟨1, fun fuel hf => ?_⟩
    obtain ⟨fuel, rfl⟩ : ∃ m, fuel = m + 1 := ⟨fuel - 1, by omega⟩
    rw [nextLoopClone, h]; simp [ht, Cloning.left]
  · rename_i h ht hc
    refine ⟨1, fun fuel hf => ?_⟩
    obtain ⟨fuel, rfl⟩ : ∃ m, fuel = m + 1 := ⟨fuel - 1, by omega⟩
    rw [nextLoopClone, h]; simp [ht, hc, Cloning.left]
  · rename_i h ht hc hfin
    refine ⟨1, fun fuel hf => ?_⟩
    obtain ⟨fuel, rfl⟩ : ∃ m, fuel = m + 1 := ⟨fuel - 1, by omega⟩
    rw [nextLoopClone, h]; simp only [ht, hc, hfin, Cloning.left, if_false, if_true]
  · rename_i h ht hc hfin ih
    obtain ⟨n, ih⟩ := ih
    refine ⟨n + 1, fun fuel hf => ?_⟩
    obtain ⟨fuel, rfl⟩ : ∃ m, fuel = m + 1 := ⟨fuel - 1, by omega⟩
    rw [nextLoopClone, h]
    simp only [ht, hc, hfin, Cloning.left, if_false]
    exact ih fuel (by omega)

theorem nextClone_shared (W : Nat) (raw : Raw) :
    ∃ n, ∀ fuel, n ≤ fuel → Message.nextClone .shared W fuel raw = some (Message.next W raw) := by
  unfold Message.nextClone Message.next
  cases hp : Frame.parse W raw with
  | mk o raw' =>
    cases o with
    | err e => exact ⟨0, fun _ _ => rfl⟩
    | panic => exact ⟨0, fun _ _ => rfl⟩
    | ok first =>
      simp only [Cloning.left]
      by_cases h1 : first.opCode = .terminate
      · exact ⟨0, fun _ _ => by simp [h1]⟩
      · by_cases h2 : first.fin = true
        · exact ⟨0, fun _ _ => by simp [h1, h2]⟩
        · simp only [h1, h2, if_false]
          exact nextLoopClone_shared _ _ _ _

/-- The reads of an in-memory reader that holds `bs`. -/
def inMemory (bs : Bytes) : Raw := if bs = [] then [] else [.data bs]

/-- A frame at the front of the bytes in memory is parsed. -/
theorem parse_inMemory {W : Nat} {f : ClientFrame} {x : Bytes} (hv : f.Valid) (hm : f.payload.length ≤ isizeMax W) :
    ∃ raw', Frame.parse W (inMemory (f.encode ++ x)) = (.ok (frameOf f), raw') := by
  have hne : f.encode ++ x ≠ [] := by simp [ClientFrame.encode, Key.bytes]
  have hr : inMemory (f.encode ++ x) = [.data (f.encode ++ x)] := by simp [inMemory, hne]
  have hlen : 2 + 4 ≤ f.encode.length := by
    simp only [ClientFrame.encode, ClientFrame.head, headBytes, List.length_append, List.length_cons, Key.length_bytes]
    cases f.form <;> simp <;> omega
  have hnb : ∀ j, 0 < j → j < (f.encode ++ x).length → ¬ (inMemory (f.encode ++ x)).Boundary j := by
    intro j h0 hj hb
    rw [hr, ← Buf.bnd_new] at hb
    obtain ⟨_, a, c, h1, h2⟩ := hb
    simp only [List.length_nil, Nat.zero_add] at h1 h2
    cases a with
    | nil => simp [Raw.bytes] at h2; omega
    | cons e a =>
      simp only [List.cons_append, List.cons.injEq] at h1
      obtain ⟨rfl, h1⟩ := h1
      simp only [Raw.bytes, List.length_append] at h2
      simp only [List.length_append] at hj
      omega
  have hw : Win ⟨[], inMemory (f.encode ++ x)⟩ (f.encode ++ x) [] := by
    refine ⟨inMemory (f.encode ++ x), by simp, ?_, ?_, ?_⟩
    · rw [hr]; intro b hb; simp only [List.mem_singleton, Ev.data.injEq] at hb; rw [hb]; exact hne
    · rw [hr]; simp [Raw.Clean]
    · rw [hr]; simp [Raw.bytes]
  have hhead : f.head.length + 4 + f.payload.length = f.encode.length := by simp [ClientFrame.encode, Key.length_bytes]; omega
  by_cases hp : f.payload = []
  · have hw' : Win ⟨[], inMemory (f.encode ++ x)⟩ (f.head ++ (f.key.bytes ++ (mask f.key f.payload ++ x))) [] := by
      simpa [ClientFrame.encode] using hw
    obtain ⟨r, h1, -⟩ := (parse_ok_win (W := W) hv.1 hv.2 hw' (hnb 1 (by omega) (by simp; omega))).1 (by simp [hp])
    exact ⟨r.raw, by rw [h1]; simp [frameOf, hp]⟩
  · have hu : (inMemory (f.encode ++ x)).Unsplit f.head.length := by
      refine ⟨hnb 1 (by omega) (by simp; omega), hnb _ (by omega) ?_, hnb _ (by omega) ?_, hnb _ (by omega) ?_⟩ <;>
        · simp only [List.length_append]; omega
    obtain ⟨r, h1, -⟩ := parse_client_win (W := W) hv hp hw hu hm
    exact ⟨_, h1⟩

/-- **C112 (what holds).** `Message::next` on a reader whose clones share the position (a TCP stream) returns, with what the other theorems say of
`Message.next`.  On bytes in memory (`Cursor`, `&[u8]`) that begin with any valid client frame: a final frame gives its message (or the error),
as on a TCP stream; a frame that is not final gives a protocol violation whatever follows it, unless it is a continuation frame,
and then the call never returns. -/
theorem C112_readers_partial (W : Nat) :
    (∀ raw, ∃ n, ∀ fuel, n ≤ fuel → Message.nextClone .shared W fuel raw = some (Message.next W raw)) ∧
    (∀ (f : ClientFrame) (x : Bytes), f.Valid → f.payload.length ≤ isizeMax W →
      (kindOf f.nibble = .close → ∀ fuel, Message.nextClone .copied W fuel (inMemory (f.encode ++ x)) =
        some (.err .clientSentCloseFrame, inMemory (f.encode ++ x))) ∧
      (f.fin = true → kindOf f.nibble ≠ .close →
        (∀ m, Means (kindOf f.nibble) f.payload m →
          ∀ fuel, Message.nextClone .copied W fuel (inMemory (f.encode ++ x)) = some (.ok m, inMemory (f.encode ++ x))) ∧
        ((¬ ∃ m, Means (kindOf f.nibble) f.payload m) →
          ∀ fuel, Message.nextClone .copied W fuel (inMemory (f.encode ++ x)) =
            some (.err .clientProtocolViolationError, inMemory (f.encode ++ x)))) ∧
      (f.fin = false → kindOf f.nibble ≠ .close → kindOf f.nibble ≠ .continue →
        ∀ fuel, 1 ≤ fuel → Message.nextClone .copied W fuel (inMemory (f.encode ++ x)) =
          some (.err .clientProtocolViolationError, inMemory (f.encode ++ x))) ∧
      (f.fin = false → kindOf f.nibble = .continue →
        ∀ fuel, Message.nextClone .copied W fuel (inMemory (f.encode ++ x)) = none)) := by
  refine ⟨nextClone_shared W, fun f x hv hm => ?_⟩
  obtain ⟨raw', hp⟩ := parse_inMemory (W := W) (x := x) hv hm
  generalize inMemory (f.encode ++ x) = raw at hp
  have hcont : ∀ n, opOf n = .continue ↔ kindOf n = .continue := by
    intro n; unfold opOf; cases kindOf n <;> simp
  have hf : (frameOf f).opCode = opOf f.nibble ∧ (frameOf f).fin = f.fin ∧ (frameOf f).decoded = f.payload := ⟨rfl, rfl, rfl⟩
  refine ⟨?_, ?_, ?_, ?_⟩
  · intro hk fuel
    have : opOf f.nibble = .terminate := opOf_terminate.2 hk
    simp [Message.nextClone, hp, hf.1, this, Cloning.left]
  · intro hfin hk
    have hnt : opOf f.nibble ≠ .terminate := fun h => hk (opOf_terminate.1 h)
    refine ⟨fun m hM fuel => ?_, fun hM fuel => ?_⟩
    · simp only [Message.nextClone, hp, hf.1, hf.2.1, hf.2.2, hfin, if_neg hnt, if_true, Cloning.left, messageOf_means hM]
    · simp only [Message.nextClone, hp, hf.1, hf.2.1, hf.2.2, hfin, if_neg hnt, if_true, Cloning.left, messageOf_none hM]
  · intro hfin hk hkc fuel hfu
    have hnt : opOf f.nibble ≠ .terminate := fun h => hk (opOf_terminate.1 h)
    have hnc : opOf f.nibble ≠ .continue := fun h => hkc ((hcont _).1 h)
    obtain ⟨fuel, rfl⟩ : ∃ m, fuel = m + 1 := ⟨fuel - 1, by omega⟩
    simp [Message.nextClone, nextLoopClone, hp, hf.1, hf.2.1, hfin, hnt, hnc, Cloning.left]
  · intro hfin hk fuel
    have hc : opOf f.nibble = .continue := (hcont _).2 hk
    have loop : ∀ fuel op p, nextLoopClone .copied W op fuel p raw = none := by
      intro fuel
      induction fuel with
      | zero => intros; rfl
      | succ fuel ih =>
        intro op p
        simp [nextLoopClone, hp, hf.1, hf.2.1, hfin, hc, Cloning.left, ih]
    simp [Message.nextClone, hp, hf.1, hf.2.1, hfin, hc, Cloning.left, loop]

/-- `Hel` and `lo`: a text message in two frames. -/
def hel : ClientFrame := ⟨false, false, false, false, 1, (1, 2, 3, 4), strBytes "Hel", .short⟩
def lo : ClientFrame := ⟨true, false, false, false, 0, (5, 6, 7, 8), strBytes "lo", .short⟩

/-- **C112 is false**: on a slice holding the two frames of the message `Hello` (which a TCP stream that delivers them separately turns into that
message) the answer is a protocol violation; and on a slice that begins with an unfinished continuation frame the call does not return. -/
theorem C112_readers_refuted :
    IsMessage .text [hel, lo] ∧ Means .text (payloads [hel, lo]) (.text "Hello") ∧
    Message.next 32 [.data hel.encode, .data lo.encode] = (.ok (.text "Hello"), []) ∧
    (∀ fuel, 1 ≤ fuel → Message.nextClone .copied 32 fuel (inMemory (hel.encode ++ lo.encode)) =
      some (.err .clientProtocolViolationError, inMemory (hel.encode ++ lo.encode))) ∧
    (∀ fuel, Message.nextClone .copied 32 fuel
      (inMemory (ClientFrame.encode ⟨false, false, false, false, 0, (0, 0, 0, 0), [], .short⟩ ++ [])) = none) := by
  have hM : Means .text (payloads [hel, lo]) (.text "Hello") := by
    have : payloads [hel, lo] = strBytes "Hello" := by decide +kernel
    rw [this]
    exact .text _
  have hI : IsMessage .text [hel, lo] := by
    refine ⟨rfl, Or.inr ⟨rfl, ?_⟩⟩
    exact ⟨rfl, Or.inl ⟨rfl, rfl⟩⟩
  have P := (C112_readers_partial 32).2
  refine ⟨hI, hM, ?_, ?_, ?_⟩
  · have := (C13_reassembled 32 .text [⟨hel, [.data hel.encode]⟩, ⟨lo, [.data lo.encode]⟩] [] ?_ (by simp) hI).1 _ hM
    · simpa using this
    · intro d hd
      simp only [List.mem_cons, List.not_mem_nil, or_false] at hd
      rcases hd with rfl | rfl
      · exact ok_single _ (by decide) (by decide +kernel)
      · exact ok_single _ (by decide) (by decide +kernel)
  · exact (P hel lo.encode (by decide) (by decide +kernel)).2.2.1 rfl (by decide) (by decide)
  · exact (P ⟨false, false, false, false, 0, (0, 0, 0, 0), [], .short⟩ [] (by decide) (by decide +kernel)).2.2.2 rfl rfl

end Puck
