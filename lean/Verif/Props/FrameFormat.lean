import Verif.Props.FrameParse
import Verif.Props.Send
/-!
# Writing a frame and reading it back (C12)
-/
namespace Puck
open Rfc6455

theorem opOf_code (o : OpCode) : opOf o.code.toNat = o := by cases o <;> decide

/-- **C12 (writing).** Whatever frame is written (any flags, any opcode, any payload): an RFC 6455 client reads one frame with the same flags, a nibble of the same opcode
class and the same payload, and leaves what follows; the server's own parser reads the frame back if it is empty (the header arriving in one read), and
otherwise refuses it, because it is not masked. -/
theorem C12_format (f : Frame) (h : f.decoded.length < 2 ^ 64) :
    (∀ s s', sendFrame f s = (true, s') → ∃ w n, s'.out = s.out ++ w ∧ n < 16 ∧ opOf n = f.opCode ∧
      ∀ x, decodeServer (w ++ x) = some (⟨f.fin, f.rsv1, f.rsv2, f.rsv3, n, f.decoded⟩, x)) ∧
    (∀ W es rest, Raw.WF es → Raw.Clean es → Raw.bytes es = (sendFrame f ⟨[], none⟩).2.out → ¬ Raw.Boundary es 1 →
      (f.decoded = [] → Frame.parse W (es ++ rest) = (.ok f, rest)) ∧
      (f.decoded ≠ [] → (Frame.parse W es).1 = .err .maskNotSet)) := by
  constructor
  · intro s s' hs
    rw [sendFrame_eq, Sink.writeAll_ok_iff] at hs
    refine ⟨f.bytes, f.opCode.code.toNat, by simp [hs.2], code_lt _, opOf_code _, fun x => ?_⟩
    rw [Frame.bytes_eq, decodeServer_headBytes (code_lt _) (carries_chosen h)]
  · intro W es rest hw hc hb hB
    have hb' : Raw.bytes es = f.bytes := by
      rw [hb, sendFrame_eq]; simp [Sink.writeAll]
    rw [Frame.bytes_eq] at hb'
    constructor
    · intro hd
      rw [hd] at hb'
      have := C11_empty_leaves_key_partial W f.fin f.rsv1 f.rsv2 f.rsv3 f.opCode.code.toNat false .short es rest (code_lt _) hw hc
        (by simpa using hb') hB
      rw [this, opOf_code]
      obtain ⟨a, b, c, d, o, p⟩ := f
      simp only at hd
      rw [hd]
    · intro hd
      have hlen : 0 < f.decoded.length := List.length_pos_iff.2 hd
      refine (C07_unmasked_refused W es f.fin f.rsv1 f.rsv2 f.rsv3 f.opCode.code.toNat _ f.decoded.length hw (code_lt _)
        (carries_chosen h) hlen ?_).1 hB
      have : Raw.avail es = Raw.bytes es := by
        have := Raw.avail_of_split (es := es) (rest := []) hc (Or.inl rfl)
        rwa [List.append_nil] at this
      rw [this, hb']
      exact List.prefix_append _ _

/-- a fragment of a binary message with a reserved bit set; an empty ping -/
example : (∃ w, (sendFrame ⟨false, true, false, false, .binary, [1, 2]⟩ ⟨[], none⟩) = (true, ⟨w, none⟩) ∧
      ∀ x, decodeServer (w ++ x) = some (⟨false, true, false, false, 2, [1, 2]⟩, x)) ∧
    Frame.parse 32 [.data [0x89, 0]] = (.ok ⟨true, false, false, false, .ping, []⟩, []) := by
  refine ⟨⟨[0x42, 2, 1, 2], by decide +kernel, fun x => ?_⟩, ?_⟩
  · obtain ⟨w, n, h1, -, h2, h3⟩ := (C12_format ⟨false, true, false, false, .binary, [1, 2]⟩ (by decide)).1 ⟨[], none⟩ ⟨[0x42, 2, 1, 2], none⟩ (by decide +kernel)
    simp only [List.nil_append] at h1
    have h4 := h3 x
    rw [← h1] at h4
    have : n = 2 := by
      have h5 := h3 []
      rw [← h1] at h5
      simp [decodeServer] at h5
      exact h5.symm
    rw [h4, this]
  · refine ((C12_format ⟨true, false, false, false, .ping, []⟩ (by decide)).2 32 [.data [0x89, 0]] [] (Raw.WF.nil.cons (by simp)) (by simp [Raw.Clean])
      (by decide +kernel) (not_boundary_of ?_)).1 rfl
    intro n hn
    have : n = 0 ∨ n = 1 := by simp at hn; omega
    rcases this with rfl | rfl <;> simp [Raw.bytes]

end Puck
