import Verif.Lemmas.FrameOk
/-!
# Properties of `Frame::parse` (C04 - C12)
-/
namespace Puck
open Rfc6455

/-! ## C04 -/

/-- **C04.** A complete masked frame with a payload, arriving in any segmentation that splits neither
the first two bytes nor the mask key, followed by any bytes, errors or end of stream, is decoded to
exactly what the client sent (`hmem`: the payload fits in a `Vec` of the target). -/
theorem C04_client_frame_decoded (W : Nat) (f : ClientFrame) (raw : Raw) (hv : f.Valid)
    (hne : f.payload ≠ []) (hwf : raw.WF) (hpre : f.encode <+: raw.avail)
    (hseg : raw.Unsplit f.head.length) (hmem : f.payload.length ≤ isizeMax W) :
    (Frame.parse W raw).1 = .ok (frameOf f) := by
  obtain ⟨rest, h1, _, _⟩ := raw.win hwf
  obtain ⟨x, hx⟩ := hpre
  rw [← hx] at h1
  obtain ⟨r, h2, _⟩ := parse_client_win hv hne h1 hseg hmem
  rw [h2]

/-- A text frame "Hi" with key 1 2 3 4. -/
def demoFrame : ClientFrame := ⟨true, false, false, false, 1, (1, 2, 3, 4), [72, 105], .short⟩

/-- Boundaries of a given stream are decidable. -/
theorem not_boundary_of {raw : Raw} {k : Nat} (h : ∀ n, n ≤ raw.length → (Raw.bytes (raw.take n)).length ≠ k) :
    ¬ raw.Boundary k := by
  rintro ⟨_, a, c, rfl, h2⟩
  exact h a.length (by simp) (by simpa using h2)

theorem boundary_of {raw : Raw} {k : Nat} (n : Nat) (hk : 0 < k)
    (h : (Raw.bytes (raw.take n)).length = k) : raw.Boundary k :=
  ⟨hk, raw.take n, raw.drop n, by simp, h⟩

/-- non-vacuity: the frame arrives in three reads, with more bytes and an error after it. -/
example : ∃ raw : Raw, raw.WF ∧ demoFrame.Valid ∧ demoFrame.payload ≠ [] ∧
    demoFrame.encode <+: raw.avail ∧ raw.Unsplit demoFrame.head.length ∧
    demoFrame.payload.length ≤ isizeMax 32 ∧ raw.length = 4 := by
  refine ⟨[.data [129, 130], .data [1, 2, 3, 4, 72 ^^^ 1], .data [105 ^^^ 2, 7], .fail], ?_, by decide,
    by decide, by decide, ⟨?_, ?_, ?_, ?_⟩, by decide, rfl⟩
  · intro b hb; simp at hb; rcases hb with rfl | rfl | rfl <;> simp
  all_goals exact not_boundary_of (by decide)

/-! ## C05 -/

/-- **C05 is false**: the same bytes, split between the two header bytes, give a different result. -/
theorem C05_segmentation_refuted : ∃ raw₁ raw₂ : Raw, raw₁.WF ∧ raw₂.WF ∧ raw₁.Clean ∧ raw₂.Clean ∧
    raw₁.bytes = raw₂.bytes ∧ raw₁.bytes = demoFrame.encode ∧
    ∀ W, 32 ≤ W → (Frame.parse W raw₁).1 = .ok (frameOf demoFrame) ∧
      (Frame.parse W raw₂).1 = .err .insufficientData := by
  refine ⟨[.data demoFrame.encode], [.data [129], .data (demoFrame.encode.drop 1)], ?_, ?_, by
    simp [Raw.Clean], by simp [Raw.Clean], by decide, by decide, ?_⟩
  · intro b hb; simp at hb; subst hb; decide
  · intro b hb; simp at hb; rcases hb with rfl | rfl <;> decide
  intro W hW
  have h2 : 2 ^ 31 ≤ 2 ^ (W - 1) := Nat.pow_le_pow_right (by omega) (by omega)
  constructor
  · apply C04_client_frame_decoded W demoFrame _ (by decide) (by decide)
    · intro b hb; simp at hb; subst hb; decide
    · decide
    · exact ⟨not_boundary_of (by decide), not_boundary_of (by decide), not_boundary_of (by decide),
        not_boundary_of (by decide)⟩
    · show 2 ≤ isizeMax W
      unfold isizeMax; omega
  · rfl

/-- **C05, the exact set of harmful splits**: for a complete frame with a payload, parsing gives the
frame iff no read boundary falls inside the first two bytes or inside the mask key, and otherwise it
is `InsufficientData`. -/
theorem C05_segmentation_partial (W : Nat) (f : ClientFrame) (raw : Raw) (hv : f.Valid)
    (hne : f.payload ≠ []) (hwf : raw.WF) (hpre : f.encode <+: raw.avail)
    (hmem : f.payload.length ≤ isizeMax W) :
    (raw.Unsplit f.head.length ∧ (Frame.parse W raw).1 = .ok (frameOf f)) ∨
    (¬ raw.Unsplit f.head.length ∧ (Frame.parse W raw).1 = .err .insufficientData) := by
  by_cases hu : raw.Unsplit f.head.length
  · exact Or.inl ⟨hu, C04_client_frame_decoded W f raw hv hne hwf hpre hu hmem⟩
  · refine Or.inr ⟨hu, ?_⟩
    obtain ⟨x, hx⟩ := hpre
    have hav : raw.avail = f.head ++ (f.key.bytes ++ (mask f.key f.payload ++ x)) := by
      rw [← hx]; simp [ClientFrame.encode]
    rw [parse_head hwf hv.1 hv.2 hav]
    have hL : f.payload.length ≠ 0 := by simpa using hne
    by_cases h1 : raw.Boundary 1
    · simp [h1]
    · have h2 : raw.Boundary (f.head.length + 1) ∨ raw.Boundary (f.head.length + 2) ∨
          raw.Boundary (f.head.length + 3) := by
        by_cases a1 : raw.Boundary (f.head.length + 1)
        · exact Or.inl a1
        by_cases a2 : raw.Boundary (f.head.length + 2)
        · exact Or.inr (Or.inl a2)
        by_cases a3 : raw.Boundary (f.head.length + 3)
        · exact Or.inr (Or.inr a3)
        exact absurd ⟨h1, a1, a2, a3⟩ hu
      have hne2 : f.key.bytes ++ (mask f.key f.payload ++ x) ≠ [] := by simp [Key.bytes]
      unfold ClientFrame.head at h2
      simp only [h1, hL, if_false, payloadRef, hne2]
      rw [if_pos h2]; simp

open Classical in
/-- **C05 for arbitrary bytes (garbage included)**: two segmentations of the same available bytes that
agree on whether the few critical offsets (1, and the three inside the mask key after a header of 2, 4
or 10 bytes) are read boundaries, give the same result. -/
theorem C05_same_bytes_partial (W : Nat) (raw₁ raw₂ : Raw) (h₁ : raw₁.WF) (h₂ : raw₂.WF)
    (hav : raw₁.avail = raw₂.avail) (hcl : raw₁.Clean ↔ raw₂.Clean)
    (hB : ∀ k ∈ [1, 3, 4, 5, 6, 7, 11, 12, 13], raw₁.Boundary k ↔ raw₂.Boundary k) :
    (Frame.parse W raw₁).1 = (Frame.parse W raw₂).1 := by
  rw [parse_eval W raw₁ h₁, parse_eval W raw₂ h₂, hav]
  simp only [List.mem_cons, List.not_mem_nil, or_false] at hB
  unfold parseRef
  match raw₂.avail with
  | [] => by_cases h : raw₂.Clean <;> simp [h, hcl]
  | [_] => rfl
  | b0 :: b1 :: tl =>
    have hB1 := hB 1 (by simp)
    by_cases h1 : raw₂.Boundary 1
    · simp [h1, hB1]
    have h1' : ¬ raw₁.Boundary 1 := by rw [hB1]; exact h1
    simp only [h1, h1', if_false]
    cases hlen : lenOf b1 tl with
    | none => rfl
    | some p =>
      obtain ⟨L, k⟩ := p
      have hk : k = 0 ∨ k = 2 ∨ k = 8 := by
        unfold lenOf at hlen
        split at hlen
        · split at hlen <;> simp at hlen <;> omega
        · split at hlen
          · split at hlen <;> simp at hlen <;> omega
          · simp at hlen; omega
      have hs : (raw₁.Boundary (2 + k + 1) ∨ raw₁.Boundary (2 + k + 2) ∨ raw₁.Boundary (2 + k + 3)) =
          (raw₂.Boundary (2 + k + 1) ∨ raw₂.Boundary (2 + k + 2) ∨ raw₂.Boundary (2 + k + 3)) := by
        rw [hB (2 + k + 1) (by omega), hB (2 + k + 2) (by omega), hB (2 + k + 3) (by omega)]
      have hcl' : raw₁.Clean = raw₂.Clean := propext hcl
      have hp : payloadRef W (b0.toNat / 128 % 2 == 1) L (tl.drop k) raw₁.Clean
          (raw₁.Boundary (2 + k + 1) ∨ raw₁.Boundary (2 + k + 2) ∨ raw₁.Boundary (2 + k + 3)) =
          payloadRef W (b0.toNat / 128 % 2 == 1) L (tl.drop k) raw₂.Clean
          (raw₂.Boundary (2 + k + 1) ∨ raw₂.Boundary (2 + k + 2) ∨ raw₂.Boundary (2 + k + 3)) := by
        congr 1
      simp only [hp]

/-- non-vacuity: two different segmentations meeting the hypotheses. -/
example : ∃ raw₁ raw₂ : Raw, raw₁ ≠ raw₂ ∧ raw₁.WF ∧ raw₂.WF ∧ raw₁.avail = raw₂.avail ∧
    (raw₁.Clean ↔ raw₂.Clean) ∧
    ∀ k ∈ [1, 3, 4, 5, 6, 7, 11, 12, 13], raw₁.Boundary k ↔ raw₂.Boundary k := by
  refine ⟨[.data demoFrame.encode], [.data (demoFrame.encode.take 2), .data (demoFrame.encode.drop 2)],
    by decide, ?_, ?_, by decide, by simp [Raw.Clean], ?_⟩
  · intro b hb; simp at hb; subst hb; decide
  · intro b hb; simp at hb; rcases hb with rfl | rfl <;> decide
  · intro k hk
    have a1 : ¬ Raw.Boundary [.data demoFrame.encode] k := by
      apply not_boundary_of
      revert k; decide
    have a2 : ¬ Raw.Boundary [.data (demoFrame.encode.take 2), .data (demoFrame.encode.drop 2)] k := by
      clear a1
      apply not_boundary_of
      revert k; decide
    exact ⟨fun h => absurd h a1, fun h => absurd h a2⟩

/-! ## C06 -/

/-- Every announced length at the start of the stream is smaller than `2^W`. -/
def AnnouncesBelow (W : Nat) (bs : Bytes) : Prop :=
  ∀ a b c d n form L, n < 16 → Form.Carries form L → headBytes a b c d n true form L <+: bs → L < 2 ^ W

/-- **C06** for any target, provided the announced length fits in a `usize`. -/
theorem C06_sound_partial (W : Nat) (raw : Raw) (fr : Frame) (hwf : raw.WF)
    (hann : AnnouncesBelow W raw.avail) (h : (Frame.parse W raw).1 = .ok fr) :
    Encodes raw.avail fr := by
  rw [parse_eval W raw hwf] at h
  unfold parseRef at h
  match hav : raw.avail with
  | [] => rw [hav] at h; simp only at h; split at h <;> cases h
  | [_] => rw [hav] at h; cases h
  | b0 :: b1 :: tl =>
    rw [hav] at h
    simp only at h
    split at h
    · cases h
    cases hlen : lenOf b1 tl with
    | none => rw [hlen] at h; cases h
    | some p =>
      obtain ⟨L, k⟩ := p
      rw [hlen] at h
      simp only at h
      obtain ⟨hk, form, hcar, hhead⟩ := headBytes_of_lenOf (b0 := b0) hlen
      have hpre : b0 :: b1 :: tl.take k <+: b0 :: b1 :: tl :=
        (List.cons_prefix_cons.2 ⟨rfl, List.cons_prefix_cons.2 ⟨rfl, List.take_prefix _ _⟩⟩)
      have hnib : b0.toNat % 16 < 16 := Nat.mod_lt _ (by omega)
      by_cases hL : L = 0
      · subst hL
        simp only [if_true] at h
        cases h
        exact Or.inr ⟨_, _, _, _, _, _, form, hnib, hcar, by rw [hhead]; exact hpre, rfl⟩
      simp only [hL, if_false] at h
      split at h
      · cases h
      rename_i hm
      simp only [hm, decide_false, Bool.not_false] at hhead
      have hLW : L < 2 ^ W := by
        apply hann _ _ _ _ _ form L hnib hcar
        rw [hav, hhead]; exact hpre
      have hmod : L % 2 ^ W = L := Nat.mod_eq_of_lt hLW
      have key : ∀ body : Bytes, 4 ≤ (tl.drop k).length → body <+: (tl.drop k).drop 4 → body.length = L →
          Encodes (b0 :: b1 :: tl) ⟨b0.toNat / 128 % 2 == 1, b0.toNat / 64 % 2 == 1,
            b0.toNat / 32 % 2 == 1, b0.toNat / 16 % 2 == 1, opOf (b0.toNat % 16),
            unmask ((tl.drop k).take 4) body⟩ := by
        intro body h4 hb hbl
        obtain ⟨kk, hkk⟩ := key_of_take h4
        refine Or.inl ⟨⟨b0.toNat / 128 % 2 == 1, b0.toNat / 64 % 2 == 1,
            b0.toNat / 32 % 2 == 1, b0.toNat / 16 % 2 == 1, b0.toNat % 16, kk, mask kk body, form⟩, ⟨hnib, ?_⟩, ?_, ?_, ?_⟩
        · show form.Carries (mask kk body).length
          rw [length_mask, hbl]; exact hcar
        · rw [← List.length_pos_iff, length_mask]; omega
        · simp only [ClientFrame.encode, ClientFrame.head, length_mask, hbl, hhead, mask_mask]
          rw [← hkk]
          obtain ⟨z, hz⟩ := hb
          refine ⟨z, ?_⟩
          simp only [List.cons_append, List.append_assoc, hz]
          congr 2
          rw [List.take_append_drop, List.take_append_drop]
        · rw [hkk, unmask_eq]; rfl
      have h4 : ¬ (raw.Boundary (2 + k + 1) ∨ raw.Boundary (2 + k + 2) ∨ raw.Boundary (2 + k + 3)) →
          tl.drop k ≠ [] → 4 ≤ (tl.drop k).length := by
        intro hs hne
        apply Nat.le_of_not_lt
        intro hlt
        have hbe : raw.Boundary raw.avail.length := by
          obtain ⟨rest, w1, _, _⟩ := raw.win hwf
          have := w1.bnd_end (by rw [hav]; simp)
          rwa [Buf.bnd_new] at this
        rw [hav] at hbe
        have hlp := List.length_pos_iff.2 hne
        rw [List.length_drop] at hlp hlt
        have e : (b0 :: b1 :: tl).length = 2 + k + (tl.length - k) := by simp; omega
        rw [e] at hbe
        rcases (by omega : tl.length - k = 1 ∨ tl.length - k = 2 ∨ tl.length - k = 3) with q | q | q <;>
          (rw [q] at hbe; exact hs (by simp [hbe]))
      split at h
      · rename_i p hp
        cases h
        obtain ⟨hne, hs, -, ⟨hle, -, rfl⟩ | ⟨-, -, hq, rfl⟩⟩ := payloadRef_ok hp
        · exact key _ (h4 hs hne) (List.take_prefix _ _) (by rw [List.length_take]; omega)
        · exact key _ (h4 hs hne) List.prefix_rfl (by rw [hq, hmod])
      · cases h
      · cases h

/-- **C06** on targets with a 64-bit (or wider) `usize`: for every byte stream, segmentation and error
schedule, a successful parse is backed by an encoding of exactly that frame. -/
theorem C06_sound_64 (W : Nat) (hW : 64 ≤ W) (raw : Raw) (fr : Frame) (hwf : raw.WF)
    (h : (Frame.parse W raw).1 = .ok fr) : Encodes raw.avail fr := by
  apply C06_sound_partial W raw fr hwf _ h
  intro a b c d n form L _ hc _
  have h2 : 2 ^ 64 ≤ 2 ^ W := Nat.pow_le_pow_right (by omega) hW
  cases form <;> simp only [Form.Carries] at hc <;> omega

/-- non-vacuity: a successful parse of a stream with several reads. -/
example : (Frame.parse 64 [.data [129, 130], .data [1, 2, 3, 4, 73], .data [107, 7]]).1 =
    .ok (frameOf demoFrame) := by rfl

/-- the announced length is determined by the bytes -/
theorem announced_unique {a b c d a' b' c' d' : Bool} {n n' : Nat} {m m' : Bool} {form form' : Form} {L L' : Nat} {x : Bytes}
    (hc : form.Carries L) (hc' : form'.Carries L') (h : headBytes a b c d n m form L <+: x) (h' : headBytes a' b' c' d' n' m' form' L' <+: x) :
    L = L' ∧ m = m' := by
  obtain ⟨b1, ext, h1, h2, h3⟩ := lenOf_headBytes (a := a) (b := b) (c := c) (d := d) (n := n) (m := m) hc
  obtain ⟨b1', ext', h1', h2', h3'⟩ := lenOf_headBytes (a := a') (b := b') (c := c') (d := d') (n := n') (m := m') hc'
  rw [h1] at h
  rw [h1'] at h'
  obtain ⟨z, rfl⟩ := h
  obtain ⟨z', hz'⟩ := h'
  simp only [List.cons_append, List.cons.injEq] at hz'
  obtain ⟨-, rfl, hz⟩ := hz'
  have e := h2 z
  rw [← hz, h2' z'] at e
  simp only [Option.some.injEq, Prod.mk.injEq] at e
  refine ⟨e.1.symm, ?_⟩
  cases m <;> cases m' <;> simp_all

open Classical in
/-- **C06, exactly**: on every target, what a successful parse returns is backed by an encoding of exactly that frame if and only if the
announced length fits in a `usize`. -/
theorem C06_exact_partial (W : Nat) (raw : Raw) (fr : Frame) (hwf : raw.WF) (h : (Frame.parse W raw).1 = .ok fr) :
    Encodes raw.avail fr ↔ AnnouncesBelow W raw.avail := by
  refine ⟨?_, fun hann => C06_sound_partial W raw fr hwf hann h⟩
  intro he a b c d n form L hn hc hpre
  apply Nat.lt_of_not_le
  intro hL
  have hL0 : L ≠ 0 := by have : 0 < 2 ^ W := Nat.pow_pos (by omega); omega
  obtain ⟨x, hx⟩ := hpre
  rw [parse_head hwf hn hc hx.symm] at h
  by_cases h1 : raw.Boundary 1
  · simp only [h1, if_true] at h; cases h
  simp only [h1, hL0, if_false, Bool.true_eq_false] at h
  have hlen : fr.decoded.length = L % 2 ^ W := by
    split at h
    · rename_i p hp
      cases h
      obtain ⟨-, -, h3, ⟨-, h4, -⟩ | ⟨-, -, h4, rfl⟩⟩ := payloadRef_ok hp
      · have := isizeMax_lt W; omega
      · simp only [unmask, List.length_mapIdx]
        exact h4
    · cases h
    · cases h
  have hlt : L % 2 ^ W < L := Nat.lt_of_lt_of_le (Nat.mod_lt _ (Nat.pow_pos (by omega))) hL
  have hpre : headBytes a b c d n true form L <+: raw.avail := ⟨x, hx⟩
  rcases he with ⟨f, hv, hne, hp, rfl⟩ | ⟨a', b', c', d', n', m, form', hn', hc', hp, rfl⟩
  · have hh : f.head <+: raw.avail := by
      refine List.IsPrefix.trans ?_ hp
      unfold ClientFrame.encode; rw [List.append_assoc]; exact List.prefix_append _ _
    have := (announced_unique hc hv.2 hpre hh).1
    simp only [frameOf] at hlen
    omega
  · exact hL0 (announced_unique hc hc' hpre hp).1

/-- The bytes of the 32-bit counterexample: a final binary frame announcing `2^32 + 5` bytes of which
only five arrive. -/
def wrapBytes : Bytes := headBytes true false false false 2 true .long (2 ^ 32 + 5) ++ [0, 0, 0, 0, 1, 2, 3, 4, 5]

/-- **C06 (and C08) are false on 32-bit targets** (wasm32 is the project's default target): the
announced length is truncated to `usize`, so five of `2^32 + 5` announced bytes are accepted as the
whole payload of a final frame. -/
theorem C06_sound_refuted : (Frame.parse 32 [.data wrapBytes]).1 =
      .ok ⟨true, false, false, false, .binary, [1, 2, 3, 4, 5]⟩ ∧
    ¬ Encodes wrapBytes ⟨true, false, false, false, .binary, [1, 2, 3, 4, 5]⟩ := by
  constructor
  · decide +kernel
  · rintro (⟨f, hv, hne, hpre, hfr⟩ | ⟨a, b, c, d, n, m, form, hn, hc, hpre, hfr⟩)
    · obtain ⟨hn, hc⟩ := hv
      have hp : f.payload.length = 5 := by
        have := congrArg (fun fr => fr.decoded.length) hfr; simpa [frameOf] using this.symm
      obtain ⟨b1, ext, h1, h2, h3⟩ := lenOf_headBytes (a := f.fin) (b := f.rsv1) (c := f.rsv2)
        (d := f.rsv3) (n := f.nibble) (m := true) hc
      have hx : f.head <+: wrapBytes := by
        refine List.IsPrefix.trans ?_ hpre
        unfold ClientFrame.encode; rw [List.append_assoc]; exact List.prefix_append _ _
      unfold ClientFrame.head at hx
      rw [h1] at hx
      obtain ⟨z, hz⟩ := hx
      have hw : wrapBytes = 130 :: 255 :: [0, 0, 0, 1, 0, 0, 0, 5, 0, 0, 0, 0, 1, 2, 3, 4, 5] := by
        decide +kernel
      rw [hw] at hz
      simp only [List.cons_append, List.cons.injEq] at hz
      obtain ⟨_, hb1, hz⟩ := hz
      have := h2 z
      rw [hz, hb1, hp] at this
      have h4 : lenOf 255 [0, 0, 0, 1, 0, 0, 0, 5, 0, 0, 0, 0, 1, 2, 3, 4, 5] = some (2 ^ 32 + 5, 8) := by
        decide +kernel
      rw [h4] at this
      simp at this
    · have := congrArg (fun fr => fr.decoded.length) hfr; simp at this

/-! ## C07 -/

/-- **C07.** A header without the mask bit announcing a non-empty payload is refused, whatever follows:
with `MaskNotSet` (or `InsufficientData` if the network split the two header bytes). -/
theorem C07_unmasked_refused (W : Nat) (raw : Raw) (a b c d : Bool) (n : Nat) (form : Form) (L : Nat)
    (hwf : raw.WF) (hn : n < 16) (hc : form.Carries L) (hL : 0 < L)
    (hpre : headBytes a b c d n false form L <+: raw.avail) :
    (¬ raw.Boundary 1 → (Frame.parse W raw).1 = .err .maskNotSet) ∧
    (raw.Boundary 1 → (Frame.parse W raw).1 = .err .insufficientData) := by
  obtain ⟨x, hx⟩ := hpre
  rw [parse_head hwf hn hc hx.symm]
  have : L ≠ 0 := by omega
  constructor <;> intro h <;> simp [h, this]

example : ∃ raw : Raw, raw.WF ∧ headBytes true false false false 1 false .short 2 <+: raw.avail ∧
    ¬ raw.Boundary 1 ∧ Form.short.Carries 2 :=
  ⟨[.data [129, 2, 72, 105]], by intro b hb; simp at hb; subst hb; simp, by decide,
    not_boundary_of (by decide), by decide⟩

/-! ## C08 -/

theorem lenOf_none_of_short {b1 : UInt8} {t t' : Bytes} {L k : Nat} (h : lenOf b1 t = some (L, k))
    (hl : t'.length < k) : lenOf b1 t' = none := by
  unfold lenOf at h ⊢
  by_cases h126 : b1.toNat % 128 = 126
  · simp only [h126, if_true] at h ⊢
    split at h <;> simp at h
    rw [if_neg (by omega)]
  · by_cases h127 : b1.toNat % 128 = 127
    · simp only [h127, if_true] at h ⊢
      rw [if_neg (by omega)] at h
      split at h <;> simp at h
      rw [if_neg (by omega), if_neg (by omega)]
    · simp only [h126, h127, if_false] at h
      simp at h; omega

/-- **C08** (announced length at most `isize::MAX` of the target): if the connection delivers only a
strict prefix of a frame and then ends or fails, the result is an error, in every segmentation. -/
theorem C08_truncated_partial (W : Nat) (f : ClientFrame) (raw : Raw) (hv : f.Valid)
    (hne : f.payload ≠ []) (hwf : raw.WF) (hpre : raw.avail <+: f.encode)
    (hlt : raw.avail.length < f.encode.length) (hmem : f.payload.length ≤ isizeMax W) :
    ∃ e, (Frame.parse W raw).1 = .err e := by
  obtain ⟨b1, ext, h1, h2, h3⟩ := lenOf_headBytes (a := f.fin) (b := f.rsv1) (c := f.rsv2)
    (d := f.rsv3) (n := f.nibble) (m := true) hv.2
  have hL : f.payload.length ≠ 0 := by simpa using hne
  have hmod : f.payload.length % 2 ^ W = f.payload.length :=
    Nat.mod_eq_of_lt (Nat.lt_of_le_of_lt hmem (isizeMax_lt W))
  have henc : f.encode = UInt8.ofNat (firstByte f.fin f.rsv1 f.rsv2 f.rsv3 f.nibble) :: b1 ::
      (ext ++ (f.key.bytes ++ mask f.key f.payload)) := by
    have : f.head = _ := h1
    simp [ClientFrame.encode, this]
  rw [parse_eval W raw hwf]
  unfold parseRef
  match hav : raw.avail with
  | [] => simp only; split <;> exact ⟨_, rfl⟩
  | [_] => exact ⟨_, rfl⟩
  | c0 :: c1 :: tl =>
    rw [hav, henc] at hpre
    rw [hav, henc] at hlt
    obtain ⟨hc0, hpre1⟩ := List.cons_prefix_cons.1 hpre
    obtain ⟨hc1, hpre2⟩ := List.cons_prefix_cons.1 hpre1
    subst hc1
    simp only
    split
    · exact ⟨_, rfl⟩
    by_cases hk : tl.length < ext.length
    · rw [lenOf_none_of_short (by simpa using h2 []) hk]; exact ⟨_, rfl⟩
    · obtain ⟨t, rfl⟩ : ∃ t, tl = ext ++ t := by
        have h' : ext <+: tl := List.prefix_of_prefix_length_le
          (List.prefix_append ext (f.key.bytes ++ mask f.key f.payload)) hpre2 (by omega)
        exact ⟨_, h'.choose_spec.symm⟩
      rw [h2 t]
      simp only [hL, if_false, List.drop_left]
      split
      · exact ⟨_, rfl⟩
      have hlen : (t.drop 4).length < f.payload.length := by
        simp at hlt
        rw [List.length_drop]
        have := List.length_pos_iff.2 hne
        omega
      have hnle : ¬ f.payload.length ≤ (t.drop 4).length := by omega
      split
      · rename_i p hp
        obtain ⟨-, -, -, ⟨h, -⟩ | ⟨-, -, h, -⟩⟩ := payloadRef_ok hp
        · omega
        · rw [hmod] at h; omega
      · exact ⟨_, rfl⟩
      · rename_i hp
        obtain ⟨-, -, h | h⟩ := payloadRef_panic.1 hp
        · rw [hmod] at h; omega
        · omega

/-- **C08, which error**: header and key complete and unsplit, connection closed cleanly with `body`
shorter than announced: `WaitForNextFrame(missing)` for a non-final frame, `IoError` for a final one. -/
theorem C08_truncated_error_partial (W : Nat) (raw : Raw) (a b c d : Bool) (n : Nat) (form : Form)
    (L : Nat) (key : Key) (body : Bytes) (hwf : raw.WF) (hn : n < 16) (hc : form.Carries L)
    (hmem : L ≤ isizeMax W) (hclean : raw.Clean)
    (hav : raw.avail = headBytes a b c d n true form L ++ key.bytes ++ body) (hlt : body.length < L)
    (hseg : raw.Unsplit (headBytes a b c d n true form L).length) :
    (Frame.parse W raw).1 =
      if a then .err .ioError else .err (.waitForNextFrame (L - body.length)) := by
  have hL : L ≠ 0 := by omega
  have hmod : L % 2 ^ W = L := Nat.mod_eq_of_lt (Nat.lt_of_le_of_lt hmem (isizeMax_lt W))
  rw [parse_head hwf hn hc (by rw [hav, List.append_assoc])]
  obtain ⟨u0, u1, u2, u3⟩ := hseg
  have hne : key.bytes ++ body ≠ [] := by simp [Key.bytes]
  have hd : (key.bytes ++ body).drop 4 = body := List.drop_left' (Key.length_bytes key)
  have e1 : ¬ L ≤ body.length := by omega
  have e2 : ¬ L > isizeMax W := by omega
  have e3 : ¬ min L body.length > isizeMax W := by omega
  have e4 : body.length ≠ L := by omega
  simp only [u0, hL, if_false, payloadRef, hne, u1, u2, u3, or_self, hmod, e2, hd, e1, hclean, e3, if_true]
  cases a <;> simp [e4]

/-- **C08, exactly**: the same for any announced length.  A truncated frame is delivered iff what has arrived happens to be as long as the announced
length truncated to `usize`; and there are the panics of C09. -/
theorem C08_exact_partial (W : Nat) (raw : Raw) (a b c d : Bool) (n : Nat) (form : Form)
    (L : Nat) (key : Key) (body : Bytes) (hwf : raw.WF) (hn : n < 16) (hc : form.Carries L) (hclean : raw.Clean)
    (hav : raw.avail = headBytes a b c d n true form L ++ key.bytes ++ body) (hlt : body.length < L)
    (hseg : raw.Unsplit (headBytes a b c d n true form L).length) :
    (Frame.parse W raw).1 =
      if 2 ^ (W - 1) ≤ L % 2 ^ W ∨ 2 ^ (W - 1) ≤ body.length then .panic
      else if body.length = L % 2 ^ W then .ok ⟨a, b, c, d, opOf n, mask key body⟩
      else if a then .err .ioError else .err (.waitForNextFrame (L - body.length)) := by
  have hL : L ≠ 0 := by omega
  rw [parse_head hwf hn hc (by rw [hav, List.append_assoc])]
  obtain ⟨u0, u1, u2, u3⟩ := hseg
  have hne : key.bytes ++ body ≠ [] := by simp [Key.bytes]
  have hd : (key.bytes ++ body).drop 4 = body := List.drop_left' (Key.length_bytes key)
  have ht : (key.bytes ++ body).take 4 = key.bytes := List.take_left' (Key.length_bytes key)
  have e1 : ¬ L ≤ body.length := by omega
  have hm : min L body.length = body.length := by omega
  simp only [u0, hL, if_false, payloadRef, hne, u1, u2, u3, or_self, hd, ht, e1, hclean, if_true, hm, gt_iff_lt, isizeMax_lt_iff]
  by_cases p1 : 2 ^ (W - 1) ≤ L % 2 ^ W
  · simp [p1]
  by_cases p2 : 2 ^ (W - 1) ≤ body.length
  · simp [p2]
  by_cases p3 : body.length = L % 2 ^ W
  · simp [p1, p3, unmask_eq]
  · cases a <;> simp [p1, p2, p3]

/-- non-vacuity: five of 2^32 + 5 bytes are delivered as a frame, four are not -/
example : (Frame.parse 32 [.data (headBytes true false false false 2 true .long (2 ^ 32 + 5) ++ [0, 0, 0, 0] ++ [1, 2, 3, 4, 5])]).1 =
      .ok ⟨true, false, false, false, .binary, [1, 2, 3, 4, 5]⟩ ∧
    (Frame.parse 32 [.data (headBytes true false false false 2 true .long (2 ^ 32 + 5) ++ [0, 0, 0, 0] ++ [1, 2, 3, 4])]).1 = .err .ioError := by
  decide +kernel

/-- non-vacuity: a non-final frame announcing five bytes of which two arrive. -/
example : ∃ raw : Raw, raw.WF ∧ raw.Clean ∧
    raw.avail = headBytes false false false false 1 true .short 5 ++ Key.bytes (9, 9, 9, 9) ++ [1, 2] ∧
    raw.Unsplit (headBytes false false false false 1 true .short 5).length ∧
    (Frame.parse 32 raw).1 = .err (.waitForNextFrame 3) :=
  ⟨[.data [1, 133, 9, 9, 9, 9], .data [1, 2]], by intro b hb; simp at hb; rcases hb with rfl | rfl <;> simp,
    by simp [Raw.Clean], by decide, ⟨not_boundary_of (by decide), not_boundary_of (by decide),
    not_boundary_of (by decide), not_boundary_of (by decide)⟩, by decide +kernel⟩

/-- **C08 is false on 32-bit targets**: see `C06_sound_refuted`; the stream carries 5 of the announced
`2^32 + 5` bytes and a frame is delivered. -/
theorem C08_truncated_refuted : ∃ fr, (Frame.parse 32 [.data wrapBytes]).1 = .ok fr ∧
    wrapBytes = headBytes true false false false 2 true .long (2 ^ 32 + 5) ++ Key.bytes (0, 0, 0, 0) ++
      [1, 2, 3, 4, 5] :=
  ⟨_, C06_sound_refuted.1, rfl⟩

/-! ## C09 -/

/-- **C09 is false**: an announced length with the top bit of `usize` set panics (capacity overflow),
on 32-bit targets (`2^31`) and on 64-bit targets (`2^63`): fourteen bytes suffice. -/
theorem C09_no_panic_refuted :
    (Frame.parse 32 [.data (headBytes true false false false 2 true .long (2 ^ 31) ++ [0, 0, 0, 0])]).1 = .panic ∧
    (Frame.parse 64 [.data (headBytes true false false false 2 true .long (2 ^ 63) ++ [0, 0, 0, 0])]).1 = .panic := by
  decide +kernel

/-- **C09, exact condition**: `parse` panics iff the stream starts with a complete, unsplit masked header and key announcing a length `L`
such that `L` truncated to `usize` (`W` bits) exceeds `isize::MAX`, that is, is at least 2^(W-1), or so many bytes of the `L` really arrive. -/
theorem C09_panic_iff_partial (W : Nat) (raw : Raw) (hwf : raw.WF) :
    (Frame.parse W raw).1 = .panic ↔
      ∃ (a b c d : Bool) (n : Nat) (form : Form) (L : Nat) (key : Key) (body : Bytes), n < 16 ∧ form.Carries L ∧
        raw.avail = headBytes a b c d n true form L ++ key.bytes ++ body ∧
        raw.Unsplit (headBytes a b c d n true form L).length ∧
        (2 ^ (W - 1) ≤ L % 2 ^ W ∨ 2 ^ (W - 1) ≤ L ∧ 2 ^ (W - 1) ≤ body.length) := by
  constructor
  · intro h
    rw [parse_eval W raw hwf] at h
    unfold parseRef at h
    match hav : raw.avail with
    | [] => rw [hav] at h; simp only at h; split at h <;> cases h
    | [_] => rw [hav] at h; cases h
    | b0 :: b1 :: tl =>
      rw [hav] at h
      simp only at h
      split at h
      · cases h
      rename_i hb1
      cases hlo : lenOf b1 tl with
      | none => rw [hlo] at h; cases h
      | some p =>
        obtain ⟨L, k⟩ := p
        rw [hlo] at h
        simp only at h
        obtain ⟨hk, form, hcar, hhead⟩ := headBytes_of_lenOf (b0 := b0) hlo
        have hnib : b0.toNat % 16 < 16 := Nat.mod_lt _ (by omega)
        split at h
        · cases h
        split at h
        · cases h
        rename_i hL hm
        simp only [hm, decide_false, Bool.not_false] at hhead
        have hhl := congrArg List.length hhead
        simp only [List.length_cons, List.length_take, Nat.min_eq_left hk] at hhl
        have hbe : raw.Boundary raw.avail.length := by
          obtain ⟨rest, w1, _, _⟩ := raw.win hwf
          have := w1.bnd_end (by rw [hav]; simp)
          rwa [Buf.bnd_new] at this
        split at h
        · cases h
        · cases h
        · rename_i hp
          obtain ⟨hne, hs, hbig⟩ := payloadRef_panic.1 hp
          have h4 : 4 ≤ (tl.drop k).length := by
            apply Nat.le_of_not_lt
            intro hlt
            rw [hav] at hbe
            have hlp := List.length_pos_iff.2 hne
            rw [List.length_drop] at hlp hlt
            have e : (b0 :: b1 :: tl).length = 2 + k + (tl.length - k) := by simp; omega
            rw [e] at hbe
            rcases (by omega : tl.length - k = 1 ∨ tl.length - k = 2 ∨ tl.length - k = 3) with q | q | q <;>
              (rw [q] at hbe; exact hs (by simp [hbe]))
          obtain ⟨kk, hkk⟩ := key_of_take h4
          refine ⟨b0.toNat / 128 % 2 == 1, b0.toNat / 64 % 2 == 1, b0.toNat / 32 % 2 == 1,
            b0.toNat / 16 % 2 == 1, _, form, L, kk, (tl.drop k).drop 4, hnib, hcar, ?_, ?_, ?_⟩
          · rw [hhead, ← hkk]
            simp only [List.cons_append, List.append_assoc]
            rw [List.take_append_drop, List.take_append_drop]
          · rw [hhl, show k + 1 + 1 = 2 + k from by omega]
            refine ⟨hb1, ?_, ?_, ?_⟩ <;> intro hh <;> exact hs (by simp [hh])
          · rw [isizeMax_lt_iff, isizeMax_lt_iff] at hbig
            rcases hbig with h | h
            · exact Or.inl h
            · exact Or.inr ⟨by omega, by omega⟩
  · rintro ⟨a, b, c, d, n, form, L, key, body, hn, hc, hx, ⟨u0, u1, u2, u3⟩, hbig⟩
    rw [List.append_assoc] at hx
    rw [parse_head hwf hn hc hx]
    have hL : L ≠ 0 := by
      rintro rfl
      have : 0 < 2 ^ (W - 1) := Nat.pow_pos (by omega)
      simp at hbig
    have hne : key.bytes ++ body ≠ [] := by simp [Key.bytes]
    have hd : (key.bytes ++ body).drop 4 = body := List.drop_left' (Key.length_bytes key)
    simp only [u0, hL, if_false]
    have hp : ∀ {cl sp : Prop} {i1 : Decidable cl} {i2 : Decidable sp}, ¬ sp → @payloadRef W a L (key.bytes ++ body) cl sp i1 i2 = .panic := by
      intro cl sp i1 i2 h
      refine payloadRef_panic.2 ⟨hne, h, ?_⟩
      rw [hd, isizeMax_lt_iff, isizeMax_lt_iff]
      omega
    rw [hp (by rintro (h | h | h) <;> contradiction)]
    simp

/-- non-vacuity: fourteen bytes, of a length of 2^31 -/
example : ∃ raw : Raw, raw.WF ∧ (Frame.parse 32 raw).1 = .panic :=
  ⟨[.data (headBytes true false false false 2 true .long (2 ^ 31) ++ [0, 0, 0, 0])],
    by intro b hb; simp at hb; subst hb; decide, C09_no_panic_refuted.1⟩

/-! ## C10 -/

/-- Parse `n` frames one after the other from the same stream (each call as in
puck/src/ws/message.rs:27,66), stopping at the first failure. -/
def parseN (W : Nat) : Nat → Raw → List (Outcome ParseFrameError Frame) × Raw
  | 0, raw => ([], raw)
  | n + 1, raw =>
    match Frame.parse W raw with
    | (.ok f, raw') => let (fs, r) := parseN W n raw'; (.ok f :: fs, r)
    | (o, raw') => ([o], raw')

/-- **C10 is false**: whenever two frames arrive in the same read (up to 8 KiB), the second one is
swallowed together with the first parser's read-ahead; the stream looks ended. -/
theorem C10_back_to_back_refuted (W : Nat) (f g : ClientFrame) (hf : f.Valid) (hfp : f.payload ≠ [])
    (hm : f.payload.length ≤ isizeMax W) (hsz : (f.encode ++ g.encode).length ≤ 8192) :
    (parseN W 2 [.data (f.encode ++ g.encode)]).1 = [.ok (frameOf f), .err .insufficientData] := by
  have hne : f.encode ≠ [] := by simp [ClientFrame.encode, ClientFrame.head, headBytes]
  have hhl : 2 ≤ f.head.length ∧ f.head.length + 4 ≤ f.encode.length := by
    unfold ClientFrame.encode ClientFrame.head
    rw [length_headBytes]
    cases f.form <;> simp [length_headBytes] <;> omega
  have hnb : ∀ k, k < (f.encode ++ g.encode).length → ¬ Raw.Boundary [.data (f.encode ++ g.encode)] k := by
    rintro k hk ⟨hk0, a, c, e1, e2⟩
    cases a with
    | nil => simp [Raw.bytes] at e2; omega
    | cons x a =>
      simp at e1
      obtain ⟨rfl, rfl, rfl⟩ := e1
      simp [Raw.bytes] at e2 hk; omega
  have hel : f.encode.length ≤ (f.encode ++ g.encode).length := by simp
  have hu : Raw.Unsplit [.data (f.encode ++ g.encode)] f.head.length :=
    ⟨hnb _ (by omega), hnb _ (by omega), hnb _ (by omega), hnb _ (by omega)⟩
  have hwf : Raw.WF [.data (f.encode ++ g.encode)] := by
    intro b hb; simp at hb; subst hb; simp [hne]
  have hw : Win ⟨[], [.data (f.encode ++ g.encode)]⟩ (f.encode ++ g.encode) [] :=
    ⟨[.data (f.encode ++ g.encode)], rfl, hwf, by simp [Raw.Clean], by simp [Raw.bytes]⟩
  obtain ⟨r, h1, h2⟩ := parse_client_win hf hfp hw hu hm
  -- after the first buffered read nothing is left in the raw stream
  have hraw : r.raw = [] := by
    have := parse_raw_nil W (f.encode ++ g.encode) hsz
    rwa [h1] at this
  simp only [parseN, h1, hraw]
  rfl

/-- non-vacuity: two short frames. -/
example : demoFrame.Valid ∧ demoFrame.payload ≠ [] ∧ demoFrame.payload.length ≤ isizeMax 32 ∧
    (demoFrame.encode ++ demoFrame.encode).length ≤ 8192 := by decide +kernel

/-- Boundaries of a prefix that is long enough. -/
theorem unsplit_append {es rest : Raw} {h : Nat}
    (hl : h + 4 ≤ (Raw.bytes es).length) (h1 : 1 < h) (hu : Raw.Unsplit es h) :
    Raw.Unsplit (es ++ rest) h := by
  have key : ∀ k, k ≤ h + 3 → ¬ Raw.Boundary es k → ¬ Raw.Boundary (es ++ rest) k := by
    rintro k hk hn ⟨h0, a, c, e1, e2⟩
    rcases List.append_eq_append_iff.1 e1 with ⟨x, hx, _⟩ | ⟨x, hx, _⟩
    · subst hx
      simp at e2; omega
    · exact hn ⟨h0, a, x, hx, e2⟩
  exact ⟨key _ (by omega) hu.1, key _ (by omega) hu.2.1, key _ (by omega) hu.2.2.1,
    key _ (by omega) hu.2.2.2⟩

/-! ## C11 -/

/-- **C11, exact behaviour**: for a header announcing an empty payload that arrives in reads of its own,
the parser consumes the header only; a mask key that follows is left in the stream. -/
theorem C11_empty_leaves_key_partial (W : Nat) (a b c d : Bool) (n : Nat) (m : Bool) (form : Form)
    (es rest : Raw) (hn : n < 16) (hw : es.WF) (hc : es.Clean)
    (hb : es.bytes = headBytes a b c d n m form 0) (hB : ¬ Raw.Boundary es 1) :
    Frame.parse W (es ++ rest) = (.ok ⟨a, b, c, d, opOf n, []⟩, rest) := by
  have hwin : Win ⟨[], es ++ rest⟩ (headBytes a b c d n m form 0 ++ []) rest :=
    ⟨es, rfl, hw, hc, by simp [hb]⟩
  have hcar : form.Carries 0 := by cases form <;> decide
  have hlen : 2 ≤ (Raw.bytes es).length := by
    rw [hb, length_headBytes]; cases form <;> simp
  have hB' : ¬ Raw.Boundary (es ++ rest) 1 := by
    rintro ⟨h0, x, y, e1, e2⟩
    rcases List.append_eq_append_iff.1 e1 with ⟨z, hz, _⟩ | ⟨z, hz, _⟩
    · subst hz; simp at e2; omega
    · exact hB ⟨h0, x, z, hz, e2⟩
  obtain ⟨r, h1, h2⟩ := (parse_ok_win (W := W) hn hcar hwin hB').1 rfl
  rw [h1, h2.raw_of_nil]

/-- When header and key arrive in one read of their own, the key is lost with the read-ahead, so the
next parse does start at the next frame. -/
theorem C11_single_read_partial (W : Nat) (a b c d : Bool) (n : Nat) (form : Form) (key : Key)
    (rest : Raw) (hn : n < 16) :
    Frame.parse W (.data (headBytes a b c d n true form 0 ++ key.bytes) :: rest) =
      (.ok ⟨a, b, c, d, opOf n, []⟩, rest) := by
  have hl : (headBytes a b c d n true form 0 ++ key.bytes).length ≤ 14 := by
    rw [List.length_append, length_headBytes]; cases form <;> simp
  have hcar : form.Carries 0 := by cases form <;> decide
  obtain ⟨b1, ext, h1, h2, h3⟩ := lenOf_headBytes (a := a) (b := b) (c := c) (d := d) (n := n) (m := true) hcar
  obtain ⟨e1, e2, e3, e4, e5⟩ := firstByte_bits a b c d hn
  rw [h1] at hl ⊢
  simp only [List.cons_append] at hl ⊢
  have hread : (Buf.mk [] (.data (UInt8.ofNat (firstByte a b c d n) :: b1 :: (ext ++ key.bytes)) :: rest)).read
      defaultCap 2 = (some [UInt8.ofNat (firstByte a b c d n), b1], ⟨ext ++ key.bytes, rest⟩) := by
    have hc : ¬ defaultCap ≤ 2 := by decide
    have hl2 : (UInt8.ofNat (firstByte a b c d n) :: b1 :: (ext ++ key.bytes)).length ≤ defaultCap := by
      exact Nat.le_trans hl (by decide)
    simp only [Buf.read, Buf.fillBuf, Raw.read, hc, hl2, and_false, if_false, if_true, List.take_succ_cons,
      List.take_zero, List.drop_succ_cons, List.drop_zero]
  have hwin : Win ⟨ext ++ key.bytes, rest⟩ (ext ++ key.bytes) rest :=
    ⟨[], rfl, Raw.WF.nil, Raw.Clean.nil, by simp [Raw.bytes]⟩
  -- the extension bytes come out of the internal buffer
  have hpl : readPayloadLength b1 ⟨ext ++ key.bytes, rest⟩ = (some 0, ⟨key.bytes, rest⟩) := by
    obtain ⟨r', g1, _, _⟩ := readPayloadLength_win hwin (h2 key.bytes)
    have hx := h2 key.bytes
    unfold readPayloadLength at g1 ⊢
    have hbuf : ∀ j, (ext ++ key.bytes).take j = ext → 0 < j → ext.length = j →
        Buf.readExact defaultCap j ⟨ext ++ key.bytes, rest⟩ = (some ext, ⟨key.bytes, rest⟩) := by
      intro j hj hj0 hje
      obtain ⟨j', rfl⟩ : ∃ j', j = j' + 1 := ⟨j - 1, by omega⟩
      have hne : ext ++ key.bytes ≠ [] := by simp [Key.bytes]
      have hr : Buf.read defaultCap (j' + 1) ⟨ext ++ key.bytes, rest⟩ = (some ext, ⟨key.bytes, rest⟩) := by
        unfold Buf.read Buf.fillBuf
        simp only [hne, false_and, if_false, hj]
        rw [← hje, List.drop_left]
      have hee : ext ≠ [] := by rintro rfl; simp at hje
      unfold Buf.readExact
      rw [Buf.readExactGo]
      simp only [hr, hee, if_false, List.nil_append]
      rw [hje, Nat.sub_self]
      cases j' <;> simp [Buf.readExactGo]
    simp only [low7_eq] at g1 ⊢
    unfold lenOf at hx
    by_cases c1 : b1.toNat % 128 = 126
    · simp only [c1, if_true] at hx
      split at hx <;> simp at hx
      have hee : ext.length = 2 := hx.2.symm
      rw [hbuf 2 (by rw [← hee]; exact List.take_left) (by omega) hee]
      have : beNat ext = 0 := by
        rw [beNat_eq, ← hx.1]; congr 1
        rw [← hee]; exact List.take_left.symm
      simp [c1, this]
    · by_cases c2 : b1.toNat % 128 = 127
      · simp only [c2, if_true] at hx
        rw [if_neg (by omega)] at hx
        split at hx <;> simp at hx
        have hee : ext.length = 8 := hx.2.symm
        rw [hbuf 8 (by rw [← hee]; exact List.take_left) (by omega) hee]
        have : beNat ext = 0 := by
          rw [beNat_eq, ← hx.1]; congr 1
          rw [← hee]; exact List.take_left.symm
        simp [c2, this]
      · simp only [c1, c2, if_false] at hx
        simp at hx
        obtain ⟨hx1, hx2⟩ := hx
        have c1' : ¬ b1.toNat % 128 = UInt8.toNat 126 := c1
        have c2' : ¬ b1.toNat % 128 = UInt8.toNat 127 := c2
        rw [if_neg c1', if_neg c2', low7, hx1]
        have : ext = [] := List.length_eq_zero_iff.1 hx2.symm
        subst this
        rfl
  unfold Frame.parse
  simp only [hread, opCodeOfNibble_eq, hpl, bit7, bit6, bit5, bit4, e1, e2, e3, e4, e5]
  simp

/-! ## C10, positive part -/

/-- A frame together with the reads that carry exactly its bytes. -/
structure Delivery where
  frame : ClientFrame
  reads : Raw

/-- The reads carry exactly the frame's bytes: a frame with a payload in any reads that do not split the
first two bytes or the mask key, an empty one in one read. -/
def Delivery.Ok (W : Nat) (d : Delivery) : Prop :=
  d.frame.Valid ∧ d.frame.payload.length ≤ isizeMax W ∧
  ((d.frame.payload ≠ [] ∧ d.reads.WF ∧ d.reads.Clean ∧ d.reads.bytes = d.frame.encode ∧
      d.reads.Unsplit d.frame.head.length) ∨
    (d.frame.payload = [] ∧ d.reads = [.data d.frame.encode]))

theorem parse_delivery {W : Nat} {d : Delivery} (h : d.Ok W) (rest : Raw) :
    Frame.parse W (d.reads ++ rest) = (.ok (frameOf d.frame), rest) := by
  obtain ⟨hv, hm, h⟩ := h
  rcases h with ⟨hne, hw, hc, hb, hu⟩ | ⟨he, hr⟩
  · have hhl : 2 ≤ d.frame.head.length ∧ d.frame.head.length + 4 ≤ d.frame.encode.length := by
      unfold ClientFrame.encode ClientFrame.head
      rw [length_headBytes]
      cases d.frame.form <;> simp [length_headBytes] <;> omega
    have hu' : Raw.Unsplit (d.reads ++ rest) d.frame.head.length :=
      unsplit_append (by rw [hb]; omega) (by omega) hu
    have hwin : Win ⟨[], d.reads ++ rest⟩ (d.frame.encode ++ []) rest :=
      ⟨d.reads, rfl, hw, hc, by simp [hb]⟩
    obtain ⟨r, h1, h2⟩ := parse_client_win hv hne hwin hu' hm
    rw [h1, h2.raw_of_nil]
  · rw [hr]
    have := C11_single_read_partial W d.frame.fin d.frame.rsv1 d.frame.rsv2 d.frame.rsv3 d.frame.nibble
      d.frame.form d.frame.key rest hv.1
    simp only [ClientFrame.encode, ClientFrame.head, he, mask, List.append_nil, List.length_nil,
      List.singleton_append, this, frameOf]

/-- **C10, what holds**: frames whose bytes are aligned with reads (no read carries bytes of two
frames) are all delivered, in order, and the stream is left exactly after the last one. -/
theorem C10_aligned_partial (W : Nat) (ds : List Delivery) (rest : Raw) (h : ∀ d ∈ ds, d.Ok W) :
    parseN W ds.length ((ds.map Delivery.reads).flatten ++ rest) =
      (ds.map fun d => .ok (frameOf d.frame), rest) := by
  induction ds with
  | nil => rfl
  | cons d ds ih =>
    rw [List.map_cons, List.flatten_cons, List.append_assoc, List.length_cons, parseN,
      parse_delivery (h d List.mem_cons_self), ]
    simp only [ih fun d' hd' => h d' (List.mem_cons_of_mem _ hd')]
    simp

/-- non-vacuity: a frame in two reads, an empty ping in one. -/
example : Delivery.Ok 32 ⟨demoFrame, [.data [129, 130, 1, 2, 3, 4], .data [73, 107]]⟩ ∧
    Delivery.Ok 32 ⟨⟨true, false, false, false, 9, (7, 7, 7, 7), [], .short⟩, [.data [137, 128, 7, 7, 7, 7]]⟩ := by
  refine ⟨⟨by decide, by decide, Or.inl ⟨by decide, ?_, by simp [Raw.Clean], by decide,
    not_boundary_of (by decide), not_boundary_of (by decide), not_boundary_of (by decide),
    not_boundary_of (by decide)⟩⟩, by decide, by decide, Or.inr ⟨rfl, by decide⟩⟩
  intro b hb; simp at hb; rcases hb with rfl | rfl <;> simp

/-- **C11 is false**: header in one read, key (here `[138, 128, 0, 0]`) and the next frame in later
ones: the second parse takes the mask key of the first frame for a frame header and reports a pong the
client never sent. -/
theorem C11_empty_masked_refuted : (parseN 32 2
      [.data (headBytes true false false false 9 true .short 0), .data [138, 128, 0, 0],
        .data demoFrame.encode]).1 =
    [.ok ⟨true, false, false, false, .ping, []⟩, .ok ⟨true, false, false, false, .pong, []⟩] ∧
    (⟨true, false, false, false, .pong, []⟩ : Frame) ≠ frameOf demoFrame := by
  decide +kernel

/-! ## C12 -/

/-- **C12.** Whatever the stream, flags and opcode of a delivered frame are those of the first byte
delivered, and `InvalidOpCode` is never returned. -/
theorem C12_first_byte (W : Nat) (raw : Raw) (hwf : raw.WF) :
    (Frame.parse W raw).1 ≠ .err .invalidOpCode ∧
    ∀ fr, (Frame.parse W raw).1 = .ok fr → ∃ b0 tl, raw.avail = b0 :: tl ∧
      b0.toNat = firstByte fr.fin fr.rsv1 fr.rsv2 fr.rsv3 (b0.toNat % 16) ∧
      fr.opCode = opOf (b0.toNat % 16) := by
  rw [parse_eval W raw hwf]
  unfold parseRef
  match raw.avail with
  | [] => simp only; split <;> simp
  | [_] => simp
  | b0 :: b1 :: tl =>
    have hb0 : b0.toNat = firstByte (b0.toNat / 128 % 2 == 1) (b0.toNat / 64 % 2 == 1)
        (b0.toNat / 32 % 2 == 1) (b0.toNat / 16 % 2 == 1) (b0.toNat % 16) := by
      have h := congrArg UInt8.toNat (firstByte_of_byte b0)
      rw [ofNat_toNat_lt (firstByte_lt (Nat.mod_lt _ (by omega)))] at h
      exact h.symm
    simp only
    split
    · simp
    cases lenOf b1 tl with
    | none => simp
    | some p =>
      obtain ⟨L, k⟩ := p
      simp only
      split
      · refine ⟨by simp, ?_⟩
        intro fr h; cases h
        exact ⟨b0, _, rfl, hb0, rfl⟩
      split
      · simp
      split
      · refine ⟨by simp, ?_⟩
        intro fr h; cases h
        exact ⟨b0, _, rfl, hb0, rfl⟩
      · rename_i e he
        refine ⟨?_, by simp⟩
        intro h
        cases h
        unfold payloadRef at he
        repeat' split at he
        all_goals cases he
      · simp

/-- Every first byte is accepted: an unmasked two-byte frame `[b0, 0]` in one read parses for all 256
values of `b0`. -/
theorem C12_every_opcode_accepted (W : Nat) (b0 : UInt8) (rest : Raw) :
    Frame.parse W (.data [b0, 0] :: rest) =
      (.ok ⟨b0.toNat / 128 % 2 == 1, b0.toNat / 64 % 2 == 1, b0.toNat / 32 % 2 == 1,
        b0.toNat / 16 % 2 == 1, opOf (b0.toNat % 16), []⟩, rest) := by
  have := C11_empty_leaves_key_partial W (b0.toNat / 128 % 2 == 1) (b0.toNat / 64 % 2 == 1)
    (b0.toNat / 32 % 2 == 1) (b0.toNat / 16 % 2 == 1) (b0.toNat % 16) false .short [.data [b0, 0]] rest
    (Nat.mod_lt _ (by omega)) (by intro b hb; simp at hb; subst hb; simp) (by simp [Raw.Clean])
    (by simp [Raw.bytes, headBytes, firstByte_of_byte]) (not_boundary_of (by
      intro n hn
      have : n = 0 ∨ n = 1 := by simp at hn; omega
      rcases this with rfl | rfl <;> simp [Raw.bytes]))
  exact this

/-- The opcode classes, value by value (RFC 6455 11.8). -/
theorem C12_opcode_table :
    (List.range 16).map opOf = [.continue, .text, .binary, .reserved, .reserved, .reserved, .reserved,
      .reserved, .terminate, .ping, .pong, .reserved, .reserved, .reserved, .reserved, .reserved] := by
  decide

/-- non-vacuity of C11 and C12: the masked ping without payload; its key is a read of its own, or comes with the header. -/
example : Frame.parse 32 [.data [137, 128], .data [1, 2, 3, 4]] = (.ok ⟨true, false, false, false, .ping, []⟩, [.data [1, 2, 3, 4]]) ∧
    Frame.parse 32 [.data [137, 128, 1, 2, 3, 4], .data [129]] = (.ok ⟨true, false, false, false, .ping, []⟩, [.data [129]]) ∧
    Frame.parse 32 [.data [137, 128], .data [1, 2, 3, 4]] =
      (.ok ⟨true, false, false, false, opOf 9, []⟩, [.data [1, 2, 3, 4]]) := by
  refine ⟨by decide +kernel, C11_single_read_partial 32 true false false false 9 .short (1, 2, 3, 4) [.data [129]] (by decide), ?_⟩
  refine C11_empty_leaves_key_partial 32 true false false false 9 true .short [.data [137, 128]] [.data [1, 2, 3, 4]] (by decide)
    (Raw.WF.nil.cons (by simp)) (by simp [Raw.Clean]) (by decide +kernel) (not_boundary_of ?_)
  intro n hn
  have : n = 0 ∨ n = 1 := by simp at hn; omega
  rcases this with rfl | rfl <;> simp [Raw.bytes]

end Puck
