import Verif.Lemmas.Window
import Verif.Model.Frame
import Verif.Spec.FrameApi
/-!
# Closed form of `Frame::parse`
-/
namespace Puck
open Rfc6455

theorem u8_forall {P : UInt8 → Prop} (h : ∀ n : Fin 256, P (UInt8.ofFin n)) (b : UInt8) : P b := by
  have := h b.toFin
  simpa using this

theorem bit7 (b : UInt8) : (b &&& 0x80 != 0) = (b.toNat / 128 % 2 == 1) := by
  revert b; apply u8_forall; decide +kernel
theorem bit6 (b : UInt8) : (b &&& 0x40 != 0) = (b.toNat / 64 % 2 == 1) := by
  revert b; apply u8_forall; decide +kernel
theorem bit5 (b : UInt8) : (b &&& 0x20 != 0) = (b.toNat / 32 % 2 == 1) := by
  revert b; apply u8_forall; decide +kernel
theorem bit4 (b : UInt8) : (b &&& 0x10 != 0) = (b.toNat / 16 % 2 == 1) := by
  revert b; apply u8_forall; decide +kernel
theorem nibble4 (b : UInt8) : (b &&& 0x0F).toNat = b.toNat % 16 := by
  revert b; apply u8_forall; decide +kernel
theorem low7 (b : UInt8) : (b &&& 0x7F).toNat = b.toNat % 128 := by
  revert b; apply u8_forall; decide +kernel

theorem opCodeOfNibble_eq (b : UInt8) : opCodeOfNibble (b &&& 0x0F) = some (opOf (b.toNat % 16)) := by
  revert b; apply u8_forall; decide +kernel

theorem beNat_go (b : Bytes) (a : Nat) :
    b.foldl (fun a x => a * 256 + x.toNat) a = a * 256 ^ b.length + valueBE b := by
  induction b generalizing a with
  | nil => simp [valueBE]
  | cons x xs ih =>
    simp only [List.foldl_cons, ih, valueBE, List.length_cons]
    rw [Nat.pow_succ, Nat.add_mul]
    simp only [Nat.mul_assoc, Nat.mul_comm, Nat.add_assoc]

theorem beNat_eq (b : Bytes) : beNat b = valueBE b := by
  simp [beNat, beNat_go]

/-! ### `read_exact` in a window -/

theorem Win.read_eof {r : Buf} (h : Win r [] []) (cap n : Nat) :
    ∃ r', Buf.read cap n r = (some [], r') := by
  obtain ⟨es, h1, h2, h3, h4⟩ := h
  obtain ⟨hb, he⟩ := List.append_eq_nil_iff.1 h4
  obtain rfl := Raw.bytes_eq_nil h2 h3 he
  obtain ⟨buf, raw⟩ := r
  simp only at hb h1
  subst hb h1
  exact ⟨_, Buf.read_eof rfl⟩

theorem Win.read_fail {r : Buf} {rs : Raw} (h : Win r [] (.fail :: rs)) (cap n : Nat) :
    ∃ r', Buf.read cap n r = (none, r') := by
  obtain ⟨es, h1, h2, h3, h4⟩ := h
  obtain ⟨hb, he⟩ := List.append_eq_nil_iff.1 h4
  obtain rfl := Raw.bytes_eq_nil h2 h3 he
  obtain ⟨buf, raw⟩ := r
  simp only at hb h1
  subst hb h1
  exact ⟨_, Buf.read_fail rfl⟩

/-- Nothing left in the window: the reader stands exactly before `rest`. -/
theorem Win.raw_of_nil {r : Buf} {rest : Raw} (h : Win r [] rest) : r.raw = rest := by
  obtain ⟨es, h1, h2, h3, h4⟩ := h
  obtain ⟨hb, he⟩ := List.append_eq_nil_iff.1 h4
  obtain rfl := Raw.bytes_eq_nil h2 h3 he
  simpa using h1

/-- The end of the window is a boundary. -/
theorem Win.bnd_end {r : Buf} {tl : Bytes} {rest : Raw} (h : Win r tl rest) (ht : tl ≠ []) :
    r.Bnd tl.length := by
  obtain ⟨es, h1, h2, h3, h4⟩ := h
  refine ⟨List.length_pos_iff.2 ht, es, rest, h1, ?_⟩
  rw [← h4]; simp

theorem Buf.readExactGo_win {cap : Nat} {rest : Raw} :
    ∀ (f n : Nat) (acc : Bytes) (r : Buf) (tl : Bytes), n ≤ f → n < cap → Win r tl rest →
      n ≤ tl.length →
      ∃ r', Buf.readExactGo cap f n acc r = (some (acc ++ tl.take n), r') ∧
        Win r' (tl.drop n) rest ∧ Shift cap r r' n := by
  intro f
  induction f with
  | zero =>
    intro n acc r tl hf hn hw hl
    obtain rfl : n = 0 := by omega
    exact ⟨r, by simp [Buf.readExactGo], by simpa using hw, Shift.refl _ _⟩
  | succ f ih =>
    intro n acc r tl hf hn hw hl
    cases n with
    | zero => exact ⟨r, by simp [Buf.readExactGo], by simpa using hw, Shift.refl _ _⟩
    | succ n =>
      have ht : tl ≠ [] := by rintro rfl; simp at hl
      obtain ⟨b, r', h1, h2, h3, h4, h5, h6, _, _⟩ := Buf.read_win (Nat.succ_pos n) hn hw ht
      have hbl := List.length_pos_iff.2 h2
      obtain ⟨r'', g1, g2, g3⟩ := ih (n + 1 - b.length) (acc ++ b) r' (tl.drop b.length) (by omega)
        (by omega) h4 (by rw [List.length_drop]; omega)
      refine ⟨r'', ?_, ?_, ?_⟩
      · rw [Buf.readExactGo]
        simp only [h1, if_neg h2, g1, List.append_assoc]
        congr 3
        have : tl.take (n+1) = tl.take b.length ++ (tl.drop b.length).take (n + 1 - b.length) := by
          rw [← List.take_add]; congr 1; omega
        rw [this]; congr 1
      · rw [List.drop_drop] at g2
        have : b.length + (n + 1 - b.length) = n + 1 := by omega
        rwa [this] at g2
      · have := h6.trans g3
        have e : b.length + (n + 1 - b.length) = n + 1 := by omega
        rwa [e] at this

theorem Buf.readExact_win {cap n : Nat} {r : Buf} {tl : Bytes} {rest : Raw} (hn : n < cap)
    (hw : Win r tl rest) (hl : n ≤ tl.length) :
    ∃ r', Buf.readExact cap n r = (some (tl.take n), r') ∧
        Win r' (tl.drop n) rest ∧ Shift cap r r' n := by
  simpa [Buf.readExact] using Buf.readExactGo_win n n [] r tl (Nat.le_refl _) hn hw hl

theorem Buf.readExact_win_short {cap n : Nat} {r : Buf} {tl : Bytes} {rest : Raw} (hcap : 0 < cap)
    (hw : Win r tl rest) (hrest : rest = [] ∨ ∃ rs, rest = .fail :: rs) (hl : tl.length < n) :
    ∃ r', Buf.readExact cap n r = (none, r') := by
  obtain ⟨es, h1, h2, h3, h4⟩ := hw
  obtain ⟨buf, raw⟩ := r
  simp only at h1 h4
  subst h1
  exact Buf.readExact_short hcap h2 h3 hrest (by rw [h4]; exact hl)

theorem Buf.takeToEnd_win {cap n : Nat} {r : Buf} {tl : Bytes} {rest : Raw} (hcap : 0 < cap)
    (hw : Win r tl rest) (hl : n ≤ tl.length) :
    ∃ r', Buf.takeToEnd cap n r = (some (tl.take n), r') ∧ Win r' (tl.drop n) rest := by
  obtain ⟨es, h1, h2, h3, h4⟩ := hw
  obtain ⟨buf, raw⟩ := r
  simp only at h1 h4
  subst h1
  obtain ⟨buf', es', g1, g2, g3, g4⟩ :=
    Buf.takeToEnd_ok (rest := rest) (n := n) hcap h2 h3 (by rw [h4]; exact hl)
  rw [h4] at g1 g2
  exact ⟨_, g1, es', rfl, g3, g4, g2⟩

theorem Buf.takeToEnd_win_short {cap n : Nat} {r : Buf} {tl : Bytes} {rest : Raw} (hcap : 0 < cap)
    (hw : Win r tl rest) (hrest : rest = [] ∨ ∃ rs, rest = .fail :: rs) (hl : tl.length < n) :
    Buf.takeToEnd cap n r = (if rest = [] then some tl else none, ⟨[], rest.tail⟩) := by
  obtain ⟨es, h1, h2, h3, h4⟩ := hw
  obtain ⟨buf, raw⟩ := r
  simp only at h1 h4
  subst h1
  rw [Buf.takeToEnd_short hcap h2 h3 hrest (by rw [h4]; exact hl), h4]

/-! ### The stages of `parse` -/

/-- Announced length and number of extension bytes, if they are all there. -/
def lenOf (second : UInt8) (tl : Bytes) : Option (Nat × Nat) :=
  if second.toNat % 128 = 126 then
    if 2 ≤ tl.length then some (valueBE (tl.take 2), 2) else none
  else if second.toNat % 128 = 127 then
    if 8 ≤ tl.length then some (valueBE (tl.take 8), 8) else none
  else some (second.toNat % 128, 0)

theorem low7_eq {second : UInt8} {k : UInt8} : (second &&& 0x7F = k) ↔ second.toNat % 128 = k.toNat := by
  rw [← low7, UInt8.toNat_inj]

theorem readPayloadLength_win {second : UInt8} {r : Buf} {tl : Bytes} {rest : Raw} {L k : Nat}
    (hw : Win r tl rest) (h : lenOf second tl = some (L, k)) :
    ∃ r', readPayloadLength second r = (some L, r') ∧ Win r' (tl.drop k) rest ∧
      Shift defaultCap r r' k := by
  unfold lenOf at h
  unfold readPayloadLength
  simp only [low7_eq]
  split at h
  · rename_i h1
    split at h
    · rename_i h2
      cases h
      obtain ⟨r', g1, g2, g3⟩ := Buf.readExact_win (cap := defaultCap) (by decide) hw h2
      exact ⟨r', by simp [h1, g1, beNat_eq], g2, g3⟩
    · cases h
  · rename_i h1
    split at h
    · rename_i h2
      split at h
      · rename_i h3
        cases h
        obtain ⟨r', g1, g2, g3⟩ := Buf.readExact_win (cap := defaultCap) (by decide) hw h3
        exact ⟨r', by simp [h2, g1, beNat_eq], g2, g3⟩
      · cases h
    · rename_i h2
      cases h
      have e1 : ¬ second.toNat % 128 = UInt8.toNat 126 := h1
      have e2 : ¬ second.toNat % 128 = UInt8.toNat 127 := h2
      exact ⟨r, by rw [if_neg e1, if_neg e2, low7], by simpa using hw, Shift.refl _ _⟩

theorem readPayloadLength_short {second : UInt8} {r : Buf} {tl : Bytes} {rest : Raw}
    (hw : Win r tl rest) (hrest : rest = [] ∨ ∃ rs, rest = .fail :: rs) (h : lenOf second tl = none) :
    ∃ r', readPayloadLength second r = (none, r') := by
  unfold lenOf at h
  unfold readPayloadLength
  simp only [low7_eq]
  split at h
  · rename_i h1
    split at h
    · cases h
    · rename_i h2
      obtain ⟨r', g⟩ := Buf.readExact_win_short (cap := defaultCap) (n := 2) (by decide) hw hrest (by omega)
      exact ⟨r', by simp [h1, g]⟩
  · rename_i h1
    split at h
    · rename_i h2
      split at h
      · cases h
      · rename_i h3
        obtain ⟨r', g⟩ := Buf.readExact_win_short (cap := defaultCap) (n := 8) (by decide) hw hrest (by omega)
        exact ⟨r', by simp [h2, g]⟩
    · cases h

/-- Result of the payload stage in terms of the bytes after the length, whether the stream ends
cleanly, and whether one of the offsets 1, 2, 3 is a read boundary. -/
noncomputable def payloadRef (W : Nat) (fin : Bool) (L : Nat) (t : Bytes) (clean split : Prop)
    [Decidable clean] [Decidable split] : Outcome ParseFrameError Bytes :=
  if t = [] then (if clean then .err .insufficientData else .err .ioError)
  else if split then .err .insufficientData
  else if L % 2 ^ W > isizeMax W then .panic
  else if min L (t.drop 4).length > isizeMax W then .panic
  else if L ≤ (t.drop 4).length then .ok (unmask (t.take 4) ((t.drop 4).take L))
  else if clean then
    if (t.drop 4).length ≠ L % 2 ^ W then
      if !fin then .err (.waitForNextFrame (L - (t.drop 4).length)) else .err .ioError
    else .ok (unmask (t.take 4) (t.drop 4))
  else .err .ioError

theorem payloadRef_ok {W : Nat} {fin : Bool} {L : Nat} {t d : Bytes} {clean split : Prop} {_ : Decidable clean} {_ : Decidable split}
    (h : payloadRef W fin L t clean split = .ok d) :
    t ≠ [] ∧ ¬ split ∧ L % 2 ^ W ≤ isizeMax W ∧
      ((L ≤ (t.drop 4).length ∧ L ≤ isizeMax W ∧ d = unmask (t.take 4) ((t.drop 4).take L)) ∨
       ((t.drop 4).length < L ∧ clean ∧ (t.drop 4).length = L % 2 ^ W ∧ d = unmask (t.take 4) (t.drop 4))) := by
  unfold payloadRef at h
  split at h
  · split at h <;> cases h
  rename_i h1
  split at h
  · cases h
  rename_i h2
  split at h
  · cases h
  rename_i h3
  split at h
  · cases h
  rename_i h4
  refine ⟨h1, h2, by omega, ?_⟩
  split at h
  · cases h
    exact Or.inl ⟨by assumption, by omega, rfl⟩
  split at h
  · split at h
    · split at h <;> cases h
    · cases h
      exact Or.inr ⟨by omega, by assumption, by simp_all, rfl⟩
  · cases h

theorem payloadRef_panic {W : Nat} {fin : Bool} {L : Nat} {t : Bytes} {clean split : Prop} {_ : Decidable clean} {_ : Decidable split} :
    payloadRef W fin L t clean split = .panic ↔
      t ≠ [] ∧ ¬ split ∧ (isizeMax W < L % 2 ^ W ∨ isizeMax W < min L (t.drop 4).length) := by
  unfold payloadRef
  by_cases h1 : t = []
  · rw [if_pos h1]
    constructor
    · intro h; split at h <;> cases h
    · intro h; exact absurd h1 h.1
  rw [if_neg h1]
  by_cases h2 : split
  · rw [if_pos h2]
    exact ⟨(fun h => by cases h), fun h => absurd h2 h.2.1⟩
  rw [if_neg h2]
  by_cases h3 : L % 2 ^ W > isizeMax W
  · rw [if_pos h3]
    exact ⟨fun _ => ⟨h1, h2, Or.inl h3⟩, fun _ => rfl⟩
  rw [if_neg h3]
  by_cases h4 : min L (t.drop 4).length > isizeMax W
  · rw [if_pos h4]
    exact ⟨fun _ => ⟨h1, h2, Or.inr h4⟩, fun _ => rfl⟩
  rw [if_neg h4]
  constructor
  · intro h
    exfalso
    split at h
    · cases h
    split at h
    · split at h
      · split at h <;> cases h
      · cases h
    · cases h
  · rintro ⟨-, -, h | h⟩ <;> omega

theorem isizeMax_lt_iff (W n : Nat) : isizeMax W < n ↔ 2 ^ (W - 1) ≤ n := by
  unfold isizeMax
  have h2 : 0 < 2 ^ (W - 1) := Nat.pow_pos (by omega)
  omega

theorem isizeMax_lt (W : Nat) : isizeMax W < 2 ^ W := by
  unfold isizeMax
  have h1 : 2 ^ (W - 1) ≤ 2 ^ W := Nat.pow_le_pow_right (by omega) (by omega)
  have h2 : 0 < 2 ^ (W - 1) := Nat.pow_pos (by omega)
  omega

theorem Raw.coming_append : ∀ (es rest : Raw), es.Clean → Raw.coming (es ++ rest) = (Raw.bytes es).length + rest.coming
  | [], rest, _ => by simp [Raw.bytes]
  | .fail :: es, rest, h => absurd List.mem_cons_self h
  | .data b :: es, rest, h => by
    simp only [List.cons_append, Raw.coming, Raw.bytes, List.length_append]
    rw [Raw.coming_append es rest (fun x => h (List.mem_cons_of_mem _ x))]
    omega

theorem Win.coming {r : Buf} {t : Bytes} {rest : Raw} (hw : Win r t rest) (hrest : rest = [] ∨ ∃ rs, rest = .fail :: rs) :
    r.buf.length + r.raw.coming = t.length := by
  obtain ⟨es, e1, -, e3, e4⟩ := hw
  rw [e1, Raw.coming_append es rest e3, ← e4, List.length_append]
  rcases hrest with rfl | ⟨rs, rfl⟩ <;> simp [Raw.coming]

open Classical in
theorem readPayload_win {W L : Nat} {fin : Bool} {r : Buf} {t : Bytes} {rest : Raw}
    (hw : Win r t rest) (hrest : rest = [] ∨ ∃ rs, rest = .fail :: rs) :
    ∃ r', readPayload W fin L r =
        (payloadRef W fin L t (rest = []) (r.Bnd 1 ∨ r.Bnd 2 ∨ r.Bnd 3), r') ∧
      (t ≠ [] → ¬ (r.Bnd 1 ∨ r.Bnd 2 ∨ r.Bnd 3) → L ≤ isizeMax W → L ≤ (t.drop 4).length →
        Win r' (t.drop (4 + L)) rest) := by
  by_cases ht : t = []
  · subst ht
    rcases hrest with rfl | ⟨rs, rfl⟩
    · obtain ⟨r', h⟩ := hw.read_eof defaultCap 4
      exact ⟨r', by simp [readPayload, h, payloadRef], by simp⟩
    · obtain ⟨r', h⟩ := hw.read_fail defaultCap 4
      exact ⟨r', by simp [readPayload, h, payloadRef], by simp⟩
  · obtain ⟨b, r1, h1, h2, h3, h4, h5, h6, h7, h8⟩ :=
      Buf.read_win (cap := defaultCap) (n := 4) (by decide) (by decide) hw ht
    have hbl := List.length_pos_iff.2 h2
    by_cases hb : b.length = 4
    · have hs : ¬ (r.Bnd 1 ∨ r.Bnd 2 ∨ r.Bnd 3) := by
        rintro (h | h | h)
        · exact h8 1 (by omega) h
        · exact h8 2 (by omega) h
        · exact h8 3 (by omega) h
      rw [hb] at h4 h5
      subst h5
      unfold readPayload
      simp only [h1, hb, ne_eq, not_true_eq_false, if_false]
      unfold payloadRef
      simp only [ht, hs, if_false]
      by_cases hp : L % 2 ^ W > isizeMax W
      · exact ⟨r1, by simp [hp], by intro _ _ h; have := Nat.mod_le L (2 ^ W); omega⟩
      · simp only [hp, if_false, h4.coming hrest]
        by_cases hq0 : min L (t.drop 4).length > isizeMax W
        · exact ⟨r1, by simp only [hq0, if_true], by intro _ _ h h'; omega⟩
        simp only [hq0, if_false]
        by_cases hL : L ≤ (t.drop 4).length
        · obtain ⟨r2, g1, g2⟩ := Buf.takeToEnd_win (cap := defaultCap) (by decide) h4 hL
          refine ⟨r2, ?_, fun _ _ _ _ => by simpa [List.drop_drop] using g2⟩
          have hlen : ((t.drop 4).take L).length = L := by rw [List.length_take]; omega
          have e : L % 2 ^ W = L := Nat.mod_eq_of_lt (Nat.lt_of_le_of_lt (by omega) (isizeMax_lt W))
          simp only [g1, hlen, hL, if_true]
          simp [e]
        · have g1 := Buf.takeToEnd_win_short (cap := defaultCap) (n := L) (by decide) h4 hrest (by omega)
          refine ⟨⟨[], rest.tail⟩, ?_, fun _ _ _ h => absurd h hL⟩
          rw [g1]
          simp only [hL, if_false]
          rcases hrest with rfl | ⟨rs, rfl⟩
          · simp only [if_true]
            have hgt : L > (t.drop 4).length := by omega
            generalize t.drop 4 = t' at hgt
            by_cases hq2 : t'.length = L % 2 ^ W
            · simp [hq2]
            · cases fin <;> simp [hq2, hgt]
          · simp
    · have hs : r.Bnd 1 ∨ r.Bnd 2 ∨ r.Bnd 3 := by
        have hB := h7 (by omega)
        rcases (by omega : b.length = 1 ∨ b.length = 2 ∨ b.length = 3) with h | h | h
        · exact Or.inl (h ▸ hB)
        · exact Or.inr (Or.inl (h ▸ hB))
        · exact Or.inr (Or.inr (h ▸ hB))
      refine ⟨r1, ?_, fun _ h => absurd hs h⟩
      simp [readPayload, h1, hb, payloadRef, ht, hs]

/-- Closed form of the result of `Frame::parse`: `av` is what arrives before the first error, `clean`
says that there is no error, `B` are the read boundaries. -/
noncomputable def parseRef (W : Nat) (av : Bytes) (clean : Prop) (B : Nat → Prop)
    [Decidable clean] [DecidablePred B] : Outcome ParseFrameError Frame :=
  match av with
  | [] => if clean then .err .insufficientData else .err .ioError
  | [_] => .err .insufficientData
  | b0 :: b1 :: tl =>
    if B 1 then .err .insufficientData
    else
      let mk (d : Bytes) : Frame :=
        ⟨b0.toNat / 128 % 2 == 1, b0.toNat / 64 % 2 == 1, b0.toNat / 32 % 2 == 1,
          b0.toNat / 16 % 2 == 1, opOf (b0.toNat % 16), d⟩
      match lenOf b1 tl with
      | none => .err .ioError
      | some (L, k) =>
        if L = 0 then .ok (mk [])
        else if b1.toNat < 128 then .err .maskNotSet
        else
          match payloadRef W (b0.toNat / 128 % 2 == 1) L (tl.drop k) clean
            (B (2 + k + 1) ∨ B (2 + k + 2) ∨ B (2 + k + 3)) with
          | .ok d => .ok (mk d)
          | .err e => .err e
          | .panic => .panic

theorem masked_eq (b : UInt8) : (b &&& 0x80 != 0) = !decide (b.toNat < 128) := by
  revert b; apply u8_forall; decide +kernel

theorem lenOf_k {b : UInt8} {tl : Bytes} {L k : Nat} (h : lenOf b tl = some (L, k)) : k ≤ 8 := by
  unfold lenOf at h
  split at h
  · split at h <;> simp at h <;> omega
  · split at h
    · split at h <;> simp at h <;> omega
    · simp at h; omega

open Classical in
/-- Evaluation of `parse` in a window, with the window left by a successful parse. -/
theorem parse_win {W : Nat} {raw rest : Raw} {av : Bytes} (hw : Win ⟨[], raw⟩ av rest)
    (hrest : rest = [] ∨ ∃ rs, rest = .fail :: rs) :
    ∃ r, Frame.parse W raw = (parseRef W av (rest = []) raw.Boundary, r.raw) ∧
      ∀ b0 b1 tl L k, av = b0 :: b1 :: tl → ¬ raw.Boundary 1 → lenOf b1 tl = some (L, k) →
        (L = 0 → Win r (tl.drop k) rest) ∧
        (0 < L → 128 ≤ b1.toNat → ¬ (raw.Boundary (2 + k + 1) ∨ raw.Boundary (2 + k + 2) ∨
          raw.Boundary (2 + k + 3)) → L ≤ isizeMax W → 4 + L ≤ (tl.drop k).length →
          Win r (tl.drop (k + 4 + L)) rest) := by
  unfold Frame.parse
  by_cases ht : av = []
  · subst ht
    rcases hrest with rfl | ⟨rs, rfl⟩
    · obtain ⟨r', h⟩ := hw.read_eof defaultCap 2
      exact ⟨r', by simp [h, parseRef], by simp⟩
    · obtain ⟨r', h⟩ := hw.read_fail defaultCap 2
      exact ⟨r', by simp [h, parseRef], by simp⟩
  obtain ⟨b, r1, h1, h2, h3, h4, h5, h6, h7, h8⟩ :=
      Buf.read_win (cap := defaultCap) (n := 2) (by decide) (by decide) hw ht
  have hbl := List.length_pos_iff.2 h2
  have hB : ∀ j, Buf.Bnd ⟨[], raw⟩ j ↔ raw.Boundary j := Buf.bnd_new raw
  by_cases hb : b.length = 2
  · have hn1 : ¬ raw.Boundary 1 := by rw [← hB]; exact h8 1 (by omega)
    rw [hb] at h4 h5 h6
    match av, ht, hw, h1, h4, h5 with
    | [x], _, _, _, _, h5 => rw [h5] at hb; simp at hb
    | b0 :: b1 :: tl, _, hw, h1, h4, h5 =>
      simp only [List.take_succ_cons, List.take_zero] at h5
      subst h5
      simp only [List.drop_succ_cons, List.drop_zero] at h4
      simp only [h1, opCodeOfNibble_eq]
      unfold parseRef
      simp only [hn1, if_false]
      cases hlen : lenOf b1 tl with
      | none =>
        obtain ⟨r2, g1⟩ := readPayloadLength_short h4 hrest hlen
        refine ⟨r2, by simp [g1], ?_⟩
        intro c0 c1 tl' L' k' e; cases e
        rw [hlen]; simp
      | some p =>
        obtain ⟨L, k⟩ := p
        obtain ⟨r2, g1, g2, g3⟩ := readPayloadLength_win h4 hlen
        have hsh := h6.trans g3
        have hk := lenOf_k hlen
        simp only [g1, masked_eq b1, bit7, bit6, bit5, bit4]
        by_cases hL : L = 0
        · subst hL
          refine ⟨r2, by simp, ?_⟩
          intro c0 c1 tl' L' k' e _ e2; cases e
          rw [hlen] at e2; cases e2
          exact ⟨fun _ => g2, fun h => absurd h (by omega)⟩
        · have hLp : L > 0 := by omega
          by_cases hm : b1.toNat < 128
          · refine ⟨r2, by simp [hL, hLp, hm], ?_⟩
            intro c0 c1 tl' L' k' e _ e2; cases e
            rw [hlen] at e2; cases e2
            exact ⟨fun h => absurd h hL, fun _ h => absurd hm (by omega)⟩
          · obtain ⟨r3, f1, f2⟩ := readPayload_win (W := W) (L := L)
              (fin := b0.toNat / 128 % 2 == 1) g2 hrest
            have hbs : (r2.Bnd 1 ∨ r2.Bnd 2 ∨ r2.Bnd 3) ↔
                (raw.Boundary (2 + k + 1) ∨ raw.Boundary (2 + k + 2) ∨ raw.Boundary (2 + k + 3)) := by
              have hc : defaultCap = 8192 := rfl
              rw [hsh 1 (by omega), hsh 2 (by omega), hsh 3 (by omega)]
              simp [hB]
            simp only [hbs] at f1 f2
            refine ⟨r3, ?_, ?_⟩
            · simp only [hL, hLp, hm, decide_true, decide_false, Bool.not_true, Bool.not_false,
                Bool.and_false, if_false, if_true, f1, Bool.false_eq_true]
              split <;> rename_i heq <;> (simp only [Prod.mk.injEq] at heq; rw [heq.1, heq.2])
            · intro c0 c1 tl' L' k' e _ e2; cases e
              rw [hlen] at e2; cases e2
              refine ⟨fun h => absurd h hL, fun _ _ hs hp hl => ?_⟩
              have hne : tl.drop k ≠ [] := by
                intro h; rw [h] at hl; simp at hl
              have := f2 hne hs hp (by rw [List.length_drop]; omega)
              simpa [List.drop_drop, Nat.add_assoc] using this
  · have hb1 : b.length = 1 := by omega
    have hbd : raw.Boundary 1 := by rw [← hB, ← hb1]; exact h7 (by omega)
    refine ⟨r1, ?_, ?_⟩
    · match b, hb1, h1 with
      | [x], _, h1 =>
        simp only [h1]
        match av, ht with
        | [y], _ => simp [parseRef]
        | y :: z :: tl, _ => simp [parseRef, hbd]
    · intro b0 b1 tl L k _ h; exact absurd hbd h

theorem Raw.avail_of_split {es rest : Raw} (hc : es.Clean)
    (hrest : rest = [] ∨ ∃ rs, rest = .fail :: rs) : Raw.avail (es ++ rest) = Raw.bytes es := by
  induction es with
  | nil => rcases hrest with rfl | ⟨rs, rfl⟩ <;> rfl
  | cons e es ih =>
    cases e with
    | fail => exact absurd List.mem_cons_self hc
    | data b => simp [Raw.avail, Raw.bytes, ih hc.tail]

theorem Raw.clean_split {es rest : Raw} (hc : es.Clean)
    (hrest : rest = [] ∨ ∃ rs, rest = .fail :: rs) : Raw.Clean (es ++ rest) ↔ rest = [] := by
  rcases hrest with rfl | ⟨rs, rfl⟩
  · simpa using hc
  · simp [Raw.Clean]

/-- Any well-formed stream is a window on its available bytes. -/
theorem Raw.win (raw : Raw) (hwf : raw.WF) : ∃ rest, Win ⟨[], raw⟩ raw.avail rest ∧
    (rest = [] ∨ ∃ rs, rest = .fail :: rs) ∧ (raw.Clean ↔ rest = []) := by
  obtain ⟨es, rest, h1, h2, h3⟩ := Raw.split raw
  subst h1
  exact ⟨rest, ⟨es, rfl, hwf.left, h2, by simp [Raw.avail_of_split h2 h3]⟩, h3, Raw.clean_split h2 h3⟩

open Classical in
/-- The result of `Frame::parse` on any stream. -/
theorem parse_eval (W : Nat) (raw : Raw) (hwf : raw.WF) :
    (Frame.parse W raw).1 = parseRef W raw.avail raw.Clean raw.Boundary := by
  obtain ⟨rest, h1, h2, h3⟩ := raw.win hwf
  obtain ⟨r, h, _⟩ := parse_win (W := W) h1 h2
  rw [h]
  simp only [h3]

end Puck
