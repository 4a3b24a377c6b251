import Verif.Model.InterruptFrame
import Verif.Lemmas.Frame
/-!
# C158: interrupted system calls go unnoticed
-/
namespace Puck
open Rfc6455

theorem IBuf.readExactGo_calm (cap : Nat) : ∀ (f n : Nat) (acc : Bytes) (r : IBuf),
    Buf.readExactGo cap f n acc r.calm = ((IBuf.readExactGo cap f n acc r).1, (IBuf.readExactGo cap f n acc r).2.calm) := by
  intro f
  induction f with
  | zero => intro n acc r; cases n <;> rfl
  | succ f ih =>
    intro n acc r
    cases n with
    | zero => rfl
    | succ n =>
      simp only [Buf.readExactGo, IBuf.readExactGo]
      rw [IBuf.readRetry_calm]
      cases r.readRetry cap (n + 1) with
      | mk o r1 =>
        cases o with
        | none => rfl
        | some b =>
          simp only
          split
          · rfl
          · exact ih _ _ _

theorem IBuf.takeToEndGo_calm (cap : Nat) : ∀ (f n : Nat) (acc : Bytes) (r : IBuf),
    Buf.takeToEndGo cap f n acc r.calm = ((IBuf.takeToEndGo cap f n acc r).1, (IBuf.takeToEndGo cap f n acc r).2.calm) := by
  intro f
  induction f with
  | zero => intro n acc r; cases n <;> rfl
  | succ f ih =>
    intro n acc r
    cases n with
    | zero => rfl
    | succ n =>
      simp only [Buf.takeToEndGo, IBuf.takeToEndGo]
      rw [IBuf.readRetry_calm]
      cases r.readRetry cap (n + 1) with
      | mk o r1 =>
        cases o with
        | none => rfl
        | some b =>
          simp only
          split
          · rfl
          · exact ih _ _ _

theorem readPayloadLengthI_calm (second : UInt8) (r : IBuf) :
    readPayloadLength second r.calm = ((readPayloadLengthI second r).1, (readPayloadLengthI second r).2.calm) := by
  unfold readPayloadLength readPayloadLengthI Buf.readExact IBuf.readExact
  rw [IBuf.readExactGo_calm, IBuf.readExactGo_calm]
  split
  · cases IBuf.readExactGo defaultCap 2 2 [] r with
    | mk o r1 => cases o <;> rfl
  · split
    · cases IBuf.readExactGo defaultCap 8 8 [] r with
      | mk o r1 => cases o <;> rfl
    · rfl

/-- the payload, unless the mask's read is interrupted -/
theorem readPayloadI_calm (W : Nat) (fin : Bool) (L : Nat) (r : IBuf) (h : (r.read defaultCap 4).1 ≠ .intr) :
    readPayload W fin L r.calm = ((readPayloadI W fin L r).1, (readPayloadI W fin L r).2.calm) := by
  unfold readPayload readPayloadI
  cases hr : r.read defaultCap 4 with
  | mk g r1 =>
    have hc := IBuf.read_calm hr
    cases g with
    | intr => rw [hr] at h; exact absurd rfl h
    | fail => simp only at hc ⊢; rw [hc]
    | ok key =>
      simp only at hc ⊢
      rw [hc]
      simp only
      split
      · rfl
      · split
        · rfl
        · have e : (r1.calm.buf.length + r1.calm.raw.coming) = r1.buf.length + r1.raw.calm.coming := rfl
          rw [e]
          split
          · rfl
          · unfold Buf.takeToEnd IBuf.takeToEnd
            rw [IBuf.takeToEndGo_calm]
            cases IBuf.takeToEndGo defaultCap L L [] r1 with
            | mk o r2 =>
              cases o with
              | none => rfl
              | some encoded =>
                simp only
                split
                · split <;> rfl
                · rfl

/-- What is left of a stream: some events are gone, and perhaps a part of the block that comes first. -/
def Tail (raw raw' : IRaw) : Prop :=
  raw' <:+ raw ∨ ∃ b b' t, raw' = .data b' :: t ∧ (.data b :: t) <:+ raw

theorem Tail.refl (raw : IRaw) : Tail raw raw := .inl (List.suffix_refl _)

theorem Tail.trans {a b c : IRaw} (h : Tail a b) (h' : Tail b c) : Tail a c := by
  rcases h with h | ⟨x, x', t, rfl, h⟩
  · rcases h' with h' | ⟨y, y', s, e, h'⟩
    · exact .inl (h'.trans h)
    · exact .inr ⟨y, y', s, e, h'.trans h⟩
  · have ht : t <:+ a := (List.suffix_cons _ _).trans h
    rcases h' with h' | ⟨y, y', s, e, h'⟩
    · rcases List.suffix_cons_iff.1 h' with rfl | h'
      · exact .inr ⟨x, x', t, rfl, h⟩
      · exact .inl (h'.trans ht)
    · rcases List.suffix_cons_iff.1 h' with e' | h'
      · simp only [List.cons.injEq] at e'
        exact .inr ⟨x, y', s, e, e'.2 ▸ h⟩
      · exact .inr ⟨y, y', s, e, h'.trans ht⟩

theorem Tail.of_intr {raw rest : IRaw} (h : Tail raw (.intr :: rest)) : ∃ pre, raw = pre ++ .intr :: rest := by
  rcases h with ⟨pre, h⟩ | ⟨b, b', t, e, -⟩
  · exact ⟨pre, h.symm⟩
  · cases e

/-- Going from one state of a reader to another, these bytes have come out. -/
structure Went (r : IBuf) (c : Bytes) (r' : IBuf) : Prop where
  tail : Tail r.raw r'.raw
  bytes : r.buf ++ r.raw.calm.bytes = c ++ (r'.buf ++ r'.raw.calm.bytes)

theorem Went.trans {r r1 r2 : IBuf} {c d : Bytes} (h : Went r c r1) (h' : Went r1 d r2) : Went r (c ++ d) r2 :=
  ⟨h.tail.trans h'.tail, by rw [h.bytes, h'.bytes, List.append_assoc]⟩

theorem IRaw.read_went {cap : Nat} {raw raw' : IRaw} {g : Got} (h : raw.read cap = (g, raw')) : Tail raw raw' ∧
    match g with
    | .ok b => raw.calm.bytes = b ++ raw'.calm.bytes ∧ b.length ≤ cap
    | _ => raw.calm.bytes = raw'.calm.bytes := by
  cases raw with
  | nil => cases h; exact ⟨.refl _, rfl, Nat.zero_le _⟩
  | cons e r =>
    cases e with
    | fail => cases h; exact ⟨.inl (List.suffix_cons _ _), rfl⟩
    | intr => cases h; exact ⟨.inl (List.suffix_cons _ _), rfl⟩
    | data b =>
      simp only [IRaw.read] at h
      split at h
      · rename_i hl; cases h; exact ⟨.inl (List.suffix_cons _ _), rfl, hl⟩
      · rename_i hl
        cases h
        refine ⟨.inr ⟨b, _, r, rfl, List.suffix_refl _⟩, ?_, by simp; omega⟩
        simp only [IRaw.calm, Raw.bytes]
        rw [← List.append_assoc, List.take_append_drop]

theorem IBuf.read_went {cap n : Nat} {r r' : IBuf} {g : Got} (h : r.read cap n = (g, r')) :
    match g with
    | .ok b => Went r b r' ∧ b.length ≤ n
    | _ => Went r [] r' := by
  unfold IBuf.read at h
  split at h
  · rename_i hb
    cases hr : r.raw.read n with
    | mk g' raw =>
      obtain ⟨h1, h2⟩ := IRaw.read_went hr
      rw [hr] at h
      cases h
      cases g with
      | ok b => exact ⟨⟨h1, by rw [hb.1, h2.1]; rfl⟩, h2.2⟩
      | fail => exact ⟨h1, by rw [hb.1, h2]; rfl⟩
      | intr => exact ⟨h1, by rw [hb.1, h2]; rfl⟩
  · unfold IBuf.fillBuf at h
    split at h
    · rename_i hne b r1 hf
      cases h
      refine ⟨?_, by simp; omega⟩
      split at hf
      · rename_i hb
        cases hr : r.raw.read cap with
        | mk g' raw =>
          obtain ⟨h1, h2⟩ := IRaw.read_went hr
          rw [hr] at hf
          cases g' with
          | ok b' =>
            cases hf
            exact ⟨h1, by rw [hb, h2.1]; simp only [List.nil_append]; rw [← List.append_assoc, List.take_append_drop]⟩
          | fail => cases hf
          | intr => cases hf
      · cases hf
        exact ⟨.refl _, by rw [← List.append_assoc, List.take_append_drop]⟩
    · rename_i hne g' r1 hno hf
      cases h
      split at hf
      · rename_i hb
        cases hr : r.raw.read cap with
        | mk g' raw =>
          obtain ⟨h1, h2⟩ := IRaw.read_went hr
          rw [hr] at hf
          cases g' with
          | ok b' => cases hf; exact absurd rfl (hno _)
          | fail => cases hf; exact ⟨h1, by rw [hb, h2]; rfl⟩
          | intr => cases hf; exact ⟨h1, by rw [hb, h2]; rfl⟩
      · cases hf; exact absurd rfl (hno _)

theorem IBuf.readRetry_went {cap n : Nat} {r r' : IBuf} {b : Bytes} (h : r.readRetry cap n = (some b, r')) : Went r b r' ∧ b.length ≤ n := by
  fun_induction IBuf.readRetry cap n r with
  | case1 r x r1 hr => cases h; exact IBuf.read_went hr
  | case2 r r1 hr => cases h
  | case3 r r1 hr ih =>
    obtain ⟨h1, h2⟩ := ih h
    exact ⟨(show Went r [] r1 from IBuf.read_went hr).trans h1, h2⟩

theorem IBuf.readExactGo_went (cap : Nat) : ∀ (f n : Nat) (acc : Bytes) (r r' : IBuf) (out : Bytes),
    IBuf.readExactGo cap f n acc r = (some out, r') → ∃ c, c.length = n ∧ out = acc ++ c ∧ Went r c r' := by
  intro f
  induction f with
  | zero =>
    intro n acc r r' out h
    cases n with
    | zero => cases h; exact ⟨[], rfl, by simp, .refl _, rfl⟩
    | succ n => cases h
  | succ f ih =>
    intro n acc r r' out h
    cases n with
    | zero => cases h; exact ⟨[], rfl, by simp, .refl _, rfl⟩
    | succ n =>
      simp only [IBuf.readExactGo] at h
      split at h
      · cases h
      · rename_i b r1 hr
        split at h
        · cases h
        · obtain ⟨h1, h2⟩ := IBuf.readRetry_went hr
          obtain ⟨c, h3, h4, h5⟩ := ih _ _ _ _ _ h
          exact ⟨b ++ c, by rw [List.length_append, h3]; omega, by rw [h4, List.append_assoc], h1.trans h5⟩

/-- Specification: the part of a frame before the mask, of a frame that has a mask and a payload (RFC 6455, section 5.2). -/
def HeaderBytes (c : Bytes) : Prop :=
  ∃ first second ext, c = first :: second :: ext ∧ 128 < second.toNat ∧
    ext.length = (if second.toNat % 128 = 126 then 2 else if second.toNat % 128 = 127 then 8 else 0)

theorem IRaw.calm_append (a b : IRaw) : (IRaw.calm (a ++ b)).bytes = a.calm.bytes ++ b.calm.bytes := by
  induction a with
  | nil => rfl
  | cons e a ih =>
    cases e with
    | data x => simp only [List.cons_append, IRaw.calm, Raw.bytes, ih, List.append_assoc]
    | fail => exact ih
    | intr => exact ih

theorem headLoopI_calm (cap : Nat) (acc : Bytes) (r : IBuf) : headLoop cap acc r.calm = ((headLoopI cap acc r).1, (headLoopI cap acc r).2.calm) := by
  fun_induction headLoopI cap acc r with
  | case1 acc r r' h =>
    rw [headLoop]
    have := IBuf.readUntil_calm cap 10 [] r
    rw [h] at this
    split
    · rename_i h2; rw [this] at h2; cases h2; rfl
    · rename_i h2; rw [this] at h2; cases h2
  | case2 acc r r' h =>
    rw [headLoop]
    have := IBuf.readUntil_calm cap 10 [] r
    rw [h] at this
    split
    · rename_i h2; rw [this] at h2; cases h2
    · rename_i h2; rw [this] at h2; cases h2; simp
  | case3 acc r b r' h hb he =>
    rw [headLoop]
    have := IBuf.readUntil_calm cap 10 [] r
    rw [h] at this
    split
    · rename_i h2; rw [this] at h2; cases h2
    · rename_i h2; rw [this] at h2; cases h2; simp only [dif_neg hb, if_pos he]
  | case4 acc r b r' h hb he ih =>
    rw [headLoop]
    have := IBuf.readUntil_calm cap 10 [] r
    rw [h] at this
    split
    · rename_i h2; rw [this] at h2; cases h2
    · rename_i h2; rw [this] at h2; cases h2; simp only [dif_neg hb, if_neg he, ih]

theorem IBody.readToEnd_calm (sched : Nat → Nat) (i : Nat) (acc : Bytes) (b : IBody) :
    b.calm.readToEnd sched i acc = ((b.readToEnd sched i acc).1, (b.readToEnd sched i acc).2.calm) := by
  fun_induction IBody.readToEnd sched i acc b with
  | case1 i acc b e b' h =>
    rw [Body.readToEnd]
    have := IBody.readRetry_calm (sched i + 1) b
    rw [h] at this
    split <;> (rename_i h2; rw [this] at h2; cases h2)
    rfl
  | case2 i acc b b' h =>
    rw [Body.readToEnd]
    have := IBody.readRetry_calm (sched i + 1) b
    rw [h] at this
    split <;> (rename_i h2; rw [this] at h2; cases h2)
    rfl
  | case3 i acc b b' h =>
    rw [Body.readToEnd]
    have := IBody.readRetry_calm (sched i + 1) b
    rw [h] at this
    split <;> (rename_i h2; rw [this] at h2; cases h2)
    simp
  | case4 i acc b x b' h hx ih =>
    rw [Body.readToEnd]
    have := IBody.readRetry_calm (sched i + 1) b
    rw [h] at this
    split <;> (rename_i h2; rw [this] at h2; cases h2)
    simp only [dif_neg hx, ih]

theorem IBody.copyTo_calm (blk : Nat) (b : IBody) (s : Sink) :
    b.calm.copyTo blk s = ((b.copyTo blk s).1, (b.copyTo blk s).2.1.calm, (b.copyTo blk s).2.2) := by
  fun_induction IBody.copyTo blk b s with
  | case1 b s e b' h =>
    rw [Body.copyTo]
    have := IBody.readRetry_calm (blk + 1) b
    rw [h] at this
    split <;> (rename_i h2; rw [this] at h2; cases h2)
    rfl
  | case2 b s b' h =>
    rw [Body.copyTo]
    have := IBody.readRetry_calm (blk + 1) b
    rw [h] at this
    split <;> (rename_i h2; rw [this] at h2; cases h2)
    rfl
  | case3 b s b' h =>
    rw [Body.copyTo]
    have := IBody.readRetry_calm (blk + 1) b
    rw [h] at this
    split <;> (rename_i h2; rw [this] at h2; cases h2)
    simp
  | case4 b s x b' h hx s' hw =>
    rw [Body.copyTo]
    have := IBody.readRetry_calm (blk + 1) b
    rw [h] at this
    split <;> (rename_i h2; rw [this] at h2; cases h2)
    simp only [dif_neg hx, hw]
  | case5 b s x b' h hx s' hw ih =>
    rw [Body.copyTo]
    have := IBody.readRetry_calm (blk + 1) b
    rw [h] at this
    split <;> (rename_i h2; rw [this] at h2; cases h2)
    simp only [dif_neg hx, hw, ih]

/-- the length field takes as many bytes as it says -/
theorem readPayloadLengthI_went {second : UInt8} {r r' : IBuf} {L : Nat} (h : readPayloadLengthI second r = (some L, r')) :
    ∃ ext, Went r ext r' ∧ ext.length = (if second.toNat % 128 = 126 then 2 else if second.toNat % 128 = 127 then 8 else 0) ∧
      (L > 0 → second.toNat % 128 ≠ 0) := by
  have e : ∀ n : Fin 256, ((UInt8.ofFin n &&& 0x7F) = 126 ↔ (UInt8.ofFin n).toNat % 128 = 126) ∧ ((UInt8.ofFin n &&& 0x7F) = 127 ↔ (UInt8.ofFin n).toNat % 128 = 127) := by
    decide +kernel
  have e' := u8_forall (P := fun b => ((b &&& 0x7F) = 126 ↔ b.toNat % 128 = 126) ∧ ((b &&& 0x7F) = 127 ↔ b.toNat % 128 = 127)) e second
  unfold readPayloadLengthI at h
  split at h
  · rename_i h1
    have h1' := e'.1.1 h1
    split at h
    · rename_i b r1 hr
      cases h
      obtain ⟨c, hc, -, hw⟩ := IBuf.readExactGo_went _ _ _ _ _ _ _ hr
      exact ⟨c, hw, by rw [if_pos h1', hc], by omega⟩
    · cases h
  · rename_i h1
    have h1' : ¬second.toNat % 128 = 126 := fun q => h1 (e'.1.2 q)
    split at h
    · rename_i h2
      have h2' := e'.2.1 h2
      split at h
      · rename_i b r1 hr
        cases h
        obtain ⟨c, hc, -, hw⟩ := IBuf.readExactGo_went _ _ _ _ _ _ _ hr
        exact ⟨c, hw, by rw [if_neg h1', if_pos h2', hc], by omega⟩
      · cases h
    · rename_i h2
      have h2' : ¬second.toNat % 128 = 127 := fun q => h2 (e'.2.2 q)
      cases h
      refine ⟨[], ⟨.refl _, rfl⟩, by rw [if_neg h1', if_neg h2']; rfl, ?_⟩
      rw [low7]
      omega

/-- **C158, the head and what follows (exact).** Whatever interruptions there are, `Request::parse` does what it does without them, the body included. -/
theorem C158_request (env : HttpEnv) (raw : IRaw) :
    Request.parse env raw.calm = (Request.parseI env raw).map (Option.map fun p => { p.1 with body := p.2.calm }) := by
  unfold Request.parse Request.parseI
  have h := headLoopI_calm requestCap [] ⟨[], raw⟩
  rw [show (⟨[], raw.calm⟩ : Buf) = IBuf.calm ⟨[], raw⟩ from rfl, h]
  cases headLoopI requestCap [] ⟨[], raw⟩ with
  | mk o r =>
    rcases o with _ | _ | head
    · rfl
    · rfl
    · simp only
      unfold Request.ofHead
      cases env.httparse head with
      | none => rfl
      | some req =>
        simp only
        cases req.method with
        | none => rfl
        | some m =>
          simp only
          cases collectHeaders req.headers [] with
          | none => rfl
          | some headers =>
            simp only
            cases findIgnoreCase env headers "host" with
            | none => rfl
            | some host =>
              simp only
              cases requestUrl env m host req.path with
              | none => rfl
              | some url => rfl

/-- non-vacuity: a head in two pieces, with interruptions before, between and after them; what comes after it stays -/
example : headLoopI 10 [] ⟨[], [.intr, .data [71, 13], .intr, .intr, .data [10, 13, 10, 104], .intr, .data [105]]⟩ =
    (some (some [71, 13, 10, 13, 10]), ⟨[104], [.intr, .data [105]]⟩) := by decide +kernel

/-- **C158, `Response::parse`**, likewise. -/
theorem C158_response (env : HttpEnv) (raw : IRaw) :
    Response.parse env raw.calm = (Response.parseI env raw).map (Option.map fun p => { p.1 with body := p.2.calm }) := by
  unfold Response.parse Response.parseI
  have h := headLoopI_calm responseCap [] ⟨[], raw⟩
  rw [show (⟨[], raw.calm⟩ : Buf) = IBuf.calm ⟨[], raw⟩ from rfl, h]
  cases headLoopI responseCap [] ⟨[], raw⟩ with
  | mk o r =>
    rcases o with _ | _ | head
    · rfl
    · rfl
    · simp only
      unfold Response.ofHead
      simp only
      cases collectHeaders (env.httparseRes head).headers [] with
      | none => rfl
      | some headers =>
        simp only
        cases (env.httparseRes head).code with
        | none => rfl
        | some status =>
          simp only
          cases (env.httparseRes head).reason with
          | none => rfl
          | some reason => rfl

/-- **C158, bodies.** Reading a body to its end, as bytes or as text, and copying it to a connection, do what they do without the interruptions. -/
theorem C158_body (b : IBody) (sched : Nat → Nat) (W blk : Nat) (s : Sink) :
    b.calm.intoBytes sched = b.intoBytes sched ∧ b.calm.intoString W sched = b.intoString W sched ∧
      b.calm.copyTo blk s = ((b.copyTo blk s).1, (b.copyTo blk s).2.1.calm, (b.copyTo blk s).2.2) := by
  have hb : b.calm.intoBytes sched = b.intoBytes sched := by
    unfold Body.intoBytes IBody.intoBytes
    rw [IBody.readToEnd_calm]
  refine ⟨hb, ?_, IBody.copyTo_calm blk b s⟩
  unfold Body.intoString IBody.intoString
  rw [hb]
  rfl

/-- non-vacuity: a body of two bytes of which the second comes after two interruptions -/
example : (IBody.mk ⟨[104], [.intr, .intr, .data [105, 106]]⟩ 10000 .byteStream (some 2) 0).intoBytes (fun _ => 31) = .ok [104, 105] := by decide +kernel

/-- **C158, frames (exactly when an interruption is noticed).** `Frame::parse` does what it does without the interruptions, or it fails, and then it has been interrupted before the
frame's first byte, or between the part of the frame before its mask and the mask, and whatever was before the interruption is lost. -/
theorem C158_frame_exact_partial (W : Nat) (raw : IRaw) :
    Frame.parse W raw.calm = ((Frame.parseI W raw).1, (Frame.parseI W raw).2.calm) ∨
      (Frame.parseI W raw).1 = .err .ioError ∧ ∃ pre, raw = pre ++ .intr :: (Frame.parseI W raw).2 ∧ (pre = [] ∨ HeaderBytes pre.calm.bytes) := by
  unfold Frame.parse Frame.parseI
  rw [show (⟨[], raw.calm⟩ : Buf) = IBuf.calm ⟨[], raw⟩ from rfl]
  cases hr : (IBuf.mk [] raw).read defaultCap 2 with
  | mk g r1 =>
    have hc := IBuf.read_calm hr
    cases g with
    | fail => left; simp only at hc ⊢; rw [hc]; rfl
    | intr => exact .inr ⟨rfl, [], (IBuf.read_intr hr).2.2, .inl rfl⟩
    | ok b =>
      simp only at hc
      rw [hc]
      obtain ⟨hw, -⟩ := (show Went _ b r1 ∧ b.length ≤ 2 from IBuf.read_went hr)
      rcases b with _ | ⟨first, _ | ⟨second, _ | ⟨third, b⟩⟩⟩
      · left; rfl
      · left; rfl
      · simp only
        cases opCodeOfNibble (first &&& 0x0F) with
        | none => left; rfl
        | some opCode =>
          simp only
          rw [readPayloadLengthI_calm]
          cases hl : readPayloadLengthI second r1 with
          | mk o r2 =>
            cases o with
            | none => left; rfl
            | some L =>
              simp only
              split
              · left; rfl
              · rename_i hm
                split
                · rename_i hL
                  by_cases hi : (r2.read defaultCap 4).1 = .intr
                  · right
                    cases hr2 : r2.read defaultCap 4 with
                    | mk g2 r3 =>
                      rw [hr2] at hi
                      simp only at hi
                      subst hi
                      have hp : readPayloadI W (first &&& 0x80 != 0) L r2 = (.err .ioError, r3) := by
                        unfold readPayloadI
                        rw [hr2]
                      rw [hp]
                      refine ⟨rfl, ?_⟩
                      obtain ⟨hb2, hb3, hraw⟩ := IBuf.read_intr hr2
                      obtain ⟨ext, hw2, hlen, hnz⟩ := readPayloadLengthI_went hl
                      have hall := hw.trans hw2
                      have htail := hall.tail
                      rw [hraw] at htail
                      obtain ⟨pre, hpre⟩ := htail.of_intr
                      simp only at hpre
                      refine ⟨pre, hpre, .inr ⟨first, second, ext, ?_, ?_, hlen⟩⟩
                      · have hby := hall.bytes
                        rw [hb2, hraw] at hby
                        simp only [List.nil_append, IRaw.calm] at hby
                        rw [hpre, IRaw.calm_append] at hby
                        simp only [IRaw.calm] at hby
                        exact List.append_cancel_right hby
                      · have h128 : (second &&& 0x80 != 0) = true := by
                          simp only [Bool.and_eq_true, decide_eq_true_eq, Bool.not_eq_true', not_and, Bool.not_eq_false] at hm
                          exact hm hL
                        rw [bit7] at h128
                        have h1 : second.toNat / 128 % 2 = 1 := by simpa using h128
                        have h2 := hnz hL
                        have h3 : second.toNat < 256 := second.toNat_lt
                        omega
                  · left
                    rw [readPayloadI_calm W _ L r2 hi]
                    cases readPayloadI W (first &&& 0x80 != 0) L r2 with
                    | mk o r3 => cases o <;> rfl
                · left; rfl
      · left; rfl

/-- **C158, frames: everywhere else an interruption goes unnoticed.** -/
theorem C158_frame_partial (W : Nat) (raw : IRaw)
    (h : ∀ pre rest : IRaw, raw = pre ++ .intr :: rest → pre ≠ [] ∧ ¬HeaderBytes pre.calm.bytes) :
    Frame.parse W raw.calm = ((Frame.parseI W raw).1, (Frame.parseI W raw).2.calm) := by
  rcases C158_frame_exact_partial W raw with h1 | ⟨-, pre, h2, h3 | h3⟩
  · exact h1
  · exact absurd h3 (h pre _ h2).1
  · exact absurd h3 (h pre _ h2).2

/-- non-vacuity: a text frame, with interruptions inside its payload and after it, is read -/
example : (∀ pre rest : IRaw, [.data [0x81, 0x82, 0, 0, 0, 0, 0x68], .intr, .data [0x69], .intr] = pre ++ .intr :: rest → pre ≠ [] ∧ ¬HeaderBytes pre.calm.bytes) ∧
    Frame.parseI 64 [.data [0x81, 0x82, 0, 0, 0, 0, 0x68], .intr, .data [0x69], .intr] = (.ok ⟨true, false, false, false, .text, [0x68, 0x69]⟩, [.intr]) := by
  refine ⟨fun pre rest h => ?_, by decide +kernel⟩
  rcases pre with _ | ⟨a, _ | ⟨b, _ | ⟨c, _ | ⟨d, pre⟩⟩⟩⟩
  · simp at h
  · simp only [List.cons_append, List.nil_append, List.cons.injEq] at h
    obtain ⟨rfl, -⟩ := h
    refine ⟨by simp, ?_⟩
    rintro ⟨f, s, ext, h1, -, h2⟩
    simp only [IRaw.calm, Raw.bytes, List.append_nil, List.cons.injEq] at h1
    obtain ⟨-, rfl, rfl⟩ := h1
    exact absurd h2 (by decide)
  · simp at h
  · simp only [List.cons_append, List.nil_append, List.cons.injEq] at h
    obtain ⟨rfl, rfl, rfl, -⟩ := h
    refine ⟨by simp, ?_⟩
    rintro ⟨f, s, ext, h1, -, h2⟩
    simp only [IRaw.calm, Raw.bytes, List.append_nil, List.cons_append, List.nil_append, List.cons.injEq] at h1
    obtain ⟨-, rfl, rfl⟩ := h1
    exact absurd h2 (by decide)
  · simp at h

theorem IBuf.readRetry_buffered {cap n : Nat} {b : Bytes} {raw : IRaw} (hb : b ≠ []) : (IBuf.mk b raw).readRetry cap n = (some (b.take n), ⟨b.drop n, raw⟩) := by
  have h : (IBuf.mk b raw).read cap n = (.ok (b.take n), ⟨b.drop n, raw⟩) := by
    unfold IBuf.read IBuf.fillBuf
    rw [if_neg (fun q => hb q.1), if_neg hb]
  rw [IBuf.readRetry]
  split <;> (rename_i h2; rw [h] at h2; cases h2)
  rfl

theorem IBuf.readExact_buffered {cap : Nat} {b : Bytes} {raw : IRaw} (hb : b ≠ []) : (IBuf.mk b raw).readExact cap b.length = (some b, ⟨[], raw⟩) := by
  unfold IBuf.readExact
  cases hn : b.length with
  | zero => exact absurd (List.length_eq_zero_iff.1 hn) hb
  | succ n =>
    rw [IBuf.readExactGo, IBuf.readRetry_buffered hb]
    simp only
    rw [← hn, List.take_length, List.drop_length]
    simp only [if_neg hb, Nat.sub_self, List.nil_append]
    cases n <;> rfl

/-- **C158, frames: between the header and the mask.** Let the header of a masked frame with a payload arrive in one read, and the next read be interrupted: the parser fails, and the header is lost. -/
theorem C158_lost_partial (W : Nat) (first second : UInt8) (ext : Bytes) (rest : IRaw) (h128 : 128 ≤ second.toNat)
    (hlen : ext.length = (if second.toNat % 128 = 126 then 2 else if second.toNat % 128 = 127 then 8 else 0))
    (hpos : 0 < if second.toNat % 128 < 126 then second.toNat % 128 else valueBE ext) :
    Frame.parseI W (.data (first :: second :: ext) :: .intr :: rest) = (.err .ioError, rest) := by
  have hle : ext.length ≤ 8 := by rw [hlen]; split <;> (try split) <;> omega
  have e : ∀ n : Fin 256, ((UInt8.ofFin n &&& 0x7F) = 126 ↔ (UInt8.ofFin n).toNat % 128 = 126) ∧ ((UInt8.ofFin n &&& 0x7F) = 127 ↔ (UInt8.ofFin n).toNat % 128 = 127) := by
    decide +kernel
  have e' := u8_forall (P := fun b => ((b &&& 0x7F) = 126 ↔ b.toNat % 128 = 126) ∧ ((b &&& 0x7F) = 127 ↔ b.toNat % 128 = 127)) e second
  have h1 : (IBuf.mk [] (.data (first :: second :: ext) :: .intr :: rest)).read defaultCap 2 = (.ok [first, second], ⟨ext, .intr :: rest⟩) := by
    unfold IBuf.read IBuf.fillBuf
    rw [if_neg (fun q => absurd q.2 (by decide)), if_pos rfl]
    simp only [IRaw.read]
    rw [if_pos (by simp only [List.length_cons, defaultCap]; omega)]
    rfl
  have h2 : ∃ L, 0 < L ∧ readPayloadLengthI second ⟨ext, .intr :: rest⟩ = (some L, ⟨[], .intr :: rest⟩) := by
    unfold readPayloadLengthI
    by_cases c1 : second.toNat % 128 = 126
    · rw [if_pos (e'.1.2 c1)]
      rw [if_pos c1] at hlen
      rw [if_neg (by omega)] at hpos
      have hne : ext ≠ [] := by intro q; rw [q] at hlen; simp at hlen
      have := IBuf.readExact_buffered (cap := defaultCap) (raw := .intr :: rest) hne
      rw [hlen] at this
      rw [this]
      exact ⟨_, by rw [beNat_eq]; exact hpos, rfl⟩
    · rw [if_neg (fun q => c1 (e'.1.1 q))]
      rw [if_neg c1] at hlen
      by_cases c2 : second.toNat % 128 = 127
      · rw [if_pos (e'.2.2 c2)]
        rw [if_pos c2] at hlen
        rw [if_neg (by omega)] at hpos
        have hne : ext ≠ [] := by intro q; rw [q] at hlen; simp at hlen
        have := IBuf.readExact_buffered (cap := defaultCap) (raw := .intr :: rest) hne
        rw [hlen] at this
        rw [this]
        exact ⟨_, by rw [beNat_eq]; exact hpos, rfl⟩
      · rw [if_neg (fun q => c2 (e'.2.1 q))]
        rw [if_neg c2] at hlen
        rw [if_pos (by omega)] at hpos
        rw [List.length_eq_zero_iff.1 hlen]
        exact ⟨_, by rw [low7]; exact hpos, rfl⟩
  obtain ⟨L, hL, h2⟩ := h2
  unfold Frame.parseI
  rw [h1]
  simp only
  rw [opCodeOfNibble_eq]
  simp only
  rw [h2]
  have hm : (second &&& 0x80 != 0) = true := by
    rw [bit7]
    have h3 : second.toNat < 256 := second.toNat_lt
    have : second.toNat / 128 = 1 := by omega
    rw [this]
    rfl
  simp only [hm, Bool.not_true, Bool.and_false, Bool.false_eq_true, if_false, gt_iff_lt, hL, if_true]
  rfl

/-- **C158, frames: before the first byte**, an interruption is reported as an error, and nothing is lost: the next call reads the frame. -/
theorem C158_retry_partial (W : Nat) (rest : IRaw) : Frame.parseI W (.intr :: rest) = (.err .ioError, rest) := rfl

/-- **C158 is false of the code.** A client sends one text message; the server is interrupted after the frame's first two bytes.  It reports an error, and reads the mask and the
payload as a frame: a close frame, which the client has not sent. -/
theorem C158_interrupt_refuted : ∃ (head tail rest : Bytes) (f : Frame), f.opCode = .text ∧
    Frame.parse 64 (IRaw.calm [.data head, .intr, .data tail]) = (.ok f, []) ∧
    Frame.parseI 64 [.data head, .intr, .data tail] = (.err .ioError, [.data tail]) ∧
    (Frame.parseI 64 [.data tail]).1 = .ok ⟨true, false, false, false, .terminate, rest⟩ :=
  ⟨[0x81, 0x82], [0x88, 0x80, 0, 0, 0xE0, 0xE9], [], ⟨true, false, false, false, .text, [0x68, 0x69]⟩, rfl, by decide +kernel, by decide +kernel, by decide +kernel⟩

end Puck
