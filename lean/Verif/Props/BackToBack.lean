import Verif.Props.FrameParse
import Verif.Spec.Conform
/-!
# Exactly when frames sent back to back are all delivered (C10)
-/
namespace Puck
open Rfc6455

/-- Every read delivers at most 8 KiB (the size of the buffer that the parser reads into). -/
def Raw.Small (r : Raw) : Prop := ∀ b, Ev.data b ∈ r → b.length ≤ 8192

/-- `out` was read from `r`, in whole blocks, leaving `r'` -/
def Buf.Took (r : Buf) (out : Bytes) (r' : Buf) : Prop :=
  ∃ es, r.raw = es ++ r'.raw ∧ r.buf ++ Raw.bytes es = out ++ r'.buf

theorem Buf.Took.refl (r : Buf) : r.Took [] r := ⟨[], rfl, by simp [Raw.bytes]⟩

theorem Buf.Took.trans {r r' r'' : Buf} {a b : Bytes} (h : r.Took a r') (h' : r'.Took b r'') : r.Took (a ++ b) r'' := by
  obtain ⟨es, e1, e2⟩ := h
  obtain ⟨es', e1', e2'⟩ := h'
  refine ⟨es ++ es', by rw [e1, e1', List.append_assoc], ?_⟩
  rw [Raw.bytes_append, ← List.append_assoc, e2, List.append_assoc, e2', List.append_assoc]

theorem Raw.Small.suffix {a b : Raw} (h : Raw.Small (a ++ b)) : Raw.Small b := fun x hx => h x (List.mem_append_right _ hx)
theorem Buf.Took.small {r r' : Buf} {a : Bytes} (h : r.Took a r') (hs : r.raw.Small) : r'.raw.Small := by
  obtain ⟨es, e1, -⟩ := h
  rw [e1] at hs
  exact hs.suffix

theorem rawRead_took {cap : Nat} (hcap : 8192 ≤ cap) {raw raw' : Raw} {b : Bytes} (hs : raw.Small) (h : raw.read cap = (some b, raw')) :
    ∃ es, raw = es ++ raw' ∧ Raw.bytes es = b := by
  cases raw with
  | nil => simp [Raw.read] at h; obtain ⟨rfl, rfl⟩ := h; exact ⟨[], rfl, rfl⟩
  | cons e raw =>
    cases e with
    | fail => simp [Raw.read] at h
    | data x =>
      have := hs x List.mem_cons_self
      simp only [Raw.read] at h
      rw [if_pos (by omega)] at h
      simp only [Prod.mk.injEq, Option.some.injEq] at h
      obtain ⟨rfl, rfl⟩ := h
      exact ⟨[.data x], rfl, by simp [Raw.bytes]⟩

theorem read_took {n : Nat} {r r' : Buf} {b : Bytes} (hs : r.raw.Small) (h : r.read defaultCap n = (some b, r')) : r.Took b r' := by
  unfold Buf.read at h
  split at h
  · rename_i hc
    obtain ⟨hb, hn⟩ := hc
    cases hr : r.raw.read n with
    | mk o raw =>
      cases o with
      | none => simp only [hr] at h; cases h
      | some x =>
        simp only [hr, Prod.mk.injEq, Option.some.injEq] at h
        obtain ⟨rfl, rfl⟩ := h
        obtain ⟨es, e1, e2⟩ := rawRead_took (show 8192 ≤ n from hn) hs hr
        exact ⟨es, e1, by simp [hb, e2]⟩
  · unfold Buf.fillBuf at h
    by_cases hb : r.buf = []
    · simp only [hb, if_true] at h
      cases hr : r.raw.read defaultCap with
      | mk o raw =>
        cases o with
        | none => simp only [hr] at h; cases h
        | some x =>
          simp only [hr, Prod.mk.injEq, Option.some.injEq] at h
          obtain ⟨rfl, rfl⟩ := h
          obtain ⟨es, e1, e2⟩ := rawRead_took (show 8192 ≤ defaultCap from Nat.le_refl _) hs hr
          exact ⟨es, e1, by simp [hb, e2]⟩
    · simp only [hb, if_false, Prod.mk.injEq, Option.some.injEq] at h
      obtain ⟨rfl, rfl⟩ := h
      exact ⟨[], rfl, by simp [Raw.bytes]⟩

theorem readExactGo_took : ∀ (f n : Nat) (acc : Bytes) (r r' : Buf) (b : Bytes), r.raw.Small → r.readExactGo defaultCap f n acc = (some b, r') →
    ∃ c, b = acc ++ c ∧ r.Took c r' ∧ (∀ m, n = m → c.length = m ∨ m < c.length)
  | _, 0, acc, r, r', b, _, h => by
    simp only [Buf.readExactGo, Prod.mk.injEq, Option.some.injEq] at h
    obtain ⟨rfl, rfl⟩ := h
    exact ⟨[], by simp, .refl _, by rintro m rfl; simp⟩
  | 0, n + 1, acc, r, r', b, _, h => by simp [Buf.readExactGo] at h
  | f + 1, n + 1, acc, r, r', b, hs, h => by
    rw [Buf.readExactGo] at h
    cases hr : r.read defaultCap (n + 1) with
    | mk o r1 =>
      cases o with
      | none => simp only [hr] at h; cases h
      | some x =>
        simp only [hr] at h
        split at h
        · cases h
        · have h1 := read_took hs hr
          obtain ⟨c, e1, e2, e3⟩ := readExactGo_took f (n + 1 - x.length) (acc ++ x) r1 r' b (h1.small hs) h
          refine ⟨x ++ c, by simp [e1], h1.trans e2, ?_⟩
          rintro m rfl
          have := e3 _ rfl
          simp only [List.length_append]
          omega

theorem takeToEndGo_took : ∀ (f n : Nat) (acc : Bytes) (r r' : Buf) (b : Bytes), r.raw.Small → r.takeToEndGo defaultCap f n acc = (some b, r') →
    ∃ c, b = acc ++ c ∧ r.Took c r'
  | _, 0, acc, r, r', b, _, h => by
    simp only [Buf.takeToEndGo, Prod.mk.injEq, Option.some.injEq] at h
    obtain ⟨rfl, rfl⟩ := h
    exact ⟨[], by simp, .refl _⟩
  | 0, n + 1, acc, r, r', b, _, h => by
    simp only [Buf.takeToEndGo, Prod.mk.injEq, Option.some.injEq] at h
    obtain ⟨rfl, rfl⟩ := h
    exact ⟨[], by simp, .refl _⟩
  | f + 1, n + 1, acc, r, r', b, hs, h => by
    rw [Buf.takeToEndGo] at h
    cases hr : r.read defaultCap (n + 1) with
    | mk o r1 =>
      cases o with
      | none => simp only [hr] at h; cases h
      | some x =>
        simp only [hr] at h
        have h1 := read_took hs hr
        split at h
        · rename_i hx
          simp only [Prod.mk.injEq, Option.some.injEq] at h
          obtain ⟨rfl, rfl⟩ := h
          exact ⟨[], by simp, by rw [hx] at h1; exact h1⟩
        · obtain ⟨c, e1, e2⟩ := takeToEndGo_took f (n + 1 - x.length) (acc ++ x) r1 r' b (h1.small hs) h
          exact ⟨x ++ c, by simp [e1], h1.trans e2⟩

/-- the bytes of a frame with a payload of `n > 0` bytes in the shortest form -/
def shortestSize (n : Nat) : Nat := shortestHeader n + 4 + n

theorem encode_length (f : ClientFrame) (h : f.form = Form.shortest f.payload.length) : f.encode.length = shortestSize f.payload.length := by
  unfold ClientFrame.encode ClientFrame.head shortestSize shortestHeader
  simp only [List.length_append, length_headBytes, length_mask]
  rw [h]
  unfold Form.shortest
  by_cases h1 : f.payload.length ≤ 125
  · simp [h1, Key.bytes]
  · by_cases h2 : f.payload.length ≤ 65535
    · simp [h1, h2, Key.bytes]
    · simp [h1, h2, Key.bytes]

theorem read_length {n : Nat} {r r' : Buf} {b : Bytes} (h : r.read defaultCap n = (some b, r')) : b.length ≤ n := by
  unfold Buf.read at h
  split at h
  · cases hr : r.raw.read n with
    | mk o raw =>
      cases o with
      | none => simp only [hr] at h; cases h
      | some x =>
        simp only [hr, Prod.mk.injEq, Option.some.injEq] at h
        obtain ⟨rfl, -⟩ := h
        unfold Raw.read at hr
        split at hr
        · simp at hr; rw [hr.1]; simp
        · simp at hr
        · split at hr
          · simp at hr; rw [← hr.1]; assumption
          · simp at hr; rw [← hr.1]; simp; omega
  · cases hr : r.fillBuf defaultCap with
    | mk o r1 =>
      cases o with
      | none => simp only [hr] at h; cases h
      | some x =>
        simp only [hr, Prod.mk.injEq, Option.some.injEq] at h
        obtain ⟨rfl, -⟩ := h
        simp; omega

theorem readExactGo_length : ∀ (f n : Nat) (acc : Bytes) (r r' : Buf) (b : Bytes), r.readExactGo defaultCap f n acc = (some b, r') →
    b.length ≤ acc.length + n
  | _, 0, acc, r, r', b, h => by
    simp only [Buf.readExactGo, Prod.mk.injEq, Option.some.injEq] at h
    obtain ⟨rfl, -⟩ := h
    simp
  | 0, n + 1, acc, r, r', b, h => by simp [Buf.readExactGo] at h
  | f + 1, n + 1, acc, r, r', b, h => by
    rw [Buf.readExactGo] at h
    cases hr : r.read defaultCap (n + 1) with
    | mk o r1 =>
      cases o with
      | none => simp only [hr] at h; cases h
      | some x =>
        simp only [hr] at h
        split at h
        · cases h
        · have h1 := read_length hr
          have := readExactGo_length f (n + 1 - x.length) (acc ++ x) r1 r' b h
          simp only [List.length_append] at this
          omega

theorem readExact_took {n : Nat} {r r' : Buf} {b : Bytes} (hs : r.raw.Small) (h : r.readExact defaultCap n = (some b, r')) :
    r.Took b r' ∧ b.length = n := by
  obtain ⟨c, e1, e2, e3⟩ := readExactGo_took n n [] r r' b hs h
  have := readExactGo_length n n [] r r' b h
  have h3 := e3 n rfl
  simp only [List.nil_append] at e1
  subst e1
  exact ⟨e2, by simp at this; omega⟩

theorem seven_cases (s : UInt8) (h : (s &&& 0x7F) ≠ 126) (h' : (s &&& 0x7F) ≠ 127) : (s &&& 0x7F).toNat ≤ 125 := by
  have h1 : (s &&& 0x7F).toNat ≠ 126 := fun e => h (UInt8.toNat_inj.1 e)
  have h2 : (s &&& 0x7F).toNat ≠ 127 := fun e => h' (UInt8.toNat_inj.1 e)
  have h3 : (s &&& 0x7F).toNat ≤ 127 := by
    rw [UInt8.toNat_and]
    exact Nat.and_le_right
  omega

theorem length_took {r r' : Buf} {second : UInt8} {L : Nat} (hs : r.raw.Small) (h : readPayloadLength second r = (some L, r')) :
    ∃ c, r.Took c r' ∧ shortestHeader L ≤ 2 + c.length := by
  unfold readPayloadLength at h
  split at h
  · cases hr : r.readExact defaultCap 2 with
    | mk o r1 =>
      cases o with
      | none => simp only [hr] at h; cases h
      | some b =>
        simp only [hr, Prod.mk.injEq, Option.some.injEq] at h
        obtain ⟨rfl, rfl⟩ := h
        obtain ⟨h1, h2⟩ := readExact_took hs hr
        refine ⟨b, h1, ?_⟩
        have := valueBE_lt b
        rw [h2] at this
        rw [beNat_eq, h2]
        unfold shortestHeader
        split
        · omega
        · rw [if_pos (by omega)]; omega
  · split at h
    · cases hr : r.readExact defaultCap 8 with
      | mk o r1 =>
        cases o with
        | none => simp only [hr] at h; cases h
        | some b =>
          simp only [hr, Prod.mk.injEq, Option.some.injEq] at h
          obtain ⟨rfl, rfl⟩ := h
          obtain ⟨h1, h2⟩ := readExact_took hs hr
          refine ⟨b, h1, ?_⟩
          rw [h2]
          unfold shortestHeader
          split
          · omega
          · split <;> omega
    · rename_i h1 h2
      simp only [Prod.mk.injEq, Option.some.injEq] at h
      obtain ⟨rfl, rfl⟩ := h
      refine ⟨[], .refl _, ?_⟩
      have := seven_cases second h1 h2
      unfold shortestHeader
      rw [if_pos this]; simp

theorem shortestHeader_mono {m n : Nat} (h : m ≤ n) : shortestHeader m ≤ shortestHeader n := by
  unfold shortestHeader
  repeat' split
  all_goals omega

theorem readPayload_took {W : Nat} {fin : Bool} {L : Nat} {r r' : Buf} {d : Bytes} (hs : r.raw.Small)
    (h : readPayload W fin L r = (.ok d, r')) : ∃ c, r.Took c r' ∧ 4 + d.length = c.length ∧ d.length ≤ L := by
  unfold readPayload at h
  cases hr : r.read defaultCap 4 with
  | mk o r1 =>
    cases o with
    | none => simp only [hr] at h; cases h
    | some key =>
      simp only [hr] at h
      split at h
      · cases h
      · rename_i hk
        split at h
        · cases h
        · split at h
          · cases h
          cases ht : r1.takeToEnd defaultCap L with
          | mk o r2 =>
            cases o with
            | none => simp only [ht] at h; cases h
            | some enc =>
              simp only [ht] at h
              · split at h
                · split at h <;> cases h
                · rename_i he
                  simp only [Prod.mk.injEq, Outcome.ok.injEq] at h
                  obtain ⟨rfl, rfl⟩ := h
                  have h1 := read_took hs hr
                  obtain ⟨c, e1, e2⟩ := takeToEndGo_took L L [] r1 r2 enc (h1.small hs) ht
                  simp only [List.nil_append] at e1
                  subst e1
                  refine ⟨key ++ enc, h1.trans e2, ?_, ?_⟩
                  · simp [unmask]; omega
                  · simp only [unmask, List.length_mapIdx]
                    have : L % 2 ^ W ≤ L := Nat.mod_le _ _
                    omega

/-- A frame that is read with a payload took at least the bytes of its shortest form. -/
theorem parse_consumes {W : Nat} {raw raw' : Raw} {fr : Frame} (hs : raw.Small) (h : Frame.parse W raw = (.ok fr, raw')) (hd : fr.decoded ≠ []) :
    ∃ es, raw = es ++ raw' ∧ shortestSize fr.decoded.length ≤ (Raw.bytes es).length := by
  unfold Frame.parse at h
  cases hr : (Buf.mk [] raw).read defaultCap 2 with
  | mk o r =>
    simp only [hr] at h
    split at h
    · cases h
    · rename_i first second r0 he
      simp only [Prod.mk.injEq] at he
      obtain ⟨rfl, rfl⟩ := he
      have h0 := read_took (r := ⟨[], raw⟩) hs hr
      split at h
      · cases h
      · cases hl : readPayloadLength second r with
        | mk o r1 =>
          cases o with
          | none => simp only [hl] at h; cases h
          | some L =>
            simp only [hl] at h
            obtain ⟨c, h1, h2⟩ := length_took (h0.small hs) hl
            split at h
            · cases h
            · split at h
              · cases hp : readPayload W (first &&& 0x80 != 0) L r1 with
                | mk o r2 =>
                  cases o with
                  | err e => simp only [hp] at h; cases h
                  | panic => simp only [hp] at h; cases h
                  | ok d =>
                    simp only [hp, Prod.mk.injEq, Outcome.ok.injEq] at h
                    obtain ⟨rfl, rfl⟩ := h
                    obtain ⟨c', h3, h4, h5⟩ := readPayload_took (h1.small (h0.small hs)) hp
                    obtain ⟨es, e1, e2⟩ := (h0.trans h1).trans h3
                    refine ⟨es, e1, ?_⟩
                    have := congrArg List.length e2
                    have hm := shortestHeader_mono h5
                    simp only [List.length_append, List.length_nil, List.length_cons] at this
                    simp only [shortestSize]
                    omega
              · simp only [Prod.mk.injEq, Outcome.ok.injEq] at h
                obtain ⟨rfl, -⟩ := h
                exact absurd rfl hd
    · cases h

theorem parseN_consumes {W : Nat} : ∀ (fs : List ClientFrame) (raw : Raw), raw.Small → (∀ f ∈ fs, f.payload ≠ [] ∧ f.form = Form.shortest f.payload.length) →
    (parseN W fs.length raw).1 = fs.map (fun f => .ok (frameOf f)) → ((fs.map ClientFrame.encode).flatten).length ≤ (Raw.bytes raw).length
  | [], _, _, _, _ => by simp
  | f :: fs, raw, hs, hf, h => by
    have h0 := hf f List.mem_cons_self
    simp only [List.length_cons, parseN] at h
    cases hp : Frame.parse W raw with
    | mk o raw' =>
      cases o with
      | err e => simp [hp] at h
      | panic => simp [hp] at h
      | ok fr =>
        simp only [hp, List.map_cons, List.cons.injEq, Outcome.ok.injEq] at h
        obtain ⟨rfl, h⟩ := h
        obtain ⟨es, e1, e2⟩ := parse_consumes hs hp h0.1
        subst e1
        have := parseN_consumes fs raw' hs.suffix (fun g hg => hf g (List.mem_cons_of_mem _ hg)) h
        simp only [frameOf] at e2
        rw [← encode_length f h0.2] at e2
        simp only [List.map_cons, List.flatten_cons, List.length_append, Raw.bytes_append]
        omega

theorem Raw.Boundary.append {es rest : Raw} {k : Nat} (h : es.Boundary k) : Raw.Boundary (es ++ rest) k := by
  obtain ⟨h0, a, c, e1, e2⟩ := h
  exact ⟨h0, a, c ++ rest, by rw [e1, List.append_assoc], e2⟩

theorem deliveries {W : Nat} : ∀ (fs : List ClientFrame) (raw : Raw), raw.WF → raw.Clean → raw.Small →
    (∀ f ∈ fs, f.Valid ∧ f.payload ≠ [] ∧ f.payload.length ≤ isizeMax W ∧ f.form = Form.shortest f.payload.length) →
    raw.bytes = (fs.map ClientFrame.encode).flatten →
    (parseN W fs.length raw).1 = fs.map (fun f => .ok (frameOf f)) →
    ∃ ds : List Delivery, (∀ d ∈ ds, d.Ok W) ∧ ds.map Delivery.frame = fs ∧ (ds.map Delivery.reads).flatten = raw
  | [], raw, hw, hc, _, _, hb, _ => ⟨[], by simp, rfl, by rw [Raw.bytes_eq_nil hw hc hb]; rfl⟩
  | f :: fs, raw, hw, hc, hs, hf, hb, h => by
    obtain ⟨hv, hne, hm, hsh⟩ := hf f List.mem_cons_self
    have hav : raw.avail = raw.bytes := by
      have := Raw.avail_of_split (es := raw) (rest := []) hc (Or.inl rfl)
      rwa [List.append_nil] at this
    have hpre : f.encode <+: raw.avail := by
      rw [hav, hb]
      exact List.prefix_append _ _
    have h0 := h
    simp only [List.length_cons, parseN] at h
    cases hp : Frame.parse W raw with
    | mk o raw' =>
      cases o with
      | err e => simp [hp] at h
      | panic => simp [hp] at h
      | ok fr =>
        simp only [hp, List.map_cons, List.cons.injEq, Outcome.ok.injEq] at h
        obtain ⟨rfl, h⟩ := h
        have hu : raw.Unsplit f.head.length := by
          rcases C05_segmentation_partial W f raw hv hne hw hpre hm with ⟨hu, -⟩ | ⟨-, he⟩
          · exact hu
          · rw [hp] at he; cases he
        obtain ⟨es, e1, e2⟩ := parse_consumes hs hp hne
        subst e1
        have hf' : ∀ g ∈ fs, g.Valid ∧ g.payload ≠ [] ∧ g.payload.length ≤ isizeMax W ∧ g.form = Form.shortest g.payload.length :=
          fun g hg => hf g (List.mem_cons_of_mem _ hg)
        have hcount := parseN_consumes fs raw' hs.suffix (fun g hg => ⟨(hf' g hg).2.1, (hf' g hg).2.2.2⟩) h
        simp only [frameOf] at e2
        rw [← encode_length f hsh] at e2
        simp only [List.map_cons, List.flatten_cons, Raw.bytes_append] at hb
        have hlen : (Raw.bytes es).length = f.encode.length := by
          have := congrArg List.length hb
          simp only [List.length_append] at this
          omega
        obtain ⟨b1, b2⟩ := List.append_inj hb hlen
        have hc' : Raw.Clean es ∧ Raw.Clean raw' :=
          ⟨fun x => hc (List.mem_append_left _ x), fun x => hc (List.mem_append_right _ x)⟩
        obtain ⟨ds, d1, d2, d3⟩ := deliveries fs raw' hw.right hc'.2 hs.suffix hf' b2 h
        refine ⟨⟨f, es⟩ :: ds, ?_, by simp [d2], by simp [d3]⟩
        intro d hd
        rcases List.mem_cons.1 hd with rfl | hd
        · exact ⟨hv, hm, Or.inl ⟨hne, hw.left, hc'.1, b1, fun x => hu.1 x.append, fun x => hu.2.1 x.append, fun x => hu.2.2.1 x.append,
            fun x => hu.2.2.2 x.append⟩⟩
        · exact d1 d hd

/-- **C10, exactly**: frames with payloads, in the shortest form, sent back to back and arriving in reads of at most 8 KiB, are all delivered
if and only if the reads can be divided among the frames: each frame in reads of its own, none of which divides the first two bytes or the
mask key.  (`Delivery.Ok`, the condition of C05 and C10_aligned_partial.) -/
theorem C10_exact_partial (W : Nat) (fs : List ClientFrame) (raw : Raw) (hw : raw.WF) (hc : raw.Clean) (hs : raw.Small)
    (hf : ∀ f ∈ fs, f.Valid ∧ f.payload ≠ [] ∧ f.payload.length ≤ isizeMax W ∧ f.form = Form.shortest f.payload.length)
    (hb : raw.bytes = (fs.map ClientFrame.encode).flatten) :
    (parseN W fs.length raw).1 = fs.map (fun f => .ok (frameOf f)) ↔
      ∃ ds : List Delivery, (∀ d ∈ ds, d.Ok W) ∧ ds.map Delivery.frame = fs ∧ (ds.map Delivery.reads).flatten = raw := by
  constructor
  · exact deliveries fs raw hw hc hs hf hb
  · rintro ⟨ds, d1, rfl, rfl⟩
    have := C10_aligned_partial W ds [] d1
    rw [List.append_nil] at this
    rw [List.length_map, this]
    simp

/-- two frames in reads of their own are delivered; the same bytes in one read are not -/
example : (parseN 32 2 [.data demoFrame.encode, .data demoFrame.encode]).1 = [.ok (frameOf demoFrame), .ok (frameOf demoFrame)] ∧
    ¬ ∃ ds : List Delivery, (∀ d ∈ ds, d.Ok 32) ∧ ds.map Delivery.frame = [demoFrame, demoFrame] ∧
      (ds.map Delivery.reads).flatten = [.data (demoFrame.encode ++ demoFrame.encode)] := by
  have hf : ∀ f ∈ [demoFrame, demoFrame], f.Valid ∧ f.payload ≠ [] ∧ f.payload.length ≤ isizeMax 32 ∧ f.form = Form.shortest f.payload.length := by
    intro f h
    simp only [List.mem_cons, List.not_mem_nil, or_false, or_self] at h
    subst h
    decide +kernel
  refine ⟨by decide +kernel, fun h => ?_⟩
  have := (C10_exact_partial 32 [demoFrame, demoFrame] [.data (demoFrame.encode ++ demoFrame.encode)]
    (Raw.WF.nil.cons (by decide +kernel)) (by simp [Raw.Clean]) (by intro b hb; simp at hb; subst hb; decide +kernel) hf (by decide +kernel)).2 h
  revert this
  decide +kernel

end Puck
