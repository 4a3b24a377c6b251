import Verif.Props.BackToBack
/-!
# Frames read in place: empty frames too (C10, C11)
-/
namespace Puck
open Rfc6455

/-- Calling `parse` once for each frame, each call returns its frame and leaves the stream exactly at the next one. -/
def InPlace (W : Nat) : List ClientFrame → Raw → Prop
  | [], _ => True
  | f :: fs, raw => ∃ raw', Frame.parse W raw = (.ok (frameOf f), raw') ∧ raw'.bytes = (fs.map ClientFrame.encode).flatten ∧ InPlace W fs raw'

/-- A header of two bytes that announces nothing is all that is taken from the buffer; what came in the same read is lost. -/
theorem parse_nothing (W : Nat) (b0 : UInt8) (x : Bytes) (hx : x.length + 2 ≤ 8192) (r : Raw) :
    (Frame.parse W (.data (b0 :: 128 :: x) :: r)).2 = r := by
  have hread : (Buf.mk [] (.data (b0 :: 128 :: x) :: r)).read defaultCap 2 = (some [b0, 128], ⟨x, r⟩) := by
    have hc : ¬ defaultCap ≤ 2 := by decide
    have hl2 : (b0 :: 128 :: x).length ≤ defaultCap := by simp only [List.length_cons]; exact hx
    simp only [Buf.read, Buf.fillBuf, Raw.read, hc, hl2, and_false, if_false, if_true, List.take_succ_cons,
      List.take_zero, List.drop_succ_cons, List.drop_zero]
  have hl : readPayloadLength 128 ⟨x, r⟩ = (some 0, ⟨x, r⟩) := by
    unfold readPayloadLength
    rw [if_neg (by decide), if_neg (by decide)]
    rfl
  unfold Frame.parse
  simp only [hread]
  split
  · rfl
  · simp [hl]

/-- **C11, exactly.** An empty masked frame (two bytes and a mask key) at the front of a stream that comes in reads of at most 8 KiB is parsed, and the
stream left exactly after it, if and only if the frame has come in a read of its own. -/
theorem C11_exact_partial (W : Nat) (f : ClientFrame) (raw : Raw) (later : Bytes) (hv : f.Valid) (he : f.payload = []) (hf : f.form = .short)
    (hw : raw.WF) (hs : raw.Small) (hc : raw.Clean) (hb : raw.bytes = f.encode ++ later) :
    (∃ raw', Frame.parse W raw = (.ok (frameOf f), raw') ∧ raw'.bytes = later) ↔ ∃ rest, raw = .data f.encode :: rest := by
  have hd : ∀ rest, Frame.parse W (.data f.encode :: rest) = (.ok (frameOf f), rest) := fun rest =>
    parse_delivery (d := ⟨f, [.data f.encode]⟩) ⟨hv, by rw [he]; exact Nat.zero_le _, Or.inr ⟨he, rfl⟩⟩ rest
  have henc : f.encode = UInt8.ofNat (firstByte f.fin f.rsv1 f.rsv2 f.rsv3 f.nibble) :: 128 :: f.key.bytes := by
    simp only [ClientFrame.encode, ClientFrame.head, he, hf, mask, headBytes]
    simp
  have hlen : f.encode.length = 6 := by rw [henc]; simp [Key.bytes]
  constructor
  · rintro ⟨raw', hp, hl⟩
    cases raw with
    | nil =>
      simp only [Raw.bytes] at hb
      have := congrArg List.length hb
      simp only [List.length_append, List.length_nil] at this
      omega
    | cons e rest =>
      cases e with
      | fail => exact absurd List.mem_cons_self hc
      | data x =>
        have hx := hs x List.mem_cons_self
        have hxne := hw x List.mem_cons_self
        simp only [Raw.bytes] at hb
        rw [henc] at hb
        match x, hxne with
        | [y], _ =>
          exfalso
          have hread : (Buf.mk [] (.data [y] :: rest)).read defaultCap 2 = (some [y], ⟨[], rest⟩) := by
            have hc : ¬ defaultCap ≤ 2 := by decide
            have hl2 : [y].length ≤ defaultCap := by simp [defaultCap]
            simp only [Buf.read, Buf.fillBuf, Raw.read, hc, hl2, and_false, if_false, if_true, List.take_succ_cons,
              List.take_nil, List.drop_succ_cons, List.drop_nil]
          unfold Frame.parse at hp
          simp only [hread] at hp
          cases hp
        | y :: z :: x, _ =>
          simp only [List.cons_append, List.cons.injEq] at hb
          obtain ⟨rfl, rfl, hb⟩ := hb
          have h2 := parse_nothing W (UInt8.ofNat (firstByte f.fin f.rsv1 f.rsv2 f.rsv3 f.nibble)) x hx rest
          rw [hp] at h2
          simp only at h2
          subst h2
          have hxl : x = f.key.bytes := by
            have := congrArg List.length hb
            rw [hl, List.length_append, List.length_append] at this
            rw [hl] at hb
            exact List.append_inj_left hb (by omega)
          exact ⟨raw', by rw [henc, hxl]⟩
  · rintro ⟨rest, rfl⟩
    refine ⟨rest, hd rest, ?_⟩
    simp only [Raw.bytes] at hb
    exact List.append_cancel_left hb

/-- One frame with a payload: what `deliveries` says of the first one. -/
theorem in_place_one {W : Nat} {f : ClientFrame} {raw raw' : Raw} {later : Bytes} (hv : f.Valid) (hne : f.payload ≠ [])
    (hm : f.payload.length ≤ isizeMax W) (hw : raw.WF) (hc : raw.Clean) (hs : raw.Small) (hb : raw.bytes = f.encode ++ later)
    (hp : Frame.parse W raw = (.ok (frameOf f), raw')) (hl : raw'.bytes = later) :
    ∃ es, raw = es ++ raw' ∧ Delivery.Ok W ⟨f, es⟩ := by
  have hav : raw.avail = raw.bytes := by
    have := Raw.avail_of_split (es := raw) (rest := []) hc (Or.inl rfl)
    rwa [List.append_nil] at this
  have hpre : f.encode <+: raw.avail := by
    rw [hav, hb]
    exact List.prefix_append _ _
  have hu : raw.Unsplit f.head.length := by
    rcases C05_segmentation_partial W f raw hv hne hw hpre hm with ⟨hu, -⟩ | ⟨-, he⟩
    · exact hu
    · rw [hp] at he; cases he
  obtain ⟨es, e1, -⟩ := parse_consumes hs hp hne
  subst e1
  rw [Raw.bytes_append, hl] at hb
  have b1 := List.append_cancel_right hb
  exact ⟨es, rfl, hv, hm, Or.inl ⟨hne, hw.left, fun x => hc (List.mem_append_left _ x), b1, fun x => hu.1 x.append, fun x => hu.2.1 x.append,
    fun x => hu.2.2.1 x.append, fun x => hu.2.2.2 x.append⟩⟩

/-- **C10, frame by frame, empty frames included**: frames sent back to back (those without a payload in the form of two bytes), arriving in reads of at most
8 KiB, are read in place - each call returns its frame and leaves the stream at the next one - if and only if the reads can be divided among the
frames as `Delivery.Ok` says: each frame in reads of its own, an empty one in one read, none of which divides the first two bytes or the mask key. -/
theorem C10_in_place_partial (W : Nat) : ∀ (fs : List ClientFrame) (raw : Raw), raw.WF → raw.Clean → raw.Small →
    (∀ f ∈ fs, f.Valid ∧ f.payload.length ≤ isizeMax W ∧ (f.payload = [] → f.form = .short)) →
    raw.bytes = (fs.map ClientFrame.encode).flatten →
    (InPlace W fs raw ↔
      ∃ ds : List Delivery, (∀ d ∈ ds, d.Ok W) ∧ ds.map Delivery.frame = fs ∧ (ds.map Delivery.reads).flatten = raw)
  | [], raw, hw, hc, _, _, hb => by
    refine ⟨fun _ => ⟨[], by simp, rfl, ?_⟩, fun _ => trivial⟩
    rw [Raw.bytes_eq_nil hw hc hb]; rfl
  | f :: fs, raw, hw, hc, hs, hf, hb => by
    obtain ⟨hv, hm, hsh⟩ := hf f List.mem_cons_self
    have hf' := fun g hg => hf g (List.mem_cons_of_mem _ hg)
    simp only [List.map_cons, List.flatten_cons] at hb
    constructor
    · rintro ⟨raw', hp, hl, hi⟩
      have hone : ∃ es, raw = es ++ raw' ∧ Delivery.Ok W ⟨f, es⟩ := by
        by_cases hne : f.payload = []
        · obtain ⟨rest, rfl⟩ := (C11_exact_partial W f raw _ hv hne (hsh hne) hw hs hc hb).1 ⟨raw', hp, hl⟩
          have hok : Delivery.Ok W ⟨f, [.data f.encode]⟩ := ⟨hv, hm, Or.inr ⟨hne, rfl⟩⟩
          have := parse_delivery hok rest
          simp only [List.singleton_append] at this
          rw [this] at hp
          cases hp
          exact ⟨[.data f.encode], rfl, hok⟩
        · exact in_place_one hv hne hm hw hc hs hb hp hl
      obtain ⟨es, rfl, hok⟩ := hone
      obtain ⟨ds, d1, d2, d3⟩ := (C10_in_place_partial W fs raw' hw.right (fun x => hc (List.mem_append_right _ x)) hs.suffix hf' hl).1 hi
      refine ⟨⟨f, es⟩ :: ds, ?_, by simp [d2], by simp [d3]⟩
      intro d hd
      rcases List.mem_cons.1 hd with rfl | hd
      · exact hok
      · exact d1 d hd
    · rintro ⟨ds, d1, d2, d3⟩
      cases ds with
      | nil => cases d2
      | cons d ds =>
        simp only [List.map_cons, List.cons.injEq] at d2
        obtain ⟨rfl, rfl⟩ := d2
        simp only [List.map_cons, List.flatten_cons] at d3
        subst d3
        have hok := d1 d List.mem_cons_self
        have hbytes : Raw.bytes d.reads = d.frame.encode := by
          rcases hok.2.2 with ⟨-, -, -, h, -⟩ | ⟨-, h⟩
          · exact h
          · rw [h]; simp [Raw.bytes]
        rw [Raw.bytes_append, hbytes] at hb
        have hl := List.append_cancel_left hb
        exact ⟨_, parse_delivery hok _, hl, (C10_in_place_partial W _ _ hw.right (fun x => hc (List.mem_append_right _ x)) hs.suffix hf' hl).2
          ⟨ds, fun d hd => d1 d (List.mem_cons_of_mem _ hd), rfl, rfl⟩⟩

/-- An empty ping. -/
def emptyPing : ClientFrame := ⟨true, false, false, false, 9, (1, 2, 3, 4), [], .short⟩

/-- non-vacuity: a ping, a frame and a ping in three reads are read in place; the ping in two reads is not -/
example : InPlace 32 [emptyPing, demoFrame, emptyPing] [.data emptyPing.encode, .data demoFrame.encode, .data emptyPing.encode] ∧
    ¬ InPlace 32 [emptyPing] [.data [137, 128], .data [1, 2, 3, 4]] := by
  have hp : emptyPing.Valid ∧ emptyPing.payload.length ≤ isizeMax 32 := by decide +kernel
  have hd : demoFrame.Valid ∧ demoFrame.payload.length ≤ isizeMax 32 := by decide +kernel
  constructor
  · refine ⟨[.data demoFrame.encode, .data emptyPing.encode], by decide +kernel, by decide +kernel, ?_⟩
    refine ⟨[.data emptyPing.encode], by decide +kernel, by decide +kernel, ?_⟩
    exact ⟨[], by decide +kernel, by decide +kernel, trivial⟩
  · intro h
    obtain ⟨rest, h⟩ := (C11_exact_partial 32 emptyPing [.data [137, 128], .data [1, 2, 3, 4]] [] hp.1 rfl rfl
      ((Raw.WF.nil.cons (by simp)).cons (by simp)) (by intro b hb; simp at hb; rcases hb with rfl | rfl <;> simp) (by simp [Raw.Clean])
      (by decide +kernel)).1 (by
        obtain ⟨raw', h1, h2, -⟩ := h
        exact ⟨raw', h1, h2⟩)
    have h1 : ([137, 128] : Bytes) = emptyPing.encode := by
      simp only [List.cons.injEq, Ev.data.injEq] at h
      exact h.1
    exact absurd h1 (by decide +kernel)

end Puck
