import Verif.Props.FrameParse
import Verif.Lemmas.Account
import Verif.Lemmas.Head
import Verif.Props.Message

/-!
# The word size of the machine (C160)

`usize` has 32 bits on the WebAssembly targets lunatic runs on and 64 on the developer's machine.  A server tested on one is to behave the
same on the other.
-/

namespace Puck
open Rfc6455

/-! ## What is read is what comes next -/

theorem Raw.read_next {n : Nat} {r r' : Raw} {b : Bytes} (h : r.read n = (some b, r')) : r.avail = b ++ r'.avail := by
  cases r with
  | nil => simp only [Raw.read, Prod.mk.injEq, Option.some.injEq] at h; obtain ⟨rfl, rfl⟩ := h; rfl
  | cons e r =>
    cases e with
    | fail => simp [Raw.read] at h
    | data d =>
      simp only [Raw.read] at h
      split at h
      · cases h; simp [Raw.avail]
      · cases h; simp [Raw.avail, ← List.append_assoc]

theorem Buf.read_next {cap n : Nat} {r r' : Buf} {b : Bytes} (h : r.read cap n = (some b, r')) : r.avail = b ++ r'.avail := by
  unfold Buf.read at h
  split at h
  · rename_i hc
    cases e : r.raw.read n with
    | mk o raw =>
      rw [e] at h
      cases o with
      | none => cases h
      | some d => cases h; simp [Buf.avail, hc.1, Raw.read_next e]
  · unfold Buf.fillBuf at h
    by_cases hb : r.buf = []
    · simp only [hb, if_true] at h
      cases e : r.raw.read cap with
      | mk o raw =>
        rw [e] at h
        cases o with
        | none => cases h
        | some d => cases h; simp [Buf.avail, hb, Raw.read_next e, ← List.append_assoc]
    · simp only [hb, if_false] at h
      cases h; simp [Buf.avail, ← List.append_assoc]

theorem Buf.readExactGo_next (cap : Nat) : ∀ (f n : Nat) (acc : Bytes) (r r' : Buf) (b : Bytes),
    Buf.readExactGo cap f n acc r = (some b, r') → ∃ x, b = acc ++ x ∧ r.avail = x ++ r'.avail := by
  intro f
  induction f with
  | zero =>
    intro n acc r r' b h
    cases n <;> simp [Buf.readExactGo] at h
    obtain ⟨rfl, rfl⟩ := h
    exact ⟨[], by simp, by simp⟩
  | succ f ih =>
    intro n acc r r' b h
    cases n with
    | zero => simp [Buf.readExactGo] at h; obtain ⟨rfl, rfl⟩ := h; exact ⟨[], by simp, by simp⟩
    | succ n =>
      rw [Buf.readExactGo] at h
      cases e : r.read cap (n + 1) with
      | mk o r1 =>
        rw [e] at h
        cases o with
        | none => cases h
        | some c =>
          simp only at h
          split at h
          · cases h
          · obtain ⟨x, h1, h2⟩ := ih _ _ _ _ _ h
            exact ⟨c ++ x, by rw [h1, List.append_assoc], by rw [Buf.read_next e, h2, List.append_assoc]⟩

/-- What `readPayloadLength` returns is what the bytes say. -/
theorem readPayloadLength_next {second : UInt8} {r r' : Buf} {L : Nat} (h : readPayloadLength second r = (some L, r')) :
    ∃ k, lenOf second r.avail = some (L, k) := by
  unfold readPayloadLength at h
  unfold lenOf
  simp only [low7_eq] at h
  have step : ∀ n b (rr : Buf), r.readExact defaultCap n = (some b, rr) → n ≤ r.avail.length ∧ r.avail.take n = b := by
    intro n b rr e
    have hl := Buf.readExactGo_length _ _ _ _ _ _ _ e
    obtain ⟨x, h1, h2⟩ := Buf.readExactGo_next _ _ _ _ _ _ _ e
    simp at hl h1
    subst h1
    rw [h2]
    exact ⟨by simp; omega, List.take_left' (by omega)⟩
  split at h
  · rename_i h1
    cases e : r.readExact defaultCap 2 with
    | mk o rr =>
      rw [e] at h
      cases o with
      | none => cases h
      | some b =>
        cases h
        obtain ⟨g1, g2⟩ := step _ _ _ e
        refine ⟨2, ?_⟩
        have : second.toNat % 128 = 126 := h1
        simp [this, g1, g2, beNat_eq]
  · rename_i h1
    split at h
    · rename_i h2
      cases e : r.readExact defaultCap 8 with
      | mk o rr =>
        rw [e] at h
        cases o with
        | none => cases h
        | some b =>
          cases h
          obtain ⟨g1, g2⟩ := step _ _ _ e
          refine ⟨8, ?_⟩
          have : second.toNat % 128 = 127 := h2
          simp [this, g1, g2, beNat_eq]
    · rename_i h2
      cases h
      have e1 : ¬ second.toNat % 128 = 126 := h1
      have e2 : ¬ second.toNat % 128 = 127 := h2
      exact ⟨0, by rw [if_neg e1, if_neg e2, low7]⟩

/-! ## Frames -/

/-- The payload of a frame whose announced length fits is read in the same way. -/
theorem readPayload_word {W W' : Nat} (hle : W ≤ W') (fin : Bool) (L : Nat) (r : Buf) (h : L < 2 ^ (W - 1)) :
    readPayload W fin L r = readPayload W' fin L r := by
  have hp : 2 ^ (W - 1) ≤ 2 ^ (W' - 1) := Nat.pow_le_pow_right (by omega) (by omega)
  have m : ∀ V, W ≤ V → L % 2 ^ V = L := fun V hV => Nat.mod_eq_of_lt (Nat.lt_of_lt_of_le h (Nat.pow_le_pow_right (by omega) (by omega)))
  have big : ∀ V, W ≤ V → ∀ n, n ≤ L → ¬ n > isizeMax V := fun V hV n hn hc => by
    rw [gt_iff_lt, isizeMax_lt_iff] at hc
    have : 2 ^ (W - 1) ≤ 2 ^ (V - 1) := Nat.pow_le_pow_right (by omega) (by omega)
    omega
  unfold readPayload
  simp only [m W (Nat.le_refl _), m W' hle, big W (Nat.le_refl _) L (Nat.le_refl _), big W' hle L (Nat.le_refl _), if_false,
    big W (Nat.le_refl _) _ (Nat.min_le_left _ _), big W' hle _ (Nat.min_le_left _ _)]

/-- **C160, frames.** On two machines whose words have `W` and `W' ≥ W` bits, the frame parser does the same with every stream, segmentation and
error — the result and what is left of the stream — unless the stream begins with the header of a masked frame announcing `2^(W-1)` bytes or more. -/
theorem C160_frame_partial (W W' : Nat) (hle : W ≤ W') (raw : Raw) (h : AnnouncesBelow (W - 1) raw.avail) :
    Frame.parse W raw = Frame.parse W' raw := by
  unfold Frame.parse
  cases e : (Buf.mk [] raw).read defaultCap 2 with
  | mk o r =>
    match o with
    | none => rfl
    | some [] => rfl
    | some [_] => rfl
    | some (_ :: _ :: _ :: _) => rfl
    | some [first, second] =>
      simp only
      cases opCodeOfNibble (first &&& 0x0F) with
      | none => rfl
      | some op =>
        simp only
        cases e2 : readPayloadLength second r with
        | mk o2 r2 =>
          cases o2 with
          | none => rfl
          | some L =>
            simp only
            by_cases hm : (decide (L > 0) && !(second &&& 0x80 != 0)) = true
            · simp only [hm, if_true]
            simp only [hm]
            by_cases hL : L > 0
            · simp only [hL, if_true]
              rw [readPayload_word hle]
              have hav : raw.avail = first :: second :: r.avail := by
                have := Buf.read_next e
                simpa [Buf.avail] using this
              obtain ⟨k, hk⟩ := readPayloadLength_next e2
              obtain ⟨hk1, form, hcar, hhead⟩ := headBytes_of_lenOf (b0 := first) hk
              have hmask : (!decide (second.toNat < 128)) = true := by
                rw [← masked_eq]
                simp [hL] at hm
                simpa using hm
              rw [hmask] at hhead
              apply h _ _ _ _ _ form L (Nat.mod_lt _ (by omega)) hcar
              rw [hhead, hav]
              exact List.cons_prefix_cons.2 ⟨rfl, List.cons_prefix_cons.2 ⟨rfl, List.take_prefix _ _⟩⟩
            · simp only [hL, if_false]

/-- **C160, frames, exactly.** When such a header has arrived with its mask key, and the length is one that the larger machine can deal with, the two
machines differ exactly if the length, truncated to the smaller machine's words, has its top bit set (that machine panics: C09), or if `2^(W-1)` bytes
of the payload arrive (the same), or if the connection ends when just as many bytes have arrived as the truncated length says (C08: that machine takes
them for the whole payload). -/
theorem C160_frame_exact_partial (W W' : Nat) (raw : Raw) (a b c d : Bool) (n : Nat) (form : Form) (L : Nat) (key : Key) (body : Bytes)
    (hwf : raw.WF) (hn : n < 16) (hc : form.Carries L) (hav : raw.avail = headBytes a b c d n true form L ++ key.bytes ++ body)
    (hseg : raw.Unsplit (headBytes a b c d n true form L).length) (hlo : 2 ^ (W - 1) ≤ L) (hhi : L < 2 ^ (W' - 1)) :
    (Frame.parse W raw).1 ≠ (Frame.parse W' raw).1 ↔
      2 ^ (W - 1) ≤ L % 2 ^ W ∨ 2 ^ (W - 1) ≤ body.length ∨ (raw.Clean ∧ body.length = L % 2 ^ W) := by
  have hL : L ≠ 0 := by have : 0 < 2 ^ (W - 1) := Nat.pow_pos (by omega); omega
  rw [parse_head hwf hn hc (by rw [hav, List.append_assoc]), parse_head hwf hn hc (by rw [hav, List.append_assoc])]
  obtain ⟨u0, u1, u2, u3⟩ := hseg
  have hne : key.bytes ++ body ≠ [] := by simp [Key.bytes]
  have hd : (key.bytes ++ body).drop 4 = body := List.drop_left' (Key.length_bytes key)
  have ht : (key.bytes ++ body).take 4 = key.bytes := List.take_left' (Key.length_bytes key)
  have hmod : L % 2 ^ W' = L := Nat.mod_eq_of_lt (Nat.lt_of_lt_of_le hhi (Nat.pow_le_pow_right (by omega) (by omega)))
  have n1 : ¬ 2 ^ (W' - 1) ≤ L := by omega
  have n2 : ¬ 2 ^ (W' - 1) ≤ min L body.length := by omega
  simp only [u0, hL, if_false, payloadRef, hne, u1, u2, u3, or_self, hd, ht, gt_iff_lt, isizeMax_lt_iff, hmod, n1, n2]
  by_cases p1 : 2 ^ (W - 1) ≤ L % 2 ^ W
  · simp only [p1, if_true, true_or, iff_true]
    by_cases q : L ≤ body.length
    · simp [q]
    · have e3 : body.length ≠ L := by omega
      by_cases q2 : raw.Clean <;> cases a <;> simp [q, q2, e3]
  by_cases p2 : 2 ^ (W - 1) ≤ body.length
  · have : 2 ^ (W - 1) ≤ min L body.length := by omega
    simp only [p1, p2, this, if_true, if_false, true_or, or_true, iff_true]
    by_cases q : L ≤ body.length
    · simp [q]
    · have e3 : body.length ≠ L := by omega
      by_cases q2 : raw.Clean <;> cases a <;> simp [q, q2, e3]
  have e1 : ¬ 2 ^ (W - 1) ≤ min L body.length := by omega
  have e2 : ¬ L ≤ body.length := by omega
  have e3 : body.length ≠ L := by omega
  simp only [p1, p2, e1, e2, if_false, false_or]
  by_cases q2 : raw.Clean
  · by_cases q3 : body.length = L % 2 ^ W
    · simp only [q2, q3, if_true, ne_eq, not_true_eq_false, if_false, and_self, iff_true]
      rw [← q3]
      cases a <;> simp [e3]
    · cases a <;> simp [q2, q3, e3]
  · simp [q2]

/-! ## Messages -/

/-- `r` is what is left of the stream `raw` after some frames have been read from it, by the parser of a machine with `W`-bit words. -/
inductive AfterFrames (W : Nat) (raw : Raw) : Raw → Prop
  | here : AfterFrames W raw raw
  | next {r : Raw} : AfterFrames W raw r → AfterFrames W raw (Frame.parse W r).2

/-- No frame that comes along announces `2^(W-1)` bytes or more. -/
def Modest (W : Nat) (raw : Raw) : Prop := ∀ r, AfterFrames W raw r → AnnouncesBelow (W - 1) r.avail

theorem AfterFrames.trans {W : Nat} {a b c : Raw} (h : AfterFrames W a b) (h' : AfterFrames W b c) : AfterFrames W a c := by
  induction h' with
  | here => exact h
  | next _ ih => exact .next ih

theorem Modest.after {W : Nat} {a b : Raw} (h : Modest W a) (hb : AfterFrames W a b) : Modest W b := fun r hr => h r (hb.trans hr)

theorem Modest.parse {W W' : Nat} (hle : W ≤ W') {raw : Raw} (h : Modest W raw) : Frame.parse W raw = Frame.parse W' raw :=
  C160_frame_partial W W' hle raw (h raw .here)

theorem nextLoop_after {W : Nat} (op : OpCode) : ∀ (k : Nat) (payload : Bytes) (raw : Raw), raw.size ≤ k →
    AfterFrames W raw (nextLoop W op payload raw).2 := by
  intro k
  induction k with
  | zero =>
    intro payload raw hk
    rw [nextLoop]
    have hone : AfterFrames W raw (Frame.parse W raw).2 := .next .here
    split
    · rename_i e; rw [e] at hone; exact hone
    · rename_i e; rw [e] at hone; exact hone
    · rename_i msg raw' e
      have := parse_shrinks e
      omega
  | succ k ih =>
    intro payload raw hk
    rw [nextLoop]
    have hone : AfterFrames W raw (Frame.parse W raw).2 := .next .here
    split
    · rename_i e; rw [e] at hone; exact hone
    · rename_i e; rw [e] at hone; exact hone
    · rename_i msg raw' e
      have hs := parse_shrinks e
      rw [e] at hone
      split
      · exact hone
      split
      · exact hone
      split
      · exact hone
      · exact hone.trans (ih _ raw' (by omega))

theorem Message.next_after (W : Nat) (raw : Raw) : AfterFrames W raw (Message.next W raw).2 := by
  unfold Message.next
  have hone : AfterFrames W raw (Frame.parse W raw).2 := .next .here
  split
  · rename_i e; rw [e] at hone; exact hone
  · rename_i e; rw [e] at hone; exact hone
  · rename_i msg raw' e
    rw [e] at hone
    split
    · exact hone
    split
    · exact hone
    · exact hone.trans (nextLoop_after _ _ _ _ (Nat.le_refl _))

theorem nextLoop_word {W W' : Nat} (hle : W ≤ W') (op : OpCode) : ∀ (k : Nat) (payload : Bytes) (raw : Raw), raw.size ≤ k → Modest W raw →
    nextLoop W op payload raw = nextLoop W' op payload raw := by
  intro k
  induction k with
  | zero =>
    intro payload raw hk hm
    have hp := hm.parse hle
    rw [nextLoop, nextLoop]
    cases e : Frame.parse W raw with
    | mk o raw' =>
      rw [e] at hp
      rw [← hp]
      cases o with
      | ok msg => have := parse_shrinks e; omega
      | err _ => rfl
      | panic => rfl
  | succ k ih =>
    intro payload raw hk hm
    have hp := hm.parse hle
    rw [nextLoop, nextLoop]
    cases e : Frame.parse W raw with
    | mk o raw' =>
      have hone : AfterFrames W raw raw' := by have : AfterFrames W raw (Frame.parse W raw).2 := .next .here; rwa [e] at this
      rw [e] at hp
      rw [← hp]
      cases o with
      | ok msg =>
        have := parse_shrinks e
        simp only
        rw [ih _ raw' (by omega) (hm.after hone)]
      | err _ => rfl
      | panic => rfl

/-- **C160, messages.** If no frame that comes along announces `2^(W-1)` bytes or more, `Message::next` gives the same result, and leaves the same. -/
theorem C160_message_partial (W W' : Nat) (hle : W ≤ W') (raw : Raw) (h : Modest W raw) : Message.next W raw = Message.next W' raw := by
  have hp := h.parse hle
  unfold Message.next
  cases e : Frame.parse W raw with
  | mk o raw' =>
    have hone : AfterFrames W raw raw' := by have : AfterFrames W raw (Frame.parse W raw).2 := .next .here; rwa [e] at this
    rw [e] at hp
    rw [← hp]
    cases o with
    | ok msg =>
      simp only
      rw [nextLoop_word hle _ _ _ raw' (Nat.le_refl _) (h.after hone)]
    | err _ => rfl
    | panic => rfl

/-- What `count` calls of the WebSocket iterator return, with the socket and the connection afterwards. -/
def socketCalls (W : Nat) : (count : Nat) → WsState → Conn → List (Outcome NextMessageError Message) × WsState × Conn
  | 0, st, c => ([], st, c)
  | k + 1, st, c =>
    let r := WebSocket.next W st c
    let rest := socketCalls W k r.2.1 r.2.2
    (r.1 :: rest.1, rest.2)

theorem socketNext_after (W : Nat) (st : WsState) (c : Conn) : AfterFrames W c.inp (WebSocket.next W st c).2.2.inp := by
  unfold WebSocket.next
  cases st with
  | closed => exact .here
  | «open» =>
    have hone := Message.next_after W c.inp
    simp only
    cases e : Message.next W c.inp with
    | mk o inp =>
      rw [e] at hone
      simp only at hone
      cases o with
      | panic => exact hone
      | err x =>
        cases x with
        | clientProtocolViolationError => exact hone
        | clientSentCloseFrame => simp only; split <;> exact hone
      | ok msg =>
        simp only
        split
        · split <;> exact hone
        · exact hone

/-- **C160, a whole WebSocket.** Any number of calls of the iterator return the same, and the same is written to the connection. -/
theorem C160_socket_partial (W W' : Nat) (hle : W ≤ W') : ∀ (k : Nat) (st : WsState) (c : Conn), Modest W c.inp →
    socketCalls W k st c = socketCalls W' k st c := by
  intro k
  induction k with
  | zero => intro st c _; rfl
  | succ k ih =>
    intro st c h
    have e : WebSocket.next W st c = WebSocket.next W' st c := by
      unfold WebSocket.next
      cases st with
      | closed => rfl
      | «open» => simp only; rw [C160_message_partial W W' hle c.inp h]
    have ha := h.after (socketNext_after W st c)
    simp only [socketCalls]
    rw [← e, ih _ _ ha]

theorem Delivery.first {W : Nat} {d : Delivery} (h : d.Ok W) (rest : Raw) : d.frame.encode <+: (d.reads ++ rest).avail := by
  have key : ∀ es : Raw, es.Clean → Raw.avail (es ++ rest) = Raw.bytes es ++ rest.avail := by
    intro es
    induction es with
    | nil => intro _; rfl
    | cons e es ih =>
      intro hc
      cases e with
      | fail => exact absurd List.mem_cons_self hc
      | data b =>
        show b ++ Raw.avail (es ++ rest) = b ++ Raw.bytes es ++ rest.avail
        rw [ih (fun hm => hc (List.mem_cons_of_mem _ hm)), List.append_assoc]
  rcases h.2.2 with ⟨-, -, hc, hb, -⟩ | ⟨-, hr⟩
  · rw [key _ hc, hb]; exact List.prefix_append _ _
  · rw [hr]; exact List.prefix_append _ _

theorem deliveries_below {W : Nat} {ds : List Delivery} (h : ∀ d ∈ ds, d.Ok W) :
    AnnouncesBelow (W - 1) (Raw.avail ((ds.map Delivery.reads).flatten)) := by
  intro a b c d n form L _ hcar hpre
  cases ds with
  | nil => exact absurd (List.prefix_nil.1 hpre) (by simp [headBytes])
  | cons x xs =>
    have hx := h x List.mem_cons_self
    have h1 := Delivery.first hx ((xs.map Delivery.reads).flatten)
    have h2 : x.frame.head <+: Raw.avail (((x :: xs).map Delivery.reads).flatten) := by
      refine List.IsPrefix.trans ?_ h1
      unfold ClientFrame.encode
      rw [List.append_assoc]
      exact List.prefix_append _ _
    have := (announced_unique hcar hx.1.2 hpre h2).1
    have hm := hx.2.1
    have : ¬ 2 ^ (W - 1) ≤ L := by
      rw [← isizeMax_lt_iff]
      omega
    omega

/-- **C160, conforming clients.** What a client sends that masks its frames, none of them longer than the smaller machine can hold, is `Modest`: however
many frames and in whatever reads, whatever they say. -/
theorem C160_client {W : Nat} (ds : List Delivery) (h : ∀ d ∈ ds, d.Ok W) : Modest W ((ds.map Delivery.reads).flatten) := by
  intro r hr
  have : ∃ es : List Delivery, (∀ d ∈ es, d.Ok W) ∧ r = (es.map Delivery.reads).flatten := by
    induction hr with
    | here => exact ⟨ds, h, rfl⟩
    | next _ ih =>
      obtain ⟨es, he, rfl⟩ := ih
      cases es with
      | nil => exact ⟨[], by simp, rfl⟩
      | cons x xs =>
        refine ⟨xs, fun d hd => he d (List.mem_cons_of_mem _ hd), ?_⟩
        rw [List.map_cons, List.flatten_cons, parse_delivery (he x List.mem_cons_self)]
  obtain ⟨es, he, rfl⟩ := this
  exact deliveries_below he

/-- **C160 is false.** The same fourteen bytes and five more, and then the end of the connection: on the 32-bit machine a message of five bytes, on the
64-bit machine an error.  And the same fourteen bytes announcing `2^31` bytes: on the 32-bit machine a panic, at once, on the 64-bit machine it is up to the
client what comes of it. -/
theorem C160_word_refuted :
    (Message.next 32 [.data wrapBytes]).1 = .ok (.binary [1, 2, 3, 4, 5]) ∧
    (Message.next 64 [.data wrapBytes]).1 = .err .clientProtocolViolationError ∧
    (Message.next 32 [.data (headBytes true false false false 2 true .long (2 ^ 31) ++ [0, 0, 0, 0])]).1 = .panic ∧
    (Message.next 64 [.data (headBytes true false false false 2 true .long (2 ^ 31) ++ [0, 0, 0, 0])]).1 = .err .clientProtocolViolationError := by
  decide +kernel

/-- non-vacuity: two text messages, the first in two frames, and a ping -/
example : ∃ ds : List Delivery, (∀ d ∈ ds, d.Ok 32) ∧ ds.length = 4 ∧
    (socketCalls 64 3 .open ⟨(ds.map Delivery.reads).flatten, ⟨[], none⟩⟩).1 =
      [.ok (.text "abcd"), .ok (.text "e"), .ok (.ping (some [9]))] ∧
    socketCalls 32 3 .open ⟨(ds.map Delivery.reads).flatten, ⟨[], none⟩⟩ = socketCalls 64 3 .open ⟨(ds.map Delivery.reads).flatten, ⟨[], none⟩⟩ := by
  have ok : ∀ d ∈ ([
      ⟨⟨false, false, false, false, 1, (1, 2, 3, 4), [97, 98], .short⟩, [.data (ClientFrame.encode ⟨false, false, false, false, 1, (1, 2, 3, 4), [97, 98], .short⟩)]⟩,
      ⟨⟨true, false, false, false, 0, (1, 2, 3, 4), [99, 100], .short⟩, [.data (ClientFrame.encode ⟨true, false, false, false, 0, (1, 2, 3, 4), [99, 100], .short⟩)]⟩,
      ⟨⟨true, false, false, false, 1, (5, 6, 7, 8), [101], .short⟩, [.data (ClientFrame.encode ⟨true, false, false, false, 1, (5, 6, 7, 8), [101], .short⟩)]⟩,
      ⟨⟨true, false, false, false, 9, (5, 6, 7, 8), [9], .short⟩, [.data (ClientFrame.encode ⟨true, false, false, false, 9, (5, 6, 7, 8), [9], .short⟩)]⟩] : List Delivery),
      d.Ok 32 := by
    intro d hd
    simp only [List.mem_cons, List.not_mem_nil, or_false] at hd
    rcases hd with rfl | rfl | rfl | rfl <;>
      exact ok_single _ ⟨by decide, by simp [Form.Carries]⟩ (by decide)
  exact ⟨_, ok, rfl, by decide +kernel, C160_socket_partial 32 64 (by decide) 3 _ _ (C160_client _ ok)⟩

end Puck
