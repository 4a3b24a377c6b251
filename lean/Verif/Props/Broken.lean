import Verif.Props.WebSocket
/-!
# Histories on a connection that may break (C20, C22)
-/
namespace Puck
open Rfc6455

/-! ## What is read is at most what arrives -/

/-- bytes not yet read -/
def Buf.left (r : Buf) : Nat := r.buf.length + (Raw.bytes r.raw).length

theorem rawRead_left {cap : Nat} {raw raw' : Raw} {o : Option Bytes} (h : raw.read cap = (o, raw')) :
    (o.getD []).length + (Raw.bytes raw').length = (Raw.bytes raw).length := by
  unfold Raw.read at h
  split at h
  · simp only [Prod.mk.injEq] at h; obtain ⟨rfl, rfl⟩ := h; simp
  · simp only [Prod.mk.injEq] at h; obtain ⟨rfl, rfl⟩ := h; simp [Raw.bytes]
  · split at h
    · simp only [Prod.mk.injEq] at h; obtain ⟨rfl, rfl⟩ := h; simp [Raw.bytes]
    · simp only [Prod.mk.injEq] at h; obtain ⟨rfl, rfl⟩ := h; simp [Raw.bytes]; omega

theorem read_left {cap n : Nat} {r r' : Buf} {o : Option Bytes} (h : r.read cap n = (o, r')) : (o.getD []).length + r'.left = r.left := by
  unfold Buf.read at h
  split at h
  · rename_i hc
    cases hr : r.raw.read n with
    | mk o1 raw =>
      have := rawRead_left hr
      simp only [hr] at h
      cases o1 with
      | none => simp only [Prod.mk.injEq] at h; obtain ⟨rfl, rfl⟩ := h; simp_all [Buf.left]
      | some x => simp only [Prod.mk.injEq] at h; obtain ⟨rfl, rfl⟩ := h; simp_all [Buf.left]
  · unfold Buf.fillBuf at h
    by_cases hb : r.buf = []
    · simp only [hb, if_true] at h
      cases hr : r.raw.read cap with
      | mk o1 raw =>
        have := rawRead_left hr
        simp only [hr] at h
        cases o1 with
        | none => simp only [Prod.mk.injEq] at h; obtain ⟨rfl, rfl⟩ := h; simp_all [Buf.left]
        | some x =>
          simp only [Prod.mk.injEq] at h
          obtain ⟨rfl, rfl⟩ := h
          simp only [Buf.left, hb, Option.getD_some, List.length_take, List.length_drop, List.length_nil] at this ⊢
          omega
    · simp only [hb, if_false, Prod.mk.injEq] at h
      obtain ⟨rfl, rfl⟩ := h
      simp only [Buf.left, Option.getD_some, List.length_take, List.length_drop]
      omega

theorem readExactGo_left {cap : Nat} : ∀ (f n : Nat) (acc : Bytes) (r r' : Buf) (o : Option Bytes), r.readExactGo cap f n acc = (o, r') →
    r'.left ≤ r.left
  | _, 0, acc, r, r', o, h => by
    simp only [Buf.readExactGo, Prod.mk.injEq] at h
    obtain ⟨rfl, rfl⟩ := h
    omega
  | 0, n + 1, acc, r, r', o, h => by
    simp only [Buf.readExactGo, Prod.mk.injEq] at h
    obtain ⟨rfl, rfl⟩ := h
    omega
  | f + 1, n + 1, acc, r, r', o, h => by
    rw [Buf.readExactGo] at h
    cases hr : r.read cap (n + 1) with
    | mk o1 r1 =>
      have := read_left hr
      simp only [hr] at h
      cases o1 with
      | none => simp only [Prod.mk.injEq] at h; obtain ⟨rfl, rfl⟩ := h; omega
      | some x =>
        simp only at h
        split at h
        · simp only [Prod.mk.injEq] at h; obtain ⟨rfl, rfl⟩ := h; omega
        · have := readExactGo_left f _ _ _ _ _ h
          omega

theorem takeToEndGo_left {cap : Nat} : ∀ (f n : Nat) (acc : Bytes) (r r' : Buf) (o : Option Bytes), r.takeToEndGo cap f n acc = (o, r') →
    r'.left ≤ r.left ∧ ∀ b, o = some b → b.length + r'.left ≤ acc.length + r.left
  | _, 0, acc, r, r', o, h => by
    simp only [Buf.takeToEndGo, Prod.mk.injEq] at h
    obtain ⟨rfl, rfl⟩ := h
    simp
  | 0, n + 1, acc, r, r', o, h => by
    simp only [Buf.takeToEndGo, Prod.mk.injEq] at h
    obtain ⟨rfl, rfl⟩ := h
    simp
  | f + 1, n + 1, acc, r, r', o, h => by
    rw [Buf.takeToEndGo] at h
    cases hr : r.read cap (n + 1) with
    | mk o1 r1 =>
      have h1 := read_left hr
      simp only [hr] at h
      cases o1 with
      | none => simp only [Prod.mk.injEq] at h; obtain ⟨rfl, rfl⟩ := h; exact ⟨by omega, by simp⟩
      | some x =>
        simp only [Option.getD_some] at h h1
        split at h
        · simp only [Prod.mk.injEq] at h
          obtain ⟨rfl, rfl⟩ := h
          refine ⟨by omega, ?_⟩
          rintro b hb
          cases hb
          omega
        · have := takeToEndGo_left f _ _ _ _ _ h
          refine ⟨by omega, fun b hb => ?_⟩
          have := this.2 b hb
          simp only [List.length_append] at this
          omega

theorem length_left {r r' : Buf} {s : UInt8} {o : Option Nat} (h : readPayloadLength s r = (o, r')) : r'.left ≤ r.left := by
  unfold readPayloadLength at h
  split at h
  · cases hr : r.readExact defaultCap 2 with
    | mk o1 r1 =>
      have := readExactGo_left 2 2 [] r r1 o1 hr
      simp only [hr] at h
      cases o1 <;> simp only [Prod.mk.injEq] at h <;> obtain ⟨rfl, rfl⟩ := h <;> omega
  · split at h
    · cases hr : r.readExact defaultCap 8 with
      | mk o1 r1 =>
        have := readExactGo_left 8 8 [] r r1 o1 hr
        simp only [hr] at h
        cases o1 <;> simp only [Prod.mk.injEq] at h <;> obtain ⟨rfl, rfl⟩ := h <;> omega
    · simp only [Prod.mk.injEq] at h
      obtain ⟨rfl, rfl⟩ := h
      omega

theorem readPayload_left {W : Nat} {fin : Bool} {L : Nat} {r r' : Buf} {o : Outcome ParseFrameError Bytes} (h : readPayload W fin L r = (o, r')) :
    r'.left ≤ r.left ∧ ∀ d, o = .ok d → d.length + r'.left ≤ r.left := by
  unfold readPayload at h
  cases hr : r.read defaultCap 4 with
  | mk o1 r1 =>
    have h1 := read_left hr
    simp only [hr] at h
    cases o1 with
    | none => simp only [Prod.mk.injEq] at h; obtain ⟨rfl, rfl⟩ := h; exact ⟨by omega, by simp⟩
    | some key =>
      simp only at h
      split at h
      · simp only [Prod.mk.injEq] at h; obtain ⟨rfl, rfl⟩ := h; exact ⟨by omega, by simp⟩
      · split at h
        · simp only [Prod.mk.injEq] at h; obtain ⟨rfl, rfl⟩ := h; exact ⟨by omega, by simp⟩
        · split at h
          · simp only [Prod.mk.injEq] at h; obtain ⟨rfl, rfl⟩ := h; exact ⟨by omega, by simp⟩
          cases ht : r1.takeToEnd defaultCap L with
          | mk o2 r2 =>
            obtain ⟨h2, h3⟩ := takeToEndGo_left L L [] r1 r2 o2 ht
            simp only [ht] at h
            cases o2 with
            | none => simp only [Prod.mk.injEq] at h; obtain ⟨rfl, rfl⟩ := h; exact ⟨by omega, by simp⟩
            | some enc =>
              have h3 := h3 enc rfl
              simp only [List.length_nil] at h3
              simp only at h
              · split at h
                · split at h <;> simp only [Prod.mk.injEq] at h <;> obtain ⟨rfl, rfl⟩ := h <;> exact ⟨by omega, by simp⟩
                · simp only [Prod.mk.injEq] at h
                  obtain ⟨rfl, rfl⟩ := h
                  refine ⟨by omega, ?_⟩
                  intro d hd
                  cases hd
                  simp only [unmask, List.length_mapIdx]
                  omega

/-- The payload of a frame is not longer than what arrived. -/
theorem parse_left {W : Nat} {raw raw' : Raw} {o : Outcome ParseFrameError Frame} (h : Frame.parse W raw = (o, raw')) :
    (Raw.bytes raw').length ≤ (Raw.bytes raw).length ∧
    ∀ fr, o = .ok fr → fr.decoded.length + (Raw.bytes raw').length ≤ (Raw.bytes raw).length := by
  have hle : ∀ r : Buf, (Raw.bytes r.raw).length ≤ r.left := fun r => by unfold Buf.left; omega
  unfold Frame.parse at h
  cases hr : (Buf.mk [] raw).read defaultCap 2 with
  | mk o1 r =>
    have h1 := read_left hr
    have h0 : (Buf.mk [] raw).left = (Raw.bytes raw).length := by simp [Buf.left]
    have hr0 := hle r
    simp only [hr] at h
    split at h
    · rename_i he; simp only [Prod.mk.injEq] at he h; obtain ⟨rfl, rfl⟩ := he; obtain ⟨rfl, rfl⟩ := h; exact ⟨by omega, by simp⟩
    · rename_i first second r0 he
      simp only [Prod.mk.injEq] at he
      obtain ⟨rfl, rfl⟩ := he
      split at h
      · simp only [Prod.mk.injEq] at h; obtain ⟨rfl, rfl⟩ := h; exact ⟨by omega, by simp⟩
      · cases hl : readPayloadLength second r with
        | mk o2 r1 =>
          have h2 := length_left hl
          have hr1 := hle r1
          simp only [hl] at h
          cases o2 with
          | none => simp only [Prod.mk.injEq] at h; obtain ⟨rfl, rfl⟩ := h; exact ⟨by omega, by simp⟩
          | some L =>
            simp only at h
            split at h
            · simp only [Prod.mk.injEq] at h; obtain ⟨rfl, rfl⟩ := h; exact ⟨by omega, by simp⟩
            · split at h
              · cases hp : readPayload W (first &&& 0x80 != 0) L r1 with
                | mk o3 r2 =>
                  obtain ⟨h3, h4⟩ := readPayload_left hp
                  have hr2 := hle r2
                  simp only [hp] at h
                  cases o3 with
                  | err e => simp only [Prod.mk.injEq] at h; obtain ⟨rfl, rfl⟩ := h; exact ⟨by omega, by simp⟩
                  | panic => simp only [Prod.mk.injEq] at h; obtain ⟨rfl, rfl⟩ := h; exact ⟨by omega, by simp⟩
                  | ok d =>
                    have h4 := h4 d rfl
                    simp only [Prod.mk.injEq] at h
                    obtain ⟨rfl, rfl⟩ := h
                    refine ⟨by omega, ?_⟩
                    intro fr hfr
                    cases hfr
                    simp only
                    omega
              · simp only [Prod.mk.injEq] at h
                obtain ⟨rfl, rfl⟩ := h
                refine ⟨by omega, ?_⟩
                intro fr hfr
                cases hfr
                simp only [List.length_nil]
                omega
    · rename_i he; simp only [Prod.mk.injEq] at he h; obtain ⟨rfl, rfl⟩ := he; obtain ⟨rfl, rfl⟩ := h; exact ⟨by omega, by simp⟩

theorem messageOf_ping {op : OpCode} {d : Bytes} {p : Option Bytes} (h : messageOf op d = .ok (.ping p)) : (p.getD []).length ≤ d.length := by
  unfold messageOf at h
  split at h
  · cases h
  · split at h <;> cases h
  · simp only [Outcome.ok.injEq, Message.ping.injEq] at h
    subst h
    split <;> simp
  · cases h
  · cases h

theorem nextLoop_left (W : Nat) (op : OpCode) (d : Bytes) (raw : Raw) : ∀ (o : Outcome DecodeMessageError Message) (raw' : Raw),
    nextLoop W op d raw = (o, raw') → (Raw.bytes raw').length ≤ (Raw.bytes raw).length ∧
    ∀ p, o = .ok (.ping p) → (p.getD []).length + (Raw.bytes raw').length ≤ d.length + (Raw.bytes raw).length := by
  fun_induction nextLoop W op d raw with
  | case1 d raw e raw1 hp =>
    intro o raw' h
    simp only [Prod.mk.injEq] at h
    obtain ⟨rfl, rfl⟩ := h
    exact ⟨(parse_left hp).1, by simp⟩
  | case2 d raw raw1 hp =>
    intro o raw' h
    simp only [Prod.mk.injEq] at h
    obtain ⟨rfl, rfl⟩ := h
    exact ⟨(parse_left hp).1, by simp⟩
  | case3 d raw m raw1 hp hm =>
    intro o raw' h
    simp only [Prod.mk.injEq] at h
    obtain ⟨rfl, rfl⟩ := h
    exact ⟨(parse_left hp).1, by simp⟩
  | case4 d raw m raw1 hp hm hm2 =>
    intro o raw' h
    simp only [Prod.mk.injEq] at h
    obtain ⟨rfl, rfl⟩ := h
    exact ⟨(parse_left hp).1, by simp⟩
  | case5 d raw m raw1 hp hm hm2 hf =>
    intro o raw' h
    simp only [Prod.mk.injEq] at h
    obtain ⟨rfl, rfl⟩ := h
    refine ⟨(parse_left hp).1, fun p hq => ?_⟩
    have h1 := messageOf_ping hq
    have h2 := (parse_left hp).2 m rfl
    simp only [List.length_append] at h1
    omega
  | case6 d raw m raw1 hp hm hm2 hf ih =>
    intro o raw' h
    obtain ⟨h1, h2⟩ := ih o raw' h
    have h3 := parse_left hp
    have h4 := h3.2 m rfl
    refine ⟨by omega, fun p hq => ?_⟩
    have := h2 p hq
    simp only [List.length_append] at this
    omega

/-- A ping is not longer than what arrived. -/
theorem Message.next_left {W : Nat} {raw raw' : Raw} {o : Outcome DecodeMessageError Message} (h : Message.next W raw = (o, raw')) :
    (Raw.bytes raw').length ≤ (Raw.bytes raw).length ∧
    ∀ p, o = .ok (.ping p) → (p.getD []).length ≤ (Raw.bytes raw).length := by
  unfold Message.next at h
  cases hp : Frame.parse W raw with
  | mk o1 raw1 =>
    have h1 := parse_left hp
    simp only [hp] at h
    cases o1 with
    | err e => simp only [Prod.mk.injEq] at h; obtain ⟨rfl, rfl⟩ := h; exact ⟨h1.1, by simp⟩
    | panic => simp only [Prod.mk.injEq] at h; obtain ⟨rfl, rfl⟩ := h; exact ⟨h1.1, by simp⟩
    | ok m =>
      have h2 := h1.2 m rfl
      simp only at h
      split at h
      · simp only [Prod.mk.injEq] at h; obtain ⟨rfl, rfl⟩ := h; exact ⟨h1.1, by simp⟩
      · split at h
        · simp only [Prod.mk.injEq] at h
          obtain ⟨rfl, rfl⟩ := h
          refine ⟨h1.1, fun p hq => ?_⟩
          have := messageOf_ping hq
          omega
        · obtain ⟨h3, h4⟩ := nextLoop_left W _ _ _ o raw' h
          refine ⟨by omega, fun p hq => ?_⟩
          have := h4 p hq
          omega

/-! ## Decoding what was written before the connection broke -/

theorem decodeServer_append {bs rest x : Bytes} {f : WireFrame} (h : decodeServer bs = some (f, rest)) :
    decodeServer (bs ++ x) = some (f, rest ++ x) := by
  have key : ∀ {len : Nat} {tl : Bytes}, len ≤ tl.length → (tl ++ x).take len = tl.take len ∧ (tl ++ x).drop len = tl.drop len ++ x := by
    intro len tl hl
    exact ⟨List.take_append_of_le_length hl, List.drop_append_of_le_length hl⟩
  match bs with
  | [] => simp [decodeServer] at h
  | [_] => simp [decodeServer] at h
  | b0 :: b1 :: tl =>
    simp only [decodeServer] at h
    simp only [List.cons_append, decodeServer]
    split at h
    · rename_i hs
      rw [if_pos hs]
      split at h
      · rename_i hl
        simp only [Option.some.injEq, Prod.mk.injEq] at h
        obtain ⟨rfl, rfl⟩ := h
        rw [if_pos (by simp; omega), (key hl).1, (key hl).2]
      · cases h
    · rename_i hs
      rw [if_neg hs]
      split at h
      · rename_i hm
        rw [if_pos hm]
        split at h
        · rename_i h2
          rw [if_pos (by simp; omega), (key h2).1, (key h2).2]
          split at h
          · rename_i hl
            simp only [Option.some.injEq, Prod.mk.injEq] at h
            obtain ⟨rfl, rfl⟩ := h
            rw [if_pos (by rw [List.length_append]; omega), (key hl).1, (key hl).2]
          · cases h
        · cases h
      · rename_i hm
        rw [if_neg hm]
        split at h
        · rename_i hm'
          rw [if_pos hm']
          split at h
          · rename_i h2
            rw [if_pos (by simp; omega), (key h2).1, (key h2).2]
            split at h
            · rename_i hl
              simp only [Option.some.injEq, Prod.mk.injEq] at h
              obtain ⟨rfl, rfl⟩ := h
              rw [if_pos (by rw [List.length_append]; omega), (key hl).1, (key hl).2]
            · cases h
          · cases h
        · cases h

/-- Part of a frame does not decode as a frame. -/
theorem decodeServer_part {g : Frame} {t : Bytes} (hg : g.decoded.length < 2 ^ 64) (h1 : t <+: g.bytes) (h2 : t ≠ g.bytes) :
    decodeServer t = none := by
  obtain ⟨x, hx⟩ := h1
  have hne : x ≠ [] := by
    rintro rfl
    rw [List.append_nil] at hx
    exact h2 hx
  cases h : decodeServer t with
  | none => rfl
  | some q =>
    obtain ⟨f, rest⟩ := q
    have h3 := decodeServer_append (x := x) h
    rw [hx] at h3
    have h4 := decode_frame g [] hg
    rw [List.append_nil, h3] at h4
    simp only [Option.some.injEq, Prod.mk.injEq, List.append_eq_nil_iff] at h4
    exact absurd h4.2.2 hne

theorem decodeAll_part {fs : List Frame} (h : ∀ f ∈ fs, f.decoded.length < 2 ^ 64) {t : Bytes} (ht : decodeServer t = none) (n : Nat) :
    decodeAll n ((fs.map Frame.bytes).flatten ++ t) = (fs.map Frame.wire).take n := by
  induction fs generalizing n with
  | nil => cases n <;> simp [decodeAll, ht]
  | cons f fs ih =>
    cases n with
    | zero => rfl
    | succ n =>
      rw [List.map_cons, List.flatten_cons, List.append_assoc, decodeAll, decode_frame _ _ (h f List.mem_cons_self)]
      simp only [List.map_cons, List.take_succ_cons]
      rw [ih fun g hg => h g (List.mem_cons_of_mem _ hg)]

/-! ## Histories -/

/-- The frames the peer should see for a history of results on a connection that may break: as `expected`, without the messages whose
sending failed. -/
def delivered : Bool → List Ret → List WireFrame
  | _, [] => []
  | closed, .sent m true :: rs => wireOf m :: delivered closed rs
  | closed, .sent _ false :: rs => delivered closed rs
  | closed, .item (.ok (.ping p)) :: rs => wireOf (.pong p) :: delivered closed rs
  | false, .item (.err .connectionClosed) :: rs => closeWire :: delivered true rs
  | closed, .item _ :: rs => delivered closed rs

theorem delivered_close (rs : List Ret) (closed : Bool) :
    (delivered closed rs).countP (fun f => f.nibble == 8) =
      if closed = false ∧ .item (.err .connectionClosed) ∈ rs then 1 else 0 := by
  induction rs generalizing closed with
  | nil => simp [delivered]
  | cons r rs ih =>
    cases r with
    | sent m ok =>
      have : (wireOf m).nibble ≠ 8 := by
        cases m with
        | text s => simp [wireOf]
        | binary b => simp [wireOf]
        | ping p => cases p <;> simp [wireOf]
        | pong p => cases p <;> simp [wireOf]
      cases ok <;> simp [delivered, this, ih]
    | item r =>
      cases r with
      | panic => cases closed <;> simp [delivered, ih]
      | ok m =>
        cases m with
        | ping p =>
          have : (wireOf (.pong p)).nibble ≠ 8 := by cases p <;> simp [wireOf]
          simp [delivered, this, ih]
        | pong p => cases closed <;> simp [delivered, ih]
        | text p => cases closed <;> simp [delivered, ih]
        | binary p => cases closed <;> simp [delivered, ih]
      | err e =>
        cases e with
        | clientError => cases closed <;> simp [delivered, ih]
        | connectionClosed => cases closed <;> simp [delivered, ih, closeWire]

/-- without failures the two agree -/
theorem delivered_expected (rs : List Ret) (closed : Bool) (h : ∀ m, Ret.sent m false ∉ rs) : delivered closed rs = expected closed rs := by
  induction rs generalizing closed with
  | nil => rfl
  | cons r rs ih =>
    have ih := fun c => ih c (fun m hm => h m (List.mem_cons_of_mem _ hm))
    cases r with
    | sent m ok =>
      cases ok with
      | true => simp [delivered, expected, ih]
      | false => exact absurd List.mem_cons_self (h m)
    | item r =>
      cases r with
      | panic => cases closed <;> simp [delivered, expected, ih]
      | ok m => cases m <;> cases closed <;> simp [delivered, expected, ih]
      | err e => cases e <;> cases closed <;> simp [delivered, expected, ih]

theorem writeAll_fails {b : Bytes} {s s' : Sink} (h : s.writeAll b = (false, s')) :
    s'.room = some 0 ∧ ∃ t, s'.out = s.out ++ t ∧ t <+: b ∧ t ≠ b := by
  unfold Sink.writeAll at h
  cases hr : s.room with
  | none => simp [hr] at h
  | some k =>
    simp only [hr] at h
    split at h
    · cases h
    · rename_i hk
      simp only [Prod.mk.injEq, true_and] at h
      subst h
      refine ⟨rfl, b.take k, rfl, List.take_prefix _ _, fun e => ?_⟩
      have := congrArg List.length e
      simp at this
      omega

theorem writeAll_dead {b : Bytes} {s s' : Sink} {ok : Bool} (h0 : s.room = some 0) (hb : b ≠ []) (h : s.writeAll b = (ok, s')) :
    ok = false ∧ s' = s := by
  unfold Sink.writeAll at h
  simp only [h0] at h
  rw [if_neg (by have := List.length_pos_iff.2 hb; omega)] at h
  simp only [Prod.mk.injEq] at h
  obtain ⟨rfl, rfl⟩ := h
  refine ⟨rfl, ?_⟩
  cases s
  simp_all

theorem Frame.bytes_ne (f : Frame) : f.bytes ≠ [] := by simp [Frame.bytes]

theorem next_dead {W : Nat} {st st' : WsState} {c c' : Conn} {r : Outcome NextMessageError Message} (h0 : c.out.room = some 0)
    (h : WebSocket.next W st c = (r, st', c')) : c'.out = c.out ∧
      ∀ rs, r ≠ .panic → delivered (decide (st = .closed)) (.item r :: rs) = delivered (decide (st' = .closed)) rs := by
  unfold WebSocket.next at h
  split at h
  · simp only [Prod.mk.injEq] at h
    obtain ⟨rfl, rfl, rfl⟩ := h
    exact ⟨rfl, by simp [delivered]⟩
  split at h
  · rename_i msg inp _
    split at h
    · rename_i p _
      cases hs : sendFrame (pongFrame p) c.out with
      | mk ok out =>
        have hs' := hs
        rw [sendFrame_eq] at hs'
        obtain ⟨rfl, rfl⟩ := writeAll_dead h0 (Frame.bytes_ne _) hs'
        simp only [hs, Prod.mk.injEq] at h
        obtain ⟨rfl, rfl, rfl⟩ := h
        exact ⟨rfl, by simp⟩
    · rename_i hm
      simp only [Prod.mk.injEq] at h
      obtain ⟨rfl, rfl, rfl⟩ := h
      refine ⟨rfl, fun rs _ => ?_⟩
      cases msg with
      | ping p => exact absurd rfl (hm p)
      | text s => simp [delivered]
      | binary b => simp [delivered]
      | pong p => simp [delivered]
  · simp only [Prod.mk.injEq] at h
    obtain ⟨rfl, rfl, rfl⟩ := h
    exact ⟨rfl, by simp [delivered]⟩
  · cases hs : sendFrame closeFrame c.out with
    | mk ok out =>
      have hs' := hs
      rw [sendFrame_eq] at hs'
      obtain ⟨rfl, rfl⟩ := writeAll_dead h0 (Frame.bytes_ne _) hs'
      simp only [hs, Prod.mk.injEq] at h
      obtain ⟨rfl, rfl, rfl⟩ := h
      exact ⟨rfl, by simp⟩
  · simp only [Prod.mk.injEq] at h
    obtain ⟨rfl, rfl, rfl⟩ := h
    exact ⟨rfl, by simp⟩

/-- After a failed write nothing more is written. -/
theorem run_dead {W : Nat} : ∀ (cs : List Call) (st st' : WsState) (c c' : Conn) (rs : List Ret), c.out.room = some 0 →
    WebSocket.run W cs st c = (rs, st', c') → c'.out = c.out ∧ delivered (decide (st = .closed)) rs = []
  | [], st, st', c, c', rs, h0, h => by
    simp only [WebSocket.run, Prod.mk.injEq] at h
    obtain ⟨rfl, rfl, rfl⟩ := h
    exact ⟨rfl, by simp [delivered]⟩
  | .send m :: cs, st, st', c, c', rs, h0, h => by
    simp only [WebSocket.run] at h
    cases hw : WebSocket.send m c with
    | mk ok c1 =>
    cases hrun : WebSocket.run W cs st c1 with
    | mk rs1 q =>
    obtain ⟨st1, c2⟩ := q
    simp only [hw, hrun, Prod.mk.injEq] at h
    obtain ⟨rfl, rfl, rfl⟩ := h
    have hc1 : ok = false ∧ c1.out = c.out := by
      unfold WebSocket.send at hw
      rw [send_eq] at hw
      cases hs : c.out.writeAll m.bytes with
      | mk ok out =>
      simp only [hs, Prod.mk.injEq] at hw
      obtain ⟨rfl, rfl⟩ := hw
      exact writeAll_dead h0 (Frame.bytes_ne _) hs
    obtain ⟨rfl, hc1⟩ := hc1
    obtain ⟨g1, g2⟩ := run_dead cs st st1 c1 c2 rs1 (by rw [hc1]; exact h0) hrun
    exact ⟨by rw [g1, hc1], by simp [delivered, g2]⟩
  | .next :: cs, st, st', c, c', rs, h0, h => by
    simp only [WebSocket.run] at h
    cases hw : WebSocket.next W st c with
    | mk r q =>
    obtain ⟨st1, c1⟩ := q
    obtain ⟨k1, k2⟩ := next_dead h0 hw
    by_cases hr : r = .panic
    · subst hr
      simp only [hw, Prod.mk.injEq] at h
      obtain ⟨rfl, rfl, rfl⟩ := h
      exact ⟨k1, by simp [delivered]⟩
    · cases hrun : WebSocket.run W cs st1 c1 with
      | mk rs1 q =>
      obtain ⟨st2, c2⟩ := q
      have h' : rs = .item r :: rs1 ∧ st2 = st' ∧ c2 = c' := by
        cases r with
        | panic => exact absurd rfl hr
        | ok m =>
          simp only [hw, hrun, Prod.mk.injEq] at h
          exact ⟨h.1.symm, h.2⟩
        | err e =>
          simp only [hw, hrun, Prod.mk.injEq] at h
          exact ⟨h.1.symm, h.2⟩
      obtain ⟨rfl, rfl, rfl⟩ := h'
      obtain ⟨g1, g2⟩ := run_dead cs st1 st2 c1 c2 rs1 (by rw [k1]; exact h0) hrun
      exact ⟨by rw [g1, k1], by rw [k2 rs1 hr, g2]⟩

/-- part of a frame, after which the connection is broken; or nothing -/
def Cut (t : Bytes) (s : Sink) : Prop :=
  t = [] ∨ (s.room = some 0 ∧ ∃ g : Frame, g.decoded.length < 2 ^ 64 ∧ t <+: g.bytes ∧ t ≠ g.bytes)

theorem Cut.undecodable {t : Bytes} {s : Sink} (h : Cut t s) : decodeServer t = none := by
  rcases h with rfl | ⟨-, g, h1, h2, h3⟩
  · rfl
  · exact decodeServer_part h1 h2 h3

theorem next_cut {W : Nat} {st st' : WsState} {c c' : Conn} (hin : (Raw.bytes c.inp).length < 2 ^ 64)
    (h : WebSocket.next W st c = (.panic, st', c')) : (∃ t, c'.out.out = c.out.out ++ t ∧ Cut t c'.out) ∧ st = .open := by
  unfold WebSocket.next at h
  split at h
  · cases h
  refine ⟨?_, rfl⟩
  split at h
  · rename_i msg inp hn
    split at h
    · rename_i p
      cases hs : sendFrame (pongFrame p) c.out with
      | mk ok out =>
        have hs' := hs
        rw [sendFrame_eq] at hs'
        cases ok with
        | true => simp only [hs, Prod.mk.injEq] at h; cases h.1
        | false =>
          simp only [hs, Prod.mk.injEq, true_and] at h
          obtain ⟨rfl, rfl⟩ := h
          obtain ⟨h1, t, h2, h3, h4⟩ := writeAll_fails hs'
          have := (Message.next_left hn).2 p rfl
          exact ⟨t, h2, Or.inr ⟨h1, pongFrame p, by simp only [pongFrame]; omega, h3, h4⟩⟩
    · cases h
  · cases h
  · cases hs : sendFrame closeFrame c.out with
    | mk ok out =>
      have hs' := hs
      rw [sendFrame_eq] at hs'
      cases ok with
      | true => simp only [hs, Prod.mk.injEq] at h; cases h.1
      | false =>
        simp only [hs, Prod.mk.injEq, true_and] at h
        obtain ⟨rfl, rfl⟩ := h
        obtain ⟨h1, t, h2, h3, h4⟩ := writeAll_fails hs'
        exact ⟨t, h2, Or.inr ⟨h1, closeFrame, by simp [closeFrame], h3, h4⟩⟩
  · simp only [Prod.mk.injEq, true_and] at h
    obtain ⟨rfl, rfl⟩ := h
    exact ⟨[], by simp, Or.inl rfl⟩

theorem next_left {W : Nat} {st st' : WsState} {c c' : Conn} {r : Outcome NextMessageError Message} (h : WebSocket.next W st c = (r, st', c')) :
    (Raw.bytes c'.inp).length ≤ (Raw.bytes c.inp).length ∧ ∀ p, r = .ok (.ping p) → (p.getD []).length ≤ (Raw.bytes c.inp).length := by
  unfold WebSocket.next at h
  split at h
  · simp only [Prod.mk.injEq] at h
    obtain ⟨rfl, rfl, rfl⟩ := h
    exact ⟨Nat.le_refl _, by simp⟩
  cases hn : Message.next W c.inp with
  | mk o inp =>
    obtain ⟨h1, h2⟩ := Message.next_left hn
    simp only [hn] at h
    split at h
    · rename_i msg inp' he
      simp only [Prod.mk.injEq] at he
      obtain ⟨rfl, rfl⟩ := he
      split at h
      · rename_i p
        split at h
        · simp only [Prod.mk.injEq] at h
          obtain ⟨rfl, rfl, rfl⟩ := h
          refine ⟨h1, fun q hq => ?_⟩
          simp only [Outcome.ok.injEq, Message.ping.injEq] at hq
          subst hq
          exact h2 _ rfl
        · simp only [Prod.mk.injEq] at h
          obtain ⟨rfl, rfl, rfl⟩ := h
          exact ⟨h1, by simp⟩
      · rename_i hm
        simp only [Prod.mk.injEq] at h
        obtain ⟨rfl, rfl, rfl⟩ := h
        refine ⟨h1, fun q hq => ?_⟩
        simp only [Outcome.ok.injEq] at hq
        exact absurd hq (hm q)
    · rename_i he
      simp only [Prod.mk.injEq] at he h
      obtain ⟨rfl, rfl⟩ := he
      obtain ⟨rfl, rfl, rfl⟩ := h
      exact ⟨h1, by simp⟩
    · rename_i he
      simp only [Prod.mk.injEq] at he
      obtain ⟨rfl, rfl⟩ := he
      split at h <;> simp only [Prod.mk.injEq] at h <;> obtain ⟨rfl, rfl, rfl⟩ := h <;> exact ⟨h1, by simp⟩
    · rename_i he
      simp only [Prod.mk.injEq] at he h
      obtain ⟨rfl, rfl⟩ := he
      obtain ⟨rfl, rfl, rfl⟩ := h
      exact ⟨h1, by simp⟩

theorem next_delivers {W : Nat} {st st' : WsState} {c c' : Conn} {r : Outcome NextMessageError Message} (hin : (Raw.bytes c.inp).length < 2 ^ 64)
    (h : WebSocket.next W st c = (r, st', c')) (hr : r ≠ .panic) :
    ∃ fs : List Frame, c'.out.out = c.out.out ++ (fs.map Frame.bytes).flatten ∧
      (∀ rs, delivered (decide (st = .closed)) (.item r :: rs) = fs.map Frame.wire ++ delivered (decide (st' = .closed)) rs) ∧
      (∀ f ∈ fs, f.decoded.length < 2 ^ 64) := by
  obtain ⟨fs, h1, h2, h3⟩ := next_writes h hr
  refine ⟨fs, h1, fun rs => ?_, ?_⟩
  · have h4 := h2 []
    simp only [expected, List.append_nil] at h4
    have h5 : st' = .closed ↔ st = .closed ∨ r = .err .connectionClosed := by
      clear h1 h2 h3 h4
      unfold WebSocket.next at h
      repeat' split at h
      all_goals simp only [Prod.mk.injEq] at h; obtain ⟨rfl, rfl, rfl⟩ := h
      all_goals simp_all
    rw [← h4]
    cases r with
    | panic => exact absurd rfl hr
    | ok m =>
      have : decide (st' = .closed) = decide (st = .closed) := by simp [h5]
      rw [this]
      cases m <;> cases st <;> simp [delivered, expected]
    | err e =>
      cases e with
      | clientError =>
        have : decide (st' = .closed) = decide (st = .closed) := by simp [h5]
        rw [this]
        cases st <;> simp [delivered, expected]
      | connectionClosed =>
        have : decide (st' = .closed) = true := by simp [h5]
        rw [this]
        cases st <;> simp [delivered, expected]
  · intro f hf
    rcases h3 f hf with rfl | ⟨p, rfl, rfl⟩
    · simp [closeFrame]
    · have := (next_left h).2 p rfl
      simp only [pongFrame]
      omega

theorem send_inp {m : Message} {c c' : Conn} {ok : Bool} (h : WebSocket.send m c = (ok, c')) :
    c'.inp = c.inp ∧ c.out.writeAll (Frame.ofMessage m).bytes = (ok, c'.out) := by
  unfold WebSocket.send at h
  rw [send_eq] at h
  cases hs : c.out.writeAll m.bytes with
  | mk ok out =>
  simp only [hs, Prod.mk.injEq] at h
  obtain ⟨rfl, rfl⟩ := h
  exact ⟨rfl, hs⟩

theorem ofMessage_wire (m : Message) : (Frame.ofMessage m).wire = wireOf m := by
  cases m with
  | text s => rfl
  | binary b => rfl
  | ping p => cases p <;> rfl
  | pong p => cases p <;> rfl

theorem run_any {W : Nat} : ∀ (cs : List Call) (st st' : WsState) (c c' : Conn) (rs : List Ret),
    WebSocket.run W cs st c = (rs, st', c') → (Raw.bytes c.inp).length < 2 ^ 64 →
    (∀ m ok, Ret.sent m ok ∈ rs → (wireOf m).payload.length < 2 ^ 64) →
    ∃ (fs : List Frame) (t : Bytes), c'.out.out = c.out.out ++ ((fs.map Frame.bytes).flatten ++ t) ∧
      fs.map Frame.wire = delivered (decide (st = .closed)) rs ∧ (∀ f ∈ fs, f.decoded.length < 2 ^ 64) ∧ Cut t c'.out ∧
      (st = .closed ∨ .item (.err .connectionClosed) ∈ rs → st' = .closed)
  | [], st, st', c, c', rs, h, _, _ => by
    simp only [WebSocket.run, Prod.mk.injEq] at h
    obtain ⟨rfl, rfl, rfl⟩ := h
    exact ⟨[], [], by simp, by simp [delivered], by simp, Or.inl rfl, by simp⟩
  | .send m :: cs, st, st', c, c', rs, h, hin, hlen => by
    simp only [WebSocket.run] at h
    cases hw : WebSocket.send m c with
    | mk ok c1 =>
    cases hrun : WebSocket.run W cs st c1 with
    | mk rs1 q =>
    obtain ⟨st1, c2⟩ := q
    simp only [hw, hrun, Prod.mk.injEq] at h
    obtain ⟨rfl, rfl, rfl⟩ := h
    obtain ⟨hi, hs⟩ := send_inp hw
    have hm := hlen m ok List.mem_cons_self
    rw [← ofMessage_wire] at hm
    obtain ⟨fs, t, g1, g2, g3, g4, g5⟩ := run_any cs st st1 c1 c2 rs1 hrun (by rw [hi]; exact hin)
      (fun m' ok' hh => hlen m' ok' (List.mem_cons_of_mem _ hh))
    have g5' : st = .closed ∨ .item (.err .connectionClosed) ∈ Ret.sent m ok :: rs1 → st1 = .closed := by
      rintro (h | h)
      · exact g5 (Or.inl h)
      · rcases List.mem_cons.1 h with h | h
        · cases h
        · exact g5 (Or.inr h)
    cases ok with
    | true =>
      rw [Sink.writeAll_ok_iff] at hs
      refine ⟨Frame.ofMessage m :: fs, t, ?_, ?_, ?_, g4, g5'⟩
      · rw [g1, hs.2]; simp
      · simp [delivered, ofMessage_wire, g2]
      · intro f hf
        rcases List.mem_cons.1 hf with rfl | hf
        · exact hm
        · exact g3 f hf
    | false =>
      obtain ⟨h0, t', h1, h2, h3⟩ := writeAll_fails hs
      obtain ⟨d1, d2⟩ := run_dead cs st st1 c1 c2 rs1 h0 hrun
      refine ⟨[], t', ?_, ?_, by simp, Or.inr ⟨by rw [d1]; exact h0, _, hm, h2, h3⟩, g5'⟩
      · rw [d1, h1]; simp
      · simp [delivered, d2]
  | .next :: cs, st, st', c, c', rs, h, hin, hlen => by
    simp only [WebSocket.run] at h
    cases hw : WebSocket.next W st c with
    | mk r q =>
    obtain ⟨st1, c1⟩ := q
    by_cases hr : r = .panic
    · subst hr
      simp only [hw, Prod.mk.injEq] at h
      obtain ⟨rfl, rfl, rfl⟩ := h
      obtain ⟨⟨t, h1, h2⟩, rfl⟩ := next_cut hin hw
      exact ⟨[], t, by simp [h1], by simp [delivered], by simp, h2, by simp⟩
    · cases hrun : WebSocket.run W cs st1 c1 with
      | mk rs1 q =>
      obtain ⟨st2, c2⟩ := q
      have h' : rs = .item r :: rs1 ∧ st2 = st' ∧ c2 = c' := by
        cases r with
        | panic => exact absurd rfl hr
        | ok m =>
          simp only [hw, hrun, Prod.mk.injEq] at h
          exact ⟨h.1.symm, h.2⟩
        | err e =>
          simp only [hw, hrun, Prod.mk.injEq] at h
          exact ⟨h.1.symm, h.2⟩
      obtain ⟨rfl, rfl, rfl⟩ := h'
      obtain ⟨fs1, k1, k2, k3⟩ := next_delivers hin hw hr
      have kl := (next_left hw).1
      obtain ⟨fs, t, g1, g2, g3, g4, g5⟩ := run_any cs st1 st2 c1 c2 rs1 hrun (by omega)
        (fun m' ok' hh => hlen m' ok' (List.mem_cons_of_mem _ hh))
      refine ⟨fs1 ++ fs, t, ?_, ?_, ?_, g4, ?_⟩
      · rw [g1, k1]; simp
      · rw [List.map_append, g2, k2]
      · intro f hf
        rcases List.mem_append.1 hf with hf | hf
        · exact k3 f hf
        · exact g3 f hf
      · have h5 : st1 = .closed ↔ st = .closed ∨ r = .err .connectionClosed := by
          clear g1 g2 g3 g4 g5 k1 k2 k3 h hrun kl hlen
          unfold WebSocket.next at hw
          repeat' split at hw
          all_goals simp only [Prod.mk.injEq] at hw; obtain ⟨rfl, rfl, rfl⟩ := hw
          all_goals simp_all
        rintro (h | h)
        · exact g5 (Or.inl (h5.2 (Or.inl h)))
        · rcases List.mem_cons.1 h with h | h
          · exact g5 (Or.inl (h5.2 (Or.inr (by cases h; rfl))))
          · exact g5 (Or.inr h)

/-- **C22 on a connection that may break**: for every history of `next` and `send` calls on an open socket, whatever arrives, whichever
writes fail and whether or not a call panics, the whole frames written are: one pong (same payload) per ping delivered, each message whose
sending succeeded, and one close frame at the first `ConnectionClosed`; a frame whose writing failed is never on the wire in full, and
nothing follows it. -/
theorem C22_any (W : Nat) (cs : List Call) (st' : WsState) (c c' : Conn) (rs : List Ret)
    (h : WebSocket.run W cs .open c = (rs, st', c')) (hin : c.inp.bytes.length < 2 ^ 64)
    (hlen : ∀ m ok, Ret.sent m ok ∈ rs → (wireOf m).payload.length < 2 ^ 64) :
    ∃ w, c'.out.out = c.out.out ++ w ∧ ∀ n, decodeAll n w = (delivered false rs).take n := by
  obtain ⟨fs, t, g1, g2, g3, g4, -⟩ := run_any cs .open st' c c' rs h hin hlen
  refine ⟨_, g1, fun n => ?_⟩
  rw [decodeAll_part g3 g4.undecodable, g2]
  rfl

/-- **C20 on a connection that may break**: at most one close frame is written in any history of reads and sends, with or without a
`close` at the end, whichever writes fail and whether or not a call panics. -/
theorem C20_any (W : Nat) (cs : List Call) (st' : WsState) (c c' c'' : Conn) (rs : List Ret) (o : Option Unit)
    (h : WebSocket.run W cs .open c = (rs, st', c')) (hin : c.inp.bytes.length < 2 ^ 64)
    (hlen : ∀ m ok, Ret.sent m ok ∈ rs → (wireOf m).payload.length < 2 ^ 64)
    (hc : WebSocket.close st' c' = (o, c'')) :
    (∃ w, c'.out.out = c.out.out ++ w ∧ ∀ n, (decodeAll n w).countP (fun f => f.nibble == 8) ≤ 1) ∧
    (∃ w, c''.out.out = c.out.out ++ w ∧ ∀ n, (decodeAll n w).countP (fun f => f.nibble == 8) ≤ 1) := by
  obtain ⟨fs, t, g1, g2, g3, g4, g5⟩ := run_any cs .open st' c c' rs h hin hlen
  have htake : ∀ (l : List WireFrame) (n : Nat), (l.take n).countP (fun f => f.nibble == 8) ≤ l.countP (fun f => f.nibble == 8) :=
    fun l n => (List.take_sublist n l).countP_le
  have hcount := delivered_close rs false
  have hfs : (fs.map Frame.wire).countP (fun f => f.nibble == 8) ≤ 1 := by
    rw [g2, show decide (WsState.open = .closed) = false from rfl, hcount]
    split <;> omega
  have first : ∃ w, c'.out.out = c.out.out ++ w ∧ ∀ n, (decodeAll n w).countP (fun f => f.nibble == 8) ≤ 1 := by
    refine ⟨_, g1, fun n => ?_⟩
    rw [decodeAll_part g3 g4.undecodable]
    exact Nat.le_trans (htake _ n) hfs
  refine ⟨first, ?_⟩
  cases st' with
  | closed =>
    simp only [WebSocket.close, Prod.mk.injEq] at hc
    obtain ⟨-, rfl⟩ := hc
    exact first
  | «open» =>
    have hno : Ret.item (.err .connectionClosed) ∉ rs := fun hm => by cases g5 (Or.inr hm)
    have hzero : (fs.map Frame.wire).countP (fun f => f.nibble == 8) = 0 := by
      rw [g2, show decide (WsState.open = .closed) = false from rfl, hcount, if_neg (by simp [hno])]
    simp only [WebSocket.close] at hc
    cases hs : sendFrame closeFrame c'.out with
    | mk ok out =>
      have hout : c''.out = out := by
        simp only [hs] at hc
        cases ok <;> simp only [Prod.mk.injEq] at hc <;> rw [← hc.2]
      rw [sendFrame_eq] at hs
      cases ok with
      | false =>
        rcases g4 with rfl | ⟨h0, hg⟩
        · obtain ⟨-, t, h1, h2, h3⟩ := writeAll_fails hs
          refine ⟨(fs.map Frame.bytes).flatten ++ t, by rw [hout, h1, g1]; simp, fun n => ?_⟩
          rw [decodeAll_part g3 (decodeServer_part (g := closeFrame) (by simp [closeFrame]) h2 h3)]
          exact Nat.le_trans (htake _ n) hfs
        · obtain ⟨-, h1⟩ := writeAll_dead h0 (Frame.bytes_ne _) hs
          rw [hout, h1]
          exact first
      | true =>
        rcases g4 with rfl | ⟨h0, hg⟩
        · rw [Sink.writeAll_ok_iff] at hs
          refine ⟨((fs ++ [closeFrame]).map Frame.bytes).flatten ++ [], by rw [hout, hs.2, g1]; simp, fun n => ?_⟩
          rw [decodeAll_part (by
            intro f hf
            rcases List.mem_append.1 hf with hf | hf
            · exact g3 f hf
            · simp at hf; subst hf; simp [closeFrame]) rfl]
          refine Nat.le_trans (htake _ n) ?_
          rw [List.map_append, List.countP_append, hzero]
          simp [closeFrame_wire, closeWire]
        · obtain ⟨h1, -⟩ := writeAll_dead h0 (Frame.bytes_ne _) hs
          cases h1

/-- a connection that accepts seven bytes: the pong is whole, of the text only its header is written, the reply to the close frame panics -/
theorem broken_history : WebSocket.run 32 [.next, .send (.text "xyz"), .next, .next] .open
    ⟨[.data pingFrame.encode, .data closeClient.encode], ⟨[], some 7⟩⟩ =
    ([.item (.ok (.ping (some [104, 105]))), .sent (.text "xyz") false, .item .panic], .closed,
     ⟨[], ⟨[0x8a, 2, 104, 105, 0x81, 3, 120], some 0⟩⟩) := by
  have h := C17_client_message 32 (.ping (some [104, 105])) ⟨pingFrame, [.data pingFrame.encode]⟩
    [.data closeClient.encode] (ok_single _ (by decide) (by decide)) rfl rfl rfl
  simp only [List.cons_append, List.nil_append] at h
  have h1 : WebSocket.next 32 .open ⟨[.data pingFrame.encode, .data closeClient.encode], ⟨[], some 7⟩⟩ =
      (.ok (.ping (some [104, 105])), .open, ⟨[.data closeClient.encode], ⟨[0x8a, 2, 104, 105], some 3⟩⟩) := by
    simp only [WebSocket.next, h]; decide +kernel
  have h2 : WebSocket.send (.text "xyz") ⟨[.data closeClient.encode], ⟨[0x8a, 2, 104, 105], some 3⟩⟩ =
      (false, ⟨[.data closeClient.encode], ⟨[0x8a, 2, 104, 105, 0x81, 3, 120], some 0⟩⟩) := by decide +kernel
  have h3 : WebSocket.next 32 .open ⟨[.data closeClient.encode], ⟨[0x8a, 2, 104, 105, 0x81, 3, 120], some 0⟩⟩ =
      (.panic, .closed, ⟨[], ⟨[0x8a, 2, 104, 105, 0x81, 3, 120], some 0⟩⟩) := by
    have h4 := next_close 32 (by decide) [] []
    simp only [WebSocket.next] at h4 ⊢
    cases hm : Message.next 32 [Ev.data closeClient.encode] with
    | mk o inp =>
      rw [hm] at h4
      cases o with
      | ok m =>
        cases m <;> simp at h4
        split at h4 <;> cases h4
      | panic => cases h4
      | err e =>
        cases e with
        | clientProtocolViolationError => cases h4
        | clientSentCloseFrame =>
          simp only [sendFrame_eq] at h4 ⊢
          cases h4
          decide +kernel
  simp only [WebSocket.run, h1, h2, h3]

/-- the peer can read the pong, and no close frame was sent -/
example : ∃ w, [0x8a, 2, 104, 105, 0x81, 3, 120] = [] ++ w ∧
    ∀ n, decodeAll n w = [wireOf (.pong (some [104, 105]))].take n :=
  C22_any 32 _ _ _ _ _ broken_history (by decide +kernel) (by
    intro m ok h
    simp only [List.mem_cons, reduceCtorEq, Ret.sent.injEq, List.not_mem_nil, or_false, false_or] at h
    rw [h.1]
    decide +kernel)

end Puck
