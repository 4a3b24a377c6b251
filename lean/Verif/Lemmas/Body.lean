import Verif.Spec.Body
import Verif.Lemmas.Source
/-!
# Reading bodies
-/
namespace Puck

theorem Raw.read_bytes {n : Nat} {r r' : Raw} {o : Option Bytes} (h : r.read n = (o, r')) :
    r.bytes = o.getD [] ++ r'.bytes ∧ (o.getD []).length ≤ n := by
  unfold Raw.read at h
  split at h
  · simp only [Prod.mk.injEq] at h; obtain ⟨rfl, rfl⟩ := h; simp [Raw.bytes]
  · simp only [Prod.mk.injEq] at h; obtain ⟨rfl, rfl⟩ := h; simp [Raw.bytes]
  · split at h
    · simp only [Prod.mk.injEq] at h; obtain ⟨rfl, rfl⟩ := h; simpa [Raw.bytes]
    · simp only [Prod.mk.injEq] at h; obtain ⟨rfl, rfl⟩ := h
      simp only [Raw.bytes, Option.getD_some]
      rw [← List.append_assoc, List.take_append_drop]
      simp; omega

theorem Src.read_bytes {n : Nat} {s s' : Src} {o : Option Bytes} (h : s.read n = (o, s')) :
    s.bytes = o.getD [] ++ s'.bytes ∧ (o.getD []).length ≤ n := by
  cases s with
  | cursor c =>
    simp only [Src.read, Prod.mk.injEq] at h
    obtain ⟨rfl, rfl⟩ := h
    simp [Src.bytes]; omega
  | other r =>
    simp only [Src.read] at h
    cases hr : r.read n with
    | mk x r' =>
      simp only [hr, Prod.mk.injEq] at h
      obtain ⟨rfl, rfl⟩ := h
      exact Raw.read_bytes hr
  | buf cap r =>
    simp only [Src.read] at h
    cases hr : r.read cap n with
    | mk x r' =>
      simp only [hr, Prod.mk.injEq] at h
      obtain ⟨rfl, rfl⟩ := h
      simp only [Src.bytes]
      unfold Buf.read at hr
      split at hr
      · rename_i hb
        cases hx : r.raw.read n with
        | mk y raw =>
          have := Raw.read_bytes hx
          rw [hx] at hr
          cases y <;> simp only [Prod.mk.injEq] at hr <;> obtain ⟨rfl, rfl⟩ := hr <;>
            simpa [hb.1] using this
      · unfold Buf.fillBuf at hr
        by_cases hb : r.buf = []
        · simp only [hb, if_true] at hr
          cases hx : r.raw.read cap with
          | mk y raw =>
            have := Raw.read_bytes hx
            rw [hx] at hr
            cases y with
            | none =>
              simp only [Prod.mk.injEq] at hr
              obtain ⟨rfl, rfl⟩ := hr
              simpa [hb] using this
            | some y =>
              simp only [Prod.mk.injEq] at hr
              obtain ⟨rfl, rfl⟩ := hr
              simp only [Option.getD_some] at this ⊢
              rw [← List.append_assoc, List.take_append_drop, hb, this.1]
              simp; omega
        · simp only [hb, if_false, Prod.mk.injEq] at hr
          obtain ⟨rfl, rfl⟩ := hr
          simp only [Option.getD_some]
          rw [← List.append_assoc, List.take_append_drop]
          simp; omega

/-- One read of a body, as a step on what is left. -/
theorem Body.read_spec {n : Nat} (hn : 0 < n) {b b' : Body} (hw : b.WF) {o : Outcome Unit Bytes}
    (h : b.read n = (o, b')) :
    b'.WF ∧ b'.mime = b.mime ∧ b'.length = b.length ∧
    ((∃ x, o = .ok x ∧ b.avail = x ++ b'.avail ∧ (b.Fails ↔ b'.Fails) ∧ x.length ≤ n ∧
        (x = [] → b.avail = [] ∧ ¬ b.Fails)) ∨
     (o = .err () ∧ b.avail = [] ∧ b.Fails)) := by
  obtain ⟨hr, hl⟩ := hw
  unfold Body.read at h
  simp only at h
  cases hlen : b.length with
  | none =>
    rw [hlen] at h
    simp only at h
    cases hx : b.reader.read n with
    | mk y s =>
      obtain ⟨hs, hw'⟩ := Src.read_spec hn hr hx
      rw [hx] at h
      cases y with
      | none =>
        simp only [Prod.mk.injEq] at h
        obtain ⟨rfl, rfl⟩ := h
        refine ⟨⟨hw', by simp⟩, rfl, rfl, Or.inr ⟨rfl, ?_⟩⟩
        simp only [Body.avail, Body.Fails, hlen]
        have := hs.none_avail rfl
        exact ⟨this.1, this.2, trivial⟩
      | some x =>
        simp only [Prod.mk.injEq] at h
        obtain ⟨rfl, rfl⟩ := h
        refine ⟨⟨hw', by simp⟩, rfl, rfl, Or.inl ⟨x, rfl, ?_⟩⟩
        simp only [Body.avail, Body.Fails, hlen]
        refine ⟨hs.some_avail _ rfl, ?_, hs.some_len _ rfl, ?_⟩
        · rw [hs.some_clean _ rfl]
        · intro hnil
          have := hs.some_nil _ rfl hnil
          exact ⟨this.1, fun h => h.1 this.2⟩
  | some len =>
    have hle := hl len hlen
    rw [hlen] at h
    simp only at h
    by_cases h1 : len = b.bytesRead
    · simp only [h1, if_true, Prod.mk.injEq] at h
      obtain ⟨rfl, rfl⟩ := h
      refine ⟨⟨hr, hl⟩, rfl, hlen, Or.inl ⟨[], rfl, by simp, Iff.rfl, by simp, fun _ => ?_⟩⟩
      simp [Body.avail, Body.Fails, hlen, h1]
    · have h2 : ¬ len < b.bytesRead := by omega
      simp only [h1, h2, if_false] at h
      have hm : 0 < min (len - b.bytesRead) n := by omega
      cases hx : b.reader.read (min (len - b.bytesRead) n) with
      | mk y s =>
        obtain ⟨hs, hw'⟩ := Src.read_spec hm hr hx
        rw [hx] at h
        cases y with
        | none =>
          simp only [Prod.mk.injEq] at h
          obtain ⟨rfl, rfl⟩ := h
          refine ⟨⟨hw', by simpa using hle⟩, rfl, rfl, Or.inr ⟨rfl, ?_⟩⟩
          simp only [Body.avail, Body.Fails, hlen]
          have := hs.none_avail rfl
          rw [this.1]
          exact ⟨by simp, this.2, by simp; omega⟩
        | some x =>
          simp only [Prod.mk.injEq] at h
          obtain ⟨rfl, rfl⟩ := h
          have hxl := hs.some_len _ rfl
          have hav := hs.some_avail _ rfl
          refine ⟨⟨hw', ?_⟩, rfl, rfl, Or.inl ⟨x, rfl, ?_⟩⟩
          · intro len' hlen'
            simp only [Option.some.injEq] at hlen'
            subst hlen'
            simp only; omega
          · simp only [Body.avail, Body.Fails, hlen]
            refine ⟨?_, ?_, by omega, ?_⟩
            · rw [hav, take_app (by omega)]
              congr 2; omega
            · rw [hs.some_clean _ rfl, hav, List.length_append]
              constructor
              · rintro ⟨h1, h2⟩; exact ⟨h1, by omega⟩
              · rintro ⟨h1, h2⟩; exact ⟨h1, by omega⟩
            · intro hnil
              have := hs.some_nil _ rfl hnil
              rw [this.1]
              exact ⟨by simp, fun h => h.1 this.2⟩

theorem Body.readToEnd_spec (sched : Nat → Nat) : ∀ (k i : Nat) (acc : Bytes) (b : Body), b.reader.size ≤ k →
    b.WF → (¬ b.Fails → (b.readToEnd sched i acc).1 = .ok (acc ++ b.avail) ∧
        (b.readToEnd sched i acc).2.avail = [] ∧ ¬ (b.readToEnd sched i acc).2.Fails ∧
        (b.readToEnd sched i acc).2.WF) ∧
      (b.Fails → (b.readToEnd sched i acc).1 = .err ()) := by
  intro k
  induction k with
  | zero =>
    intro i acc b hk hw
    rw [Body.readToEnd]
    cases hr : b.read (sched i + 1) with
    | mk o b' =>
      obtain ⟨hw', _, _, h⟩ := Body.read_spec (Nat.succ_pos _) hw hr
      rcases h with ⟨x, rfl, h1, h2, _, h4⟩ | ⟨rfl, h1, h2⟩
      · by_cases hx : x = []
        · subst hx
          have := h4 rfl
          simp only [List.nil_append] at h1
          simp only [dite_true]
          exact ⟨fun _ => ⟨by simp [this.1], by rw [← h1, this.1], fun h => this.2 (h2.2 h), hw'⟩, fun h => absurd h this.2⟩
        · have := Body.read_size_lt hr hx; omega
      · exact ⟨fun h => absurd h2 h, fun _ => rfl⟩
  | succ k ih =>
    intro i acc b hk hw
    rw [Body.readToEnd]
    cases hr : b.read (sched i + 1) with
    | mk o b' =>
      obtain ⟨hw', _, _, h⟩ := Body.read_spec (Nat.succ_pos _) hw hr
      rcases h with ⟨x, rfl, h1, h2, _, h4⟩ | ⟨rfl, h1, h2⟩
      · by_cases hx : x = []
        · subst hx
          have := h4 rfl
          simp only [List.nil_append] at h1
          simp only [dite_true]
          exact ⟨fun _ => ⟨by simp [this.1], by rw [← h1, this.1], fun h => this.2 (h2.2 h), hw'⟩, fun h => absurd h this.2⟩
        · have hlt := Body.read_size_lt hr hx
          simp only [hx, dite_false]
          obtain ⟨g1, g2⟩ := ih (i + 1) (acc ++ x) b' (by omega) hw'
          refine ⟨fun h => ?_, fun h => g2 (h2.1 h)⟩
          have := g1 (fun h' => h (h2.2 h'))
          rw [h1, ← List.append_assoc]
          exact this
      · exact ⟨fun h => absurd h2 h, fun _ => rfl⟩

theorem Body.intoBytes_ok (sched : Nat → Nat) {b : Body} (hw : b.WF) (h : ¬ b.Fails) :
    b.intoBytes sched = .ok b.avail := by
  have := ((Body.readToEnd_spec sched _ 0 [] b (Nat.le_refl _) hw).1 h).1
  simpa [Body.intoBytes] using this

theorem Body.intoBytes_err (sched : Nat → Nat) {b : Body} (hw : b.WF) (h : b.Fails) :
    b.intoBytes sched = .err () :=
  (Body.readToEnd_spec sched _ 0 [] b (Nat.le_refl _) hw).2 h

/-- `io::copy` writes exactly the bytes the body still has, as one `write_all` would; it succeeds iff the
body can be read to the end and the sink accepts them. -/
theorem Body.copyTo_spec (blk : Nat) : ∀ (k : Nat) (b : Body) (s : Sink), b.reader.size ≤ k → b.WF →
    (b.copyTo blk s).2.2 = (s.writeAll b.avail).2 ∧
    (¬ b.Fails → (s.writeAll b.avail).1 = true → (b.copyTo blk s).1 = .ok () ∧
      (b.copyTo blk s).2.1.avail = [] ∧ (b.copyTo blk s).2.1.WF ∧ ¬ (b.copyTo blk s).2.1.Fails ∧
      (b.copyTo blk s).2.1.mime = b.mime ∧ (b.copyTo blk s).2.1.length = b.length) ∧
    (b.Fails ∨ (s.writeAll b.avail).1 = false → (b.copyTo blk s).1 = .err ()) := by
  intro k
  induction k with
  | zero =>
    intro b s hk hw
    rw [Body.copyTo]
    cases hr : b.read (blk + 1) with
    | mk o b' =>
      obtain ⟨hw', hm, hle, h⟩ := Body.read_spec (Nat.succ_pos _) hw hr
      rcases h with ⟨x, rfl, h1, h2, _, h4⟩ | ⟨rfl, h1, h2⟩
      · by_cases hx : x = []
        · subst hx
          have := h4 rfl
          simp only [List.nil_append] at h1
          simp only [dite_true, this.1, Sink.writeAll_nil]
          refine ⟨trivial, fun _ _ => ⟨trivial, by rw [← h1, this.1], hw', fun h => this.2 (h2.2 h), hm, hle⟩, ?_⟩
          rintro (h | h)
          · exact absurd h this.2
          · simp at h
        · have := Body.read_size_lt hr hx; omega
      · simp only [h1, Sink.writeAll_nil]
        exact ⟨trivial, fun h => absurd h2 h, fun _ => trivial⟩
  | succ k ih =>
    intro b s hk hw
    rw [Body.copyTo]
    cases hr : b.read (blk + 1) with
    | mk o b' =>
      obtain ⟨hw', hm, hle, h⟩ := Body.read_spec (Nat.succ_pos _) hw hr
      rcases h with ⟨x, rfl, h1, h2, _, h4⟩ | ⟨rfl, h1, h2⟩
      · by_cases hx : x = []
        · subst hx
          have := h4 rfl
          simp only [List.nil_append] at h1
          simp only [dite_true, this.1, Sink.writeAll_nil]
          refine ⟨trivial, fun _ _ => ⟨trivial, by rw [← h1, this.1], hw', fun h => this.2 (h2.2 h), hm, hle⟩, ?_⟩
          rintro (h | h)
          · exact absurd h this.2
          · simp at h
        · have hlt := Body.read_size_lt hr hx
          simp only [hx, dite_false]
          rw [h1, Sink.writeAll_append]
          cases hwr : s.writeAll x with
          | mk ok s' =>
            cases ok with
            | false => simp
            | true =>
              obtain ⟨g1, g2, g3⟩ := ih b' s' (by omega) hw'
              refine ⟨g1, fun hf hs => ?_, fun h => g3 (h.imp h2.1 id)⟩
              obtain ⟨k1, k2, k3, k4, k5, k6⟩ := g2 (fun h' => hf (h2.2 h')) hs
              exact ⟨k1, k2, k3, k4, k5.trans hm, k6.trans hle⟩
      · simp only [h1, Sink.writeAll_nil]
        exact ⟨trivial, fun h => absurd h2 h, fun _ => trivial⟩

end Puck
