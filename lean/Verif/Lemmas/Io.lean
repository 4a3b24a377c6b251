import Verif.Model.Io
/-!
# Closed forms for the I/O model

A stream is always looked at as `es ++ rest` where `es` is error free; `rest` is whatever comes later.
-/
namespace Puck

theorem take_app {α} {b x : List α} {n : Nat} (h : b.length ≤ n) :
    (b ++ x).take n = b ++ x.take (n - b.length) := by
  rw [List.take_append, List.take_of_length_le h]

theorem drop_app {α} {b x : List α} {n : Nat} (h : b.length ≤ n) :
    (b ++ x).drop n = x.drop (n - b.length) := by
  rw [List.drop_append, List.drop_eq_nil_of_le h, List.nil_append]

theorem take_ne_nil {α} {b : List α} {n : Nat} (h : b ≠ []) (hn : 0 < n) : b.take n ≠ [] := by
  cases b with
  | nil => exact absurd rfl h
  | cons x xs => cases n with
    | zero => omega
    | succ n => simp

theorem drop_ne_nil {α} {b : List α} {n : Nat} (h : n < b.length) : b.drop n ≠ [] := by
  intro h'
  have := congrArg List.length h'
  simp at this; omega

theorem Raw.WF.tail {e : Ev} {r : Raw} (h : Raw.WF (e :: r)) : Raw.WF r :=
  fun b hb => h b (List.mem_cons_of_mem _ hb)

theorem Raw.Clean.tail {e : Ev} {r : Raw} (h : Raw.Clean (e :: r)) : Raw.Clean r :=
  fun hb => h (List.mem_cons_of_mem _ hb)

theorem Raw.WF.nil : Raw.WF [] := by intro b hb; cases hb
theorem Raw.Clean.nil : Raw.Clean [] := by intro hb; cases hb

theorem Raw.WF.cons {b : Bytes} {r : Raw} (hb : b ≠ []) (h : Raw.WF r) : Raw.WF (.data b :: r) := by
  intro c hc
  rcases List.mem_cons.1 hc with h' | h'
  · cases h'; exact hb
  · exact h c h'

theorem Raw.Clean.cons {b : Bytes} {r : Raw} (h : Raw.Clean r) : Raw.Clean (.data b :: r) := by
  intro hc
  rcases List.mem_cons.1 hc with h' | h'
  · cases h'
  · exact h h'

theorem Raw.WF.append {a b : Raw} (ha : a.WF) (hb : b.WF) : Raw.WF (a ++ b) := by
  intro c hc
  rcases List.mem_append.1 hc with h | h
  · exact ha c h
  · exact hb c h

theorem Raw.WF.left {a b : Raw} (h : Raw.WF (a ++ b)) : a.WF :=
  fun c hc => h c (List.mem_append_left _ hc)

theorem Raw.WF.right {a b : Raw} (h : Raw.WF (a ++ b)) : b.WF :=
  fun c hc => h c (List.mem_append_right _ hc)

@[simp] theorem Raw.bytes_append (a b : Raw) : Raw.bytes (a ++ b) = Raw.bytes a ++ Raw.bytes b := by
  induction a with
  | nil => rfl
  | cons e a ih => cases e <;> simp [Raw.bytes, ih]

/-- Every stream is an error-free part followed by nothing or by an error. -/
theorem Raw.split (r : Raw) : ∃ es rest, r = es ++ rest ∧ Raw.Clean es ∧
    (rest = [] ∨ ∃ rs, rest = .fail :: rs) := by
  induction r with
  | nil => exact ⟨[], [], rfl, Raw.Clean.nil, Or.inl rfl⟩
  | cons e r ih =>
    cases e with
    | fail => exact ⟨[], .fail :: r, rfl, Raw.Clean.nil, Or.inr ⟨r, rfl⟩⟩
    | data b =>
      obtain ⟨es, rest, h1, h2, h3⟩ := ih
      exact ⟨.data b :: es, rest, by simp [h1], h2.cons, h3⟩

theorem Raw.bytes_eq_nil {es : Raw} (hw : es.WF) (hc : es.Clean) (h : Raw.bytes es = []) : es = [] := by
  cases es with
  | nil => rfl
  | cons e es =>
    cases e with
    | fail => exact absurd (List.mem_cons_self) hc
    | data b =>
      simp [Raw.bytes] at h
      exact absurd h.1 (hw b List.mem_cons_self)

theorem Raw.read_split {es rest : Raw} {cap : Nat} (hcap : 0 < cap) (hw : es.WF) (hc : es.Clean)
    (hne : es ≠ []) :
    ∃ b es', Raw.read cap (es ++ rest) = (some b, es' ++ rest) ∧ b ≠ [] ∧ b.length ≤ cap ∧
      b ++ Raw.bytes es' = Raw.bytes es ∧ es'.WF ∧ es'.Clean := by
  cases es with
  | nil => exact absurd rfl hne
  | cons e es =>
    cases e with
    | fail => exact absurd (List.mem_cons_self) hc
    | data b =>
      have hb : b ≠ [] := hw b List.mem_cons_self
      by_cases hl : b.length ≤ cap
      · exact ⟨b, es, by simp [Raw.read, hl], hb, hl, rfl, hw.tail, hc.tail⟩
      · refine ⟨b.take cap, .data (b.drop cap) :: es, by simp [Raw.read, hl], ?_, ?_, ?_, ?_, hc.tail.cons⟩
        · exact take_ne_nil hb hcap
        · simp; omega
        · simp [Raw.bytes, ← List.append_assoc]
        · exact Raw.WF.cons (drop_ne_nil (by omega)) hw.tail

theorem Buf.read_split {es rest : Raw} {buf : Bytes} {cap n : Nat} (hcap : 0 < cap) (hn : 0 < n)
    (hw : es.WF) (hc : es.Clean) (hne : buf ++ Raw.bytes es ≠ []) :
    ∃ b buf' es', Buf.read cap n ⟨buf, es ++ rest⟩ = (some b, ⟨buf', es' ++ rest⟩) ∧ b ≠ [] ∧
      b.length ≤ n ∧ b ++ (buf' ++ Raw.bytes es') = buf ++ Raw.bytes es ∧ es'.WF ∧ es'.Clean := by
  cases buf with
  | nil =>
    have hes : es ≠ [] := by rintro rfl; exact hne rfl
    by_cases hb : cap ≤ n
    · obtain ⟨b, es', h1, h2, h3, h4, h5, h6⟩ := Raw.read_split (rest := rest) hn hw hc hes
      exact ⟨b, [], es', by simp [Buf.read, hb, h1], h2, h3, by simpa using h4, h5, h6⟩
    · obtain ⟨b, es', h1, h2, h3, h4, h5, h6⟩ := Raw.read_split (rest := rest) hcap hw hc hes
      refine ⟨b.take n, b.drop n, es', by simp [Buf.read, hb, Buf.fillBuf, h1], ?_, ?_, ?_, h5, h6⟩
      · exact take_ne_nil h2 hn
      · simp; omega
      · simpa [← List.append_assoc] using h4
  | cons x xs =>
    refine ⟨(x :: xs).take n, (x :: xs).drop n, es, by simp [Buf.read, Buf.fillBuf], ?_, ?_, ?_, hw, hc⟩
    · exact take_ne_nil (by simp) hn
    · simp; omega
    · simp only [← List.append_assoc, List.take_append_drop]

theorem Buf.read_eof {buf : Bytes} {cap n : Nat} (h : buf = []) :
    Buf.read cap n ⟨buf, []⟩ = (some [], ⟨[], []⟩) := by
  subst h
  by_cases hb : cap ≤ n <;> simp [Buf.read, hb, Buf.fillBuf, Raw.read]

theorem Buf.read_fail {buf : Bytes} {cap n : Nat} {rs : Raw} (h : buf = []) :
    Buf.read cap n ⟨buf, .fail :: rs⟩ = (none, ⟨[], rs⟩) := by
  subst h
  by_cases hb : cap ≤ n <;> simp [Buf.read, hb, Buf.fillBuf, Raw.read]

/-! ### `read_exact` -/

theorem Buf.readExactGo_ok {cap : Nat} (hcap : 0 < cap) (rest : Raw) :
    ∀ (f n : Nat) (acc buf : Bytes) (es : Raw), n ≤ f → es.WF → es.Clean →
      n ≤ (buf ++ Raw.bytes es).length →
      ∃ buf' es', Buf.readExactGo cap f n acc ⟨buf, es ++ rest⟩ =
          (some (acc ++ (buf ++ Raw.bytes es).take n), ⟨buf', es' ++ rest⟩) ∧
        buf' ++ Raw.bytes es' = (buf ++ Raw.bytes es).drop n ∧ es'.WF ∧ es'.Clean := by
  intro f
  induction f with
  | zero =>
    intro n acc buf es hf hw hc _
    obtain rfl : n = 0 := by omega
    exact ⟨buf, es, by simp [Buf.readExactGo], by simp, hw, hc⟩
  | succ f ih =>
    intro n acc buf es hf hw hc hlen
    cases n with
    | zero => exact ⟨buf, es, by simp [Buf.readExactGo], by simp, hw, hc⟩
    | succ n =>
      have hne : buf ++ Raw.bytes es ≠ [] := by
        intro h; rw [h] at hlen; simp at hlen
      obtain ⟨b, buf', es', h1, h2, h3, h4, h5, h6⟩ :=
        Buf.read_split (rest := rest) hcap (Nat.succ_pos n) hw hc hne
      have hbl := List.length_pos_iff.2 h2
      have hlen' : n + 1 - b.length ≤ (buf' ++ Raw.bytes es').length := by
        have := congrArg List.length h4
        rw [List.length_append] at this; omega
      obtain ⟨buf'', es'', g1, g2, g3, g4⟩ :=
        ih (n + 1 - b.length) (acc ++ b) buf' es' (by omega) h5 h6 hlen'
      refine ⟨buf'', es'', ?_, ?_, g3, g4⟩
      · rw [Buf.readExactGo]
        simp only [h1, if_neg h2, g1, ← h4, List.append_assoc]
        rw [take_app h3]
      · rw [g2, ← h4, drop_app h3]

/-- `read_exact` returns the next `n` bytes if the error-free part provides them. -/
theorem Buf.readExact_ok {cap n : Nat} {buf : Bytes} {es rest : Raw} (hcap : 0 < cap) (hw : es.WF)
    (hc : es.Clean) (hlen : n ≤ (buf ++ Raw.bytes es).length) :
    ∃ buf' es', Buf.readExact cap n ⟨buf, es ++ rest⟩ =
        (some ((buf ++ Raw.bytes es).take n), ⟨buf', es' ++ rest⟩) ∧
      buf' ++ Raw.bytes es' = (buf ++ Raw.bytes es).drop n ∧ es'.WF ∧ es'.Clean := by
  simpa [Buf.readExact] using Buf.readExactGo_ok hcap rest n n [] buf es (Nat.le_refl _) hw hc hlen

theorem Buf.readExactGo_short {cap : Nat} (hcap : 0 < cap) (rest : Raw)
    (hrest : rest = [] ∨ ∃ rs, rest = .fail :: rs) :
    ∀ (f n : Nat) (acc buf : Bytes) (es : Raw), n ≤ f → es.WF → es.Clean →
      (buf ++ Raw.bytes es).length < n →
      ∃ r, Buf.readExactGo cap f n acc ⟨buf, es ++ rest⟩ = (none, r) := by
  intro f
  induction f with
  | zero => intro n acc buf es hf hw hc h; omega
  | succ f ih =>
    intro n acc buf es hf hw hc hlen
    cases n with
    | zero => omega
    | succ n =>
      by_cases hne : buf ++ Raw.bytes es = []
      · obtain ⟨hb, he⟩ := List.append_eq_nil_iff.1 hne
        obtain rfl := Raw.bytes_eq_nil hw hc he
        subst hb
        rcases hrest with rfl | ⟨rs, rfl⟩
        · exact ⟨⟨[], []⟩, by
            rw [Buf.readExactGo, List.nil_append, Buf.read_eof rfl]; simp⟩
        · exact ⟨⟨[], rs⟩, by
            rw [Buf.readExactGo, List.nil_append, Buf.read_fail rfl]⟩
      · obtain ⟨b, buf', es', h1, h2, h3, h4, h5, h6⟩ :=
          Buf.read_split (rest := rest) hcap (Nat.succ_pos n) hw hc hne
        have hbl := List.length_pos_iff.2 h2
        have hlen' : (buf' ++ Raw.bytes es').length < n + 1 - b.length := by
          have := congrArg List.length h4
          rw [List.length_append] at this; omega
        obtain ⟨r, hr⟩ := ih (n + 1 - b.length) (acc ++ b) buf' es' (by omega) h5 h6 hlen'
        exact ⟨r, by rw [Buf.readExactGo]; simp only [h1, if_neg h2, hr]⟩

/-- `read_exact` fails if the stream ends or errs before `n` bytes. -/
theorem Buf.readExact_short {cap n : Nat} {buf : Bytes} {es rest : Raw} (hcap : 0 < cap) (hw : es.WF)
    (hc : es.Clean) (hrest : rest = [] ∨ ∃ rs, rest = .fail :: rs)
    (hlen : (buf ++ Raw.bytes es).length < n) :
    ∃ r, Buf.readExact cap n ⟨buf, es ++ rest⟩ = (none, r) :=
  Buf.readExactGo_short hcap rest hrest n n [] buf es (Nat.le_refl _) hw hc hlen

/-! ### `take(limit).read_to_end` -/

theorem Buf.takeToEndGo_ok {cap : Nat} (hcap : 0 < cap) (rest : Raw) :
    ∀ (f n : Nat) (acc buf : Bytes) (es : Raw), n ≤ f → es.WF → es.Clean →
      n ≤ (buf ++ Raw.bytes es).length →
      ∃ buf' es', Buf.takeToEndGo cap f n acc ⟨buf, es ++ rest⟩ =
          (some (acc ++ (buf ++ Raw.bytes es).take n), ⟨buf', es' ++ rest⟩) ∧
        buf' ++ Raw.bytes es' = (buf ++ Raw.bytes es).drop n ∧ es'.WF ∧ es'.Clean := by
  intro f
  induction f with
  | zero =>
    intro n acc buf es hf hw hc _
    obtain rfl : n = 0 := by omega
    exact ⟨buf, es, by simp [Buf.takeToEndGo], by simp, hw, hc⟩
  | succ f ih =>
    intro n acc buf es hf hw hc hlen
    cases n with
    | zero => exact ⟨buf, es, by simp [Buf.takeToEndGo], by simp, hw, hc⟩
    | succ n =>
      have hne : buf ++ Raw.bytes es ≠ [] := by
        intro h; rw [h] at hlen; simp at hlen
      obtain ⟨b, buf', es', h1, h2, h3, h4, h5, h6⟩ :=
        Buf.read_split (rest := rest) hcap (Nat.succ_pos n) hw hc hne
      have hbl := List.length_pos_iff.2 h2
      have hlen' : n + 1 - b.length ≤ (buf' ++ Raw.bytes es').length := by
        have := congrArg List.length h4
        rw [List.length_append] at this; omega
      obtain ⟨buf'', es'', g1, g2, g3, g4⟩ :=
        ih (n + 1 - b.length) (acc ++ b) buf' es' (by omega) h5 h6 hlen'
      refine ⟨buf'', es'', ?_, ?_, g3, g4⟩
      · rw [Buf.takeToEndGo]
        simp only [h1, if_neg h2, g1, ← h4, List.append_assoc]
        rw [take_app h3]
      · rw [g2, ← h4, drop_app h3]

theorem Buf.takeToEnd_ok {cap n : Nat} {buf : Bytes} {es rest : Raw} (hcap : 0 < cap) (hw : es.WF)
    (hc : es.Clean) (hlen : n ≤ (buf ++ Raw.bytes es).length) :
    ∃ buf' es', Buf.takeToEnd cap n ⟨buf, es ++ rest⟩ =
        (some ((buf ++ Raw.bytes es).take n), ⟨buf', es' ++ rest⟩) ∧
      buf' ++ Raw.bytes es' = (buf ++ Raw.bytes es).drop n ∧ es'.WF ∧ es'.Clean := by
  simpa [Buf.takeToEnd] using Buf.takeToEndGo_ok hcap rest n n [] buf es (Nat.le_refl _) hw hc hlen

theorem Buf.takeToEndGo_short {cap : Nat} (hcap : 0 < cap) (rest : Raw)
    (hrest : rest = [] ∨ ∃ rs, rest = .fail :: rs) :
    ∀ (f n : Nat) (acc buf : Bytes) (es : Raw), n ≤ f → es.WF → es.Clean →
      (buf ++ Raw.bytes es).length < n →
      Buf.takeToEndGo cap f n acc ⟨buf, es ++ rest⟩ =
        (if rest = [] then some (acc ++ (buf ++ Raw.bytes es)) else none, ⟨[], rest.tail⟩) := by
  intro f
  induction f with
  | zero => intro n acc buf es hf hw hc h; omega
  | succ f ih =>
    intro n acc buf es hf hw hc hlen
    cases n with
    | zero => omega
    | succ n =>
      by_cases hne : buf ++ Raw.bytes es = []
      · obtain ⟨hb, he⟩ := List.append_eq_nil_iff.1 hne
        obtain rfl := Raw.bytes_eq_nil hw hc he
        subst hb
        rcases hrest with rfl | ⟨rs, rfl⟩
        · rw [Buf.takeToEndGo, List.nil_append, Buf.read_eof rfl]; simp [Raw.bytes]
        · rw [Buf.takeToEndGo, List.nil_append, Buf.read_fail rfl]; simp
      · obtain ⟨b, buf', es', h1, h2, h3, h4, h5, h6⟩ :=
          Buf.read_split (rest := rest) hcap (Nat.succ_pos n) hw hc hne
        have hbl := List.length_pos_iff.2 h2
        have hlen' : (buf' ++ Raw.bytes es').length < n + 1 - b.length := by
          have := congrArg List.length h4
          rw [List.length_append] at this; omega
        rw [Buf.takeToEndGo]
        simp only [h1, if_neg h2, ih (n + 1 - b.length) (acc ++ b) buf' es' (by omega) h5 h6 hlen']
        simp only [← h4, List.append_assoc]

/-- With fewer bytes than the limit: everything at end of file, `Err` on an I/O error. -/
theorem Buf.takeToEnd_short {cap n : Nat} {buf : Bytes} {es rest : Raw} (hcap : 0 < cap) (hw : es.WF)
    (hc : es.Clean) (hrest : rest = [] ∨ ∃ rs, rest = .fail :: rs)
    (hlen : (buf ++ Raw.bytes es).length < n) :
    Buf.takeToEnd cap n ⟨buf, es ++ rest⟩ =
      (if rest = [] then some (buf ++ Raw.bytes es) else none, ⟨[], rest.tail⟩) := by
  simpa [Buf.takeToEnd] using
    Buf.takeToEndGo_short hcap rest hrest n n [] buf es (Nat.le_refl _) hw hc hlen

/-! ### UTF-8 -/

theorem fromUtf8_strBytes (s : String) : fromUtf8 (strBytes s) = some s := by
  unfold fromUtf8 strBytes
  have h : (⟨s.toByteArray.data.toList.toArray⟩ : ByteArray) = s.toByteArray := by simp
  rw [h]
  simp only [String.fromUTF8?, s.isValidUTF8, dite_true]
  rfl

theorem strBytes_of_fromUtf8 {b : Bytes} {s : String} (h : fromUtf8 b = some s) : strBytes s = b := by
  unfold fromUtf8 String.fromUTF8? at h
  split at h
  · rename_i hv
    cases h
    simp [strBytes, String.fromUTF8]
  · cases h

theorem fromUtf8_eq_some_iff {b : Bytes} {s : String} : fromUtf8 b = some s ↔ strBytes s = b :=
  ⟨strBytes_of_fromUtf8, fun h => h ▸ fromUtf8_strBytes s⟩

@[simp] theorem strBytes_append (s t : String) : strBytes (s ++ t) = strBytes s ++ strBytes t := by
  simp [strBytes]

@[simp] theorem strBytes_empty : strBytes "" = [] := rfl

theorem strBytes_inj {s t : String} : strBytes s = strBytes t ↔ s = t := by
  constructor
  · intro h
    have := fromUtf8_strBytes s
    rw [h, fromUtf8_strBytes] at this
    exact (Option.some.inj this).symm
  · rintro rfl; rfl

/-! ### Writers -/

theorem Sink.writeAll_ok_iff {b : Bytes} {s s' : Sink} :
    s.writeAll b = (true, s') ↔
      (∀ k, s.room = some k → b.length ≤ k) ∧ s' = ⟨s.out ++ b, s.room.map (· - b.length)⟩ := by
  unfold Sink.writeAll
  cases h : s.room with
  | none => simp [eq_comm]
  | some k =>
    simp only
    split
    · simp_all [eq_comm]
    · simp_all; omega

/-- Whatever happens, what is written by one `write_all` is a prefix of the data. -/
theorem Sink.writeAll_prefix (b : Bytes) (s : Sink) :
    ∃ w, w <+: b ∧ (s.writeAll b).2.out = s.out ++ w ∧ ((s.writeAll b).1 = true → w = b) := by
  unfold Sink.writeAll
  cases h : s.room with
  | none => exact ⟨b, List.prefix_rfl, rfl, fun _ => rfl⟩
  | some k =>
    simp only
    split
    · exact ⟨b, List.prefix_rfl, rfl, fun _ => rfl⟩
    · exact ⟨b.take k, List.take_prefix _ _, rfl, by simp⟩

/-- Two successive `write_all`s behave like one (`?`-propagation in between). -/
theorem Sink.writeAll_append (a b : Bytes) (s : Sink) :
    s.writeAll (a ++ b) =
      match s.writeAll a with
      | (false, s') => (false, s')
      | (true, s') => s'.writeAll b := by
  unfold Sink.writeAll
  cases h : s.room with
  | none => simp
  | some k =>
    simp only [List.length_append]
    by_cases h1 : a.length ≤ k
    · simp only [h1, if_true]
      by_cases h2 : a.length + b.length ≤ k
      · have h3 : b.length ≤ k - a.length := by omega
        simp [h2, h3, Nat.sub_sub]
      · have h3 : ¬ b.length ≤ k - a.length := by omega
        simp [h2, h3, List.take_append, List.take_of_length_le h1]
    · have h2 : ¬ a.length + b.length ≤ k := by omega
      have h4 : k - a.length = 0 := by omega
      simp [h1, h2, List.take_append, h4]

@[simp] theorem Sink.writeAll_nil (s : Sink) : s.writeAll [] = (true, s) := by
  unfold Sink.writeAll
  cases s with
  | mk out room => cases room <;> simp

@[simp] theorem Sink.writeAll_none (o b : Bytes) :
    Sink.writeAll b ⟨o, none⟩ = (true, ⟨o ++ b, none⟩) := rfl

end Puck
