import Verif.Spec.Source
import Verif.Lemmas.Io
/-!
# Readers: every `read` takes the next bytes
-/
namespace Puck

/-- The contract of one successful or failed read on a stream with pending bytes `a`. -/
structure ReadOk (n : Nat) (a : Bytes) (clean : Prop) (o : Option Bytes) (a' : Bytes) (clean' : Prop) : Prop where
  some_len : ∀ b, o = some b → b.length ≤ n
  some_avail : ∀ b, o = some b → a = b ++ a'
  some_clean : ∀ b, o = some b → (clean ↔ clean')
  some_nil : ∀ b, o = some b → b = [] → a = [] ∧ clean
  none_avail : o = none → a = [] ∧ ¬ clean

theorem Raw.clean_cons_data {b : Bytes} {r : Raw} : Raw.Clean (.data b :: r) ↔ Raw.Clean r := by
  simp [Raw.Clean]

theorem Raw.read_spec {n : Nat} (hn : 0 < n) {r : Raw} (hw : r.WF) {o : Option Bytes} {r' : Raw}
    (h : r.read n = (o, r')) : ReadOk n r.avail r.Clean o r'.avail r'.Clean ∧ r'.WF := by
  cases r with
  | nil =>
    simp only [Raw.read, Prod.mk.injEq] at h
    obtain ⟨rfl, rfl⟩ := h
    refine ⟨⟨?_, ?_, ?_, ?_, ?_⟩, hw⟩ <;> simp [Raw.avail, Raw.Clean]
  | cons e r =>
    cases e with
    | fail =>
      simp only [Raw.read, Prod.mk.injEq] at h
      obtain ⟨rfl, rfl⟩ := h
      refine ⟨⟨?_, ?_, ?_, ?_, ?_⟩, hw.tail⟩ <;> simp [Raw.avail, Raw.Clean]
    | data b =>
      have hb : b ≠ [] := hw b List.mem_cons_self
      simp only [Raw.read] at h
      split at h
      · rename_i hl
        simp only [Prod.mk.injEq] at h
        obtain ⟨rfl, rfl⟩ := h
        refine ⟨⟨?_, ?_, ?_, ?_, ?_⟩, hw.tail⟩
        · simpa using hl
        · simp [Raw.avail]
        · simp [Raw.clean_cons_data]
        · simpa using fun h => absurd h hb
        · simp
      · rename_i hl
        simp only [Prod.mk.injEq] at h
        obtain ⟨rfl, rfl⟩ := h
        refine ⟨⟨?_, ?_, ?_, ?_, ?_⟩, Raw.WF.cons (drop_ne_nil (by omega)) hw.tail⟩
        · simp; omega
        · simp only [Option.some.injEq, forall_eq', Raw.avail]
          rw [← List.append_assoc, List.take_append_drop]
        · simp [Raw.clean_cons_data]
        · intro b' hb' hnil
          simp only [Option.some.injEq] at hb'
          exact absurd (hb'.trans hnil) (take_ne_nil hb hn)
        · simp

theorem Buf.fillBuf_spec {cap : Nat} (hc : 0 < cap) {r : Buf} (hw : r.raw.WF) {o : Option Bytes} {r' : Buf}
    (h : r.fillBuf cap = (o, r')) :
    r'.raw.WF ∧ (∀ b, o = some b → r'.buf = b ∧ r.buf ++ r.raw.avail = b ++ r'.raw.avail ∧
      (r.raw.Clean ↔ r'.raw.Clean) ∧ (b = [] → r.buf ++ r.raw.avail = [] ∧ r.raw.Clean)) ∧
    (o = none → r.buf ++ r.raw.avail = [] ∧ ¬ r.raw.Clean ∧ r'.buf = []) := by
  unfold Buf.fillBuf at h
  by_cases hb : r.buf = []
  · simp only [hb, if_true] at h
    cases hr : r.raw.read cap with
    | mk x raw =>
      obtain ⟨hs, hw'⟩ := Raw.read_spec hc hw hr
      rw [hr] at h
      cases x with
      | none =>
        simp only [Prod.mk.injEq] at h
        obtain ⟨rfl, rfl⟩ := h
        refine ⟨hw', by simp, fun _ => ⟨?_, (hs.none_avail rfl).2, rfl⟩⟩
        rw [hb, (hs.none_avail rfl).1]; rfl
      | some b =>
        simp only [Prod.mk.injEq] at h
        obtain ⟨rfl, rfl⟩ := h
        refine ⟨hw', ?_, by simp⟩
        intro b' hb'
        simp only [Option.some.injEq] at hb'
        subst hb'
        refine ⟨rfl, by rw [hb]; exact hs.some_avail _ rfl, hs.some_clean _ rfl, fun hnil => ?_⟩
        have := hs.some_nil _ rfl hnil
        rw [hb, this.1]; exact ⟨rfl, this.2⟩
  · simp only [hb, if_false, Prod.mk.injEq] at h
    obtain ⟨rfl, rfl⟩ := h
    refine ⟨hw, ?_, by simp⟩
    intro b' hb'
    simp only [Option.some.injEq] at hb'
    subst hb'
    exact ⟨rfl, rfl, Iff.rfl, fun h => absurd h hb⟩

theorem Src.read_spec {n : Nat} (hn : 0 < n) {s : Src} (hw : s.WF) {o : Option Bytes} {s' : Src}
    (h : s.read n = (o, s')) : ReadOk n s.avail s.Clean o s'.avail s'.Clean ∧ s'.WF := by
  cases s with
  | cursor c =>
    simp only [Src.read, Prod.mk.injEq] at h
    obtain ⟨rfl, rfl⟩ := h
    refine ⟨⟨?_, ?_, ?_, ?_, ?_⟩, trivial⟩
    · intro b hb; simp at hb; subst hb; simp; omega
    · intro b hb; simp at hb; subst hb; simp [Src.avail]
    · simp [Src.Clean]
    · intro b hb hnil
      simp only [Option.some.injEq] at hb
      refine ⟨?_, trivial⟩
      apply Classical.byContradiction
      intro hc
      exact take_ne_nil hc hn (hb.trans hnil)
    · simp
  | other r =>
    simp only [Src.read] at h
    cases hr : r.read n with
    | mk x r' =>
      simp only [hr, Prod.mk.injEq] at h
      obtain ⟨rfl, rfl⟩ := h
      exact Raw.read_spec hn hw hr
  | buf cap r =>
    obtain ⟨hcap, hw⟩ := hw
    simp only [Src.read] at h
    cases hr : r.read cap n with
    | mk x r' =>
      simp only [hr, Prod.mk.injEq] at h
      obtain ⟨rfl, rfl⟩ := h
      unfold Buf.read at hr
      split at hr
      · rename_i hb
        cases hx : r.raw.read n with
        | mk y raw =>
          obtain ⟨hs, hw'⟩ := Raw.read_spec hn hw hx
          rw [hx] at hr
          have hav : Src.avail (.buf cap r) = r.raw.avail := by simp [Src.avail, hb.1]
          cases y with
          | none =>
            simp only [Prod.mk.injEq] at hr
            obtain ⟨rfl, rfl⟩ := hr
            rw [hav]
            exact ⟨⟨by simp, by simp, by simp, by simp, fun _ => hs.none_avail rfl⟩, hcap, hw'⟩
          | some b =>
            simp only [Prod.mk.injEq] at hr
            obtain ⟨rfl, rfl⟩ := hr
            rw [hav]
            exact ⟨⟨hs.some_len, fun b h => by simpa [Src.avail] using hs.some_avail b h, hs.some_clean, hs.some_nil, by simp⟩, hcap, hw'⟩
      · cases hf : r.fillBuf cap with
        | mk y r1 =>
          obtain ⟨hw', h1, h2⟩ := Buf.fillBuf_spec hcap hw hf
          rw [hf] at hr
          cases y with
          | none =>
            simp only [Prod.mk.injEq] at hr
            obtain ⟨rfl, rfl⟩ := hr
            exact ⟨⟨by simp, by simp, by simp, by simp, fun _ => ⟨(h2 rfl).1, (h2 rfl).2.1⟩⟩, hcap, hw'⟩
          | some b =>
            simp only [Prod.mk.injEq] at hr
            obtain ⟨rfl, rfl⟩ := hr
            obtain ⟨_, g2, g3, g4⟩ := h1 b rfl
            refine ⟨⟨?_, ?_, ?_, ?_, by simp⟩, hcap, hw'⟩
            · intro c hc; simp only [Option.some.injEq] at hc; subst hc; simp; omega
            · intro c hc; simp only [Option.some.injEq] at hc; subst hc
              simp only [Src.avail]
              rw [← List.append_assoc, List.take_append_drop, g2]
            · intro _ _; exact g3
            · intro c hc hnil
              simp only [Option.some.injEq] at hc
              have hbn : b = [] := by
                apply Classical.byContradiction
                intro hcc
                exact take_ne_nil hcc hn (hc.trans hnil)
              exact g4 hbn

end Puck
