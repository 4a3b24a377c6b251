import Verif.Model.Request
import Verif.Spec.Http
import Verif.Lemmas.Source
/-!
# Reading the head of a request or response
-/
namespace Puck
open Http

/-- The pending bytes of a `BufReader`. -/
def Buf.avail (r : Buf) : Bytes := r.buf ++ r.raw.avail

theorem Buf.untilStep_spec {cap : Nat} (hc : 0 < cap) {d : UInt8} {r : Buf} (hw : r.raw.WF)
    {o : Option (Bytes × Bool)} {r' : Buf} (h : r.untilStep cap d = (o, r')) :
    r'.raw.WF ∧ (o = none → r.avail = [] ∧ ¬ r.raw.Clean) ∧
    ∀ b f, o = some (b, f) → r.avail = b ++ r'.avail ∧ (r.raw.Clean ↔ r'.raw.Clean) ∧
      (b = [] → r.avail = [] ∧ r.raw.Clean) ∧
      (f = true → ∃ x, b = x ++ [d] ∧ d ∉ x) ∧ (f = false → d ∉ b) := by
  unfold Buf.untilStep at h
  cases hf : r.fillBuf cap with
  | mk y r1 =>
    obtain ⟨hw', h1, h2⟩ := Buf.fillBuf_spec hc hw hf
    rw [hf] at h
    cases y with
    | none =>
      simp only [Prod.mk.injEq] at h
      obtain ⟨rfl, rfl⟩ := h
      exact ⟨hw', fun _ => ⟨(h2 rfl).1, (h2 rfl).2.1⟩, by simp⟩
    | some x =>
      obtain ⟨_, g2, g3, g4⟩ := h1 x rfl
      simp only at h
      cases hi : x.findIdx? (· == d) with
      | none =>
        rw [hi] at h
        simp only [Prod.mk.injEq] at h
        obtain ⟨rfl, rfl⟩ := h
        refine ⟨hw', by simp, ?_⟩
        intro b f hbf
        simp only [Option.some.injEq, Prod.mk.injEq] at hbf
        obtain ⟨rfl, rfl⟩ := hbf
        refine ⟨by simpa [Buf.avail] using g2, g3, g4, by simp, fun _ hd => ?_⟩
        rw [List.findIdx?_eq_none_iff] at hi
        have := hi d hd
        simp at this
      | some i =>
        rw [hi] at h
        simp only [Prod.mk.injEq] at h
        obtain ⟨rfl, rfl⟩ := h
        refine ⟨hw', by simp, ?_⟩
        intro b f hbf
        simp only [Option.some.injEq, Prod.mk.injEq] at hbf
        obtain ⟨rfl, rfl⟩ := hbf
        rw [List.findIdx?_eq_some_iff_getElem] at hi
        obtain ⟨hlt, hp, hq⟩ := hi
        refine ⟨?_, g3, ?_, ?_, by simp⟩
        · simp only [Buf.avail]
          rw [← List.append_assoc, List.take_append_drop, g2]
        · intro hnil
          have : x = [] := by
            cases x with
            | nil => rfl
            | cons a t => simp at hnil
          subst this
          simp at hlt
        · intro _
          refine ⟨x.take i, ?_, ?_⟩
          · rw [List.take_add_one, List.getElem?_eq_getElem hlt]
            simp at hp
            simp [hp]
          · intro hd
            rw [List.mem_take_iff_getElem] at hd
            obtain ⟨j, hj, hjd⟩ := hd
            have hji : j < i := by omega
            have := hq j hji
            simp [hjd] at this

/-- `read_until` in terms of the pending bytes. -/
theorem Buf.readUntil_spec {cap : Nat} (hc : 0 < cap) {d : UInt8} {acc : Bytes} {r : Buf} (hw : r.raw.WF)
    {o : Option Bytes} {r' : Buf} (h : r.readUntil cap d acc = (o, r')) :
    r'.raw.WF ∧ (o = none → ¬ r.raw.Clean ∧ d ∉ r.avail) ∧
    ∀ b, o = some b → ∃ x, b = acc ++ x ∧ r.avail = x ++ r'.avail ∧ (r.raw.Clean ↔ r'.raw.Clean) ∧
      ((∃ y, x = y ++ [d] ∧ d ∉ y) ∨ (d ∉ x ∧ r'.avail = [] ∧ r'.raw.Clean)) := by
  fun_induction Buf.readUntil cap d acc r with
  | case1 acc r r1 hs =>
    obtain ⟨g1, g2, _⟩ := Buf.untilStep_spec hc hw hs
    simp only [Prod.mk.injEq] at h
    obtain ⟨rfl, rfl⟩ := h
    refine ⟨g1, fun _ => ⟨(g2 rfl).2, by simp [(g2 rfl).1]⟩, by simp⟩
  | case2 acc r f r1 hs =>
    obtain ⟨g1, _, g3⟩ := Buf.untilStep_spec hc hw hs
    obtain ⟨k1, k2, k3, _, _⟩ := g3 [] f rfl
    simp only [Prod.mk.injEq] at h
    obtain ⟨rfl, rfl⟩ := h
    refine ⟨g1, by simp, ?_⟩
    intro b hb
    simp only [Option.some.injEq] at hb
    subst hb
    have := k3 rfl
    refine ⟨[], by simp, k1, k2, Or.inr ⟨by simp, ?_, k2.1 this.2⟩⟩
    rw [← this.1, k1]; simp
  | case3 acc r x r1 hx hs =>
    obtain ⟨g1, _, g3⟩ := Buf.untilStep_spec hc hw hs
    obtain ⟨k1, k2, _, k4, _⟩ := g3 x true rfl
    simp only [Prod.mk.injEq] at h
    obtain ⟨rfl, rfl⟩ := h
    refine ⟨g1, by simp, ?_⟩
    intro b hb
    simp only [Option.some.injEq] at hb
    subst hb
    exact ⟨x, rfl, k1, k2, Or.inl (k4 rfl)⟩
  | case4 acc r x f r1 hs hx hf ih =>
    obtain ⟨g1, _, g3⟩ := Buf.untilStep_spec hc hw hs
    have hf' : f = false := by simpa using hf
    obtain ⟨k1, k2, _, _, k5⟩ := g3 x f rfl
    obtain ⟨i1, i2, i3⟩ := ih g1 h
    refine ⟨i1, ?_, ?_⟩
    · intro ho
      obtain ⟨j1, j2⟩ := i2 ho
      refine ⟨fun hcl => j1 (k2.1 hcl), ?_⟩
      rw [k1, List.mem_append]
      rintro (hd | hd)
      · exact k5 hf' hd
      · exact j2 hd
    · intro b hb
      obtain ⟨x2, rfl, j2, j3, j4⟩ := i3 b hb
      refine ⟨x ++ x2, by simp, by rw [k1, j2, List.append_assoc], k2.trans j3, ?_⟩
      rcases j4 with ⟨y, rfl, hy⟩ | ⟨hd, he, hcl⟩
      · left
        refine ⟨x ++ y, by simp, ?_⟩
        rw [List.mem_append]
        rintro (hd | hd)
        · exact k5 hf' hd
        · exact hy hd
      · right
        refine ⟨?_, he, hcl⟩
        rw [List.mem_append]
        rintro (h | h)
        · exact k5 hf' h
        · exact hd h

theorem endsBlank_iff (b : Bytes) : endsBlank b = true ↔ blank <:+ b := by
  unfold endsBlank blank
  simp only [Bool.and_eq_true, decide_eq_true_eq, beq_iff_eq]
  constructor
  · rintro ⟨h1, h2⟩
    exact ⟨b.take (b.length - 1 - 3), by rw [← h2, List.take_append_drop]⟩
  · rintro ⟨a, rfl⟩
    simp

theorem suffix_append_of_no {d : UInt8} {t acc y q z : Bytes} (ht : t ++ [d] <:+ q)
    (hq : q ++ z = acc ++ y) (hy : d ∉ y) : q.length ≤ acc.length := by
  apply Nat.le_of_not_lt
  intro hlt
  obtain ⟨p, rfl⟩ := ht
  -- the last element of q lies inside y
  have h1 : ((p ++ (t ++ [d])) ++ z)[(p ++ (t ++ [d])).length - 1]? = some d := by
    rw [List.getElem?_append_left (by simp)]
    simp [← List.append_assoc]
  rw [hq, List.getElem?_append_right (by omega)] at h1
  exact hy (List.mem_of_getElem? h1)

theorem headLoop_spec {cap : Nat} (hc : 0 < cap) {acc : Bytes} {r : Buf} (hw : r.raw.WF)
    (hacc : NoBlank acc)
    {o : Option (Option Bytes)} {r' : Buf} (h : headLoop cap acc r = (o, r')) :
    r'.raw.WF ∧
    (o = none → ¬ r.raw.Clean ∧ NoBlank (acc ++ r.avail)) ∧
    (o = some none → r.raw.Clean ∧ NoBlank (acc ++ r.avail)) ∧
    (∀ head, o = some (some head) → FirstBlank (acc ++ r.avail) head r'.avail ∧
      (r.raw.Clean ↔ r'.raw.Clean)) := by
  fun_induction headLoop cap acc r with
  | case1 acc r r1 hs =>
    obtain ⟨g1, g2, _⟩ := Buf.readUntil_spec hc hw hs
    simp only [Prod.mk.injEq] at h
    obtain ⟨rfl, rfl⟩ := h
    refine ⟨g1, fun _ => ⟨(g2 rfl).1, ?_⟩, by simp, by simp⟩
    intro q z hq hb
    have hle := suffix_append_of_no (t := [13, 10, 13]) (d := 10) hb hq.symm (g2 rfl).2
    have : q <+: acc := by
      have h1 : q <+: acc ++ r.avail := ⟨z, hq.symm⟩
      exact List.prefix_of_prefix_length_le h1 (List.prefix_append _ _) hle
    obtain ⟨w, hw⟩ := this
    exact hacc q w hw.symm hb
  | case2 acc r r1 hs =>
    obtain ⟨g1, _, g3⟩ := Buf.readUntil_spec hc hw hs
    obtain ⟨x, hx, k1, k2, k3⟩ := g3 [] rfl
    simp only [List.nil_append] at hx
    subst hx
    simp only [Prod.mk.injEq] at h
    obtain ⟨rfl, rfl⟩ := h
    rcases k3 with ⟨y, hy, _⟩ | ⟨_, he, hcl⟩
    · simp at hy
    · have hav : r.avail = [] := by rw [k1, he]; rfl
      refine ⟨g1, by simp, fun _ => ⟨k2.2 hcl, ?_⟩, by simp⟩
      rw [hav, List.append_nil]; exact hacc
  | case3 acc r b r1 hs hb he =>
    obtain ⟨g1, _, g3⟩ := Buf.readUntil_spec hc hw hs
    obtain ⟨x, hx, k1, k2, k3⟩ := g3 b rfl
    simp only [List.nil_append] at hx
    subst hx
    simp only [Prod.mk.injEq] at h
    obtain ⟨rfl, rfl⟩ := h
    have hbl := (endsBlank_iff _).1 he
    refine ⟨g1, by simp, by simp, ?_⟩
    intro head hh
    simp only [Option.some.injEq] at hh
    subst hh
    refine ⟨⟨by rw [k1, List.append_assoc], hbl, ?_⟩, k2⟩
    intro q z hq hbq
    apply Nat.le_of_not_lt
    intro hlt
    -- x ends with the newline, so a shorter prefix lies in acc ++ y
    have hxd : ∃ y, b = y ++ [10] ∧ (10 : UInt8) ∉ y := by
      rcases k3 with hxd | ⟨hd, _, _⟩
      · exact hxd
      · exfalso
        have : (acc ++ b).getLast? = some 10 := by
          obtain ⟨p, hp⟩ := hbl
          rw [← hp]; simp [blank]
        cases hl : b.getLast? with
        | none => exact hb (List.getLast?_eq_none_iff.1 hl)
        | some v =>
          rw [List.getLast?_append, hl] at this
          simp at this
          subst this
          exact hd (List.mem_of_getLast? hl)
    obtain ⟨y, rfl, hy⟩ := hxd
    have hpre : q <+: acc ++ y := by
      have h1 : q <+: acc ++ r.avail := ⟨z, hq.symm⟩
      have h2 : acc ++ y <+: acc ++ r.avail := by
        rw [k1]; exact ⟨[10] ++ r1.avail, by simp⟩
      refine List.prefix_of_prefix_length_le h1 h2 ?_
      simp only [List.length_append, List.length_singleton] at hlt ⊢
      omega
    obtain ⟨w, hw2⟩ := hpre
    have hle := suffix_append_of_no (t := [13, 10, 13]) (d := 10) hbq hw2 hy
    have : q <+: acc := List.prefix_of_prefix_length_le ⟨w, hw2⟩ (List.prefix_append _ _) hle
    obtain ⟨w', hw'⟩ := this
    exact hacc q w' hw'.symm hbq
  | case4 acc r b r1 hs hb he ih =>
    obtain ⟨g1, _, g3⟩ := Buf.readUntil_spec hc hw hs
    obtain ⟨x, hx, k1, k2, k3⟩ := g3 b rfl
    simp only [List.nil_append] at hx
    subst hx
    have hnb : ¬ blank <:+ acc ++ b := fun h => he ((endsBlank_iff _).2 h)
    have hacc' : NoBlank (acc ++ b) := by
      intro q z hq hbq
      by_cases hz : z = []
      · subst hz
        rw [List.append_nil] at hq
        exact hnb (hq ▸ hbq)
      · rcases k3 with ⟨y, rfl, hy⟩ | ⟨hd, _, _⟩
        · have hpre : q <+: acc ++ y := by
            have h1 : q <+: acc ++ (y ++ [10]) := ⟨z, hq.symm⟩
            have h2 : acc ++ y <+: acc ++ (y ++ [10]) := ⟨[10], by simp⟩
            refine List.prefix_of_prefix_length_le h1 h2 ?_
            have := congrArg List.length hq
            have hzp := List.length_pos_iff.2 hz
            simp only [List.length_append, List.length_singleton] at this ⊢
            omega
          obtain ⟨w, hw2⟩ := hpre
          have hle := suffix_append_of_no (t := [13, 10, 13]) (d := 10) hbq hw2 hy
          have : q <+: acc := List.prefix_of_prefix_length_le ⟨w, hw2⟩ (List.prefix_append _ _) hle
          obtain ⟨w', hw'⟩ := this
          exact hacc q w' hw'.symm hbq
        · have hle := suffix_append_of_no (t := [13, 10, 13]) (d := 10) hbq hq.symm hd
          have : q <+: acc := List.prefix_of_prefix_length_le ⟨z, hq.symm⟩ (List.prefix_append _ _) hle
          obtain ⟨w', hw'⟩ := this
          exact hacc q w' hw'.symm hbq
    obtain ⟨i1, i2, i3, i4⟩ := ih g1 hacc' h
    rw [List.append_assoc, ← k1] at i2 i3 i4
    exact ⟨i1, fun ho => ⟨fun hcl => (i2 ho).1 (k2.1 hcl), (i2 ho).2⟩,
      fun ho => ⟨k2.2 (i3 ho).1, (i3 ho).2⟩, fun hd hhd => ⟨(i4 hd hhd).1, k2.trans (i4 hd hhd).2⟩⟩

theorem noBlank_nil : NoBlank [] := by
  intro h rest hh hb
  have : h = [] := by
    cases h with
    | nil => rfl
    | cons a t => simp at hh
  subst this
  obtain ⟨p, hp⟩ := hb
  simp [blank] at hp

theorem firstBlank_unique {a h rest h' rest' : Bytes} (g : FirstBlank a h rest) (g' : FirstBlank a h' rest') :
    h = h' ∧ rest = rest' := by
  have hl : h.length = h'.length :=
    Nat.le_antisymm (g.2.2 h' rest' g'.1 g'.2.1) (g'.2.2 h rest g.1 g.2.1)
  exact List.append_inj (g.1.symm.trans g'.1) hl

/-- The outcome of the head loop, decided by the pending bytes alone. -/
theorem headLoop_found {cap : Nat} (hc : 0 < cap) {r : Buf} (hw : r.raw.WF) {h rest : Bytes}
    (hf : FirstBlank r.avail h rest) :
    ∃ r', headLoop cap [] r = (some (some h), r') ∧ r'.avail = rest ∧ (r.raw.Clean ↔ r'.raw.Clean) ∧ r'.raw.WF := by
  cases hl : headLoop cap [] r with
  | mk o r' =>
    obtain ⟨g0, g1, g2, g3⟩ := headLoop_spec hc hw noBlank_nil hl
    rw [List.nil_append] at g1 g2 g3
    match o with
    | none => exact absurd hf.2.1 ((g1 rfl).2 _ _ hf.1)
    | some none => exact absurd hf.2.1 ((g2 rfl).2 _ _ hf.1)
    | some (some head) =>
      obtain ⟨k1, k2⟩ := g3 head rfl
      obtain ⟨rfl, rfl⟩ := firstBlank_unique k1 hf
      exact ⟨r', rfl, rfl, k2, g0⟩

theorem headLoop_none {cap : Nat} (hc : 0 < cap) {r : Buf} (hw : r.raw.WF) (hf : NoBlank r.avail) :
    (r.raw.Clean → (headLoop cap [] r).1 = some none) ∧ (¬ r.raw.Clean → (headLoop cap [] r).1 = none) := by
  cases hl : headLoop cap [] r with
  | mk o r' =>
    obtain ⟨g0, g1, g2, g3⟩ := headLoop_spec hc hw noBlank_nil hl
    rw [List.nil_append] at g1 g2 g3
    match o with
    | none => exact ⟨fun h => absurd h (g1 rfl).1, fun _ => rfl⟩
    | some none => exact ⟨fun _ => rfl, fun h => absurd (g2 rfl).1 h⟩
    | some (some head) =>
      obtain ⟨k1, k2⟩ := g3 head rfl
      exact absurd k1.2.1 (hf _ _ k1.1)

end Puck
