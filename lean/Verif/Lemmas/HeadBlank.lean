import Verif.Spec.Http
import Verif.Spec.HttpGrammar
/-! # A grammatical head contains its first blank line at its end -/
namespace Http
open Puck (Bytes)

theorem noBlank_iff {a : Bytes} : NoBlank a ↔ ¬ blank <:+: a := by
  constructor
  · rintro h ⟨s, t, hst⟩
    exact h (s ++ blank) t (by rw [← hst]) (List.suffix_append _ _)
  · rintro h q z rfl ⟨s, hs⟩
    exact h ⟨s, z, by rw [hs]⟩

theorem noBlank_line {l t : Bytes} (hl : ∀ c ∈ l, c ≠ 13) (h : NoBlank t) : NoBlank (l ++ t) := by
  induction l with
  | nil => exact h
  | cons a l ih =>
    have ih := ih fun c hc => hl c (by simp [hc])
    rw [noBlank_iff] at ih ⊢
    rw [List.cons_append, List.infix_cons_iff]
    rintro (hp | hp)
    · have ha : a ≠ 13 := hl a (by simp)
      obtain ⟨w, hw⟩ := hp
      simp [blank] at hw
      exact ha hw.1.symm
    · exact ih hp

theorem noBlank_crlf {t : Bytes} (ht : t = [13] ∨ ∃ c u, t = c :: u ∧ c ≠ 13) (h : NoBlank t) :
    NoBlank (crlf ++ t) := by
  rw [noBlank_iff] at h ⊢
  simp only [crlf, List.cons_append, List.nil_append, List.infix_cons_iff]
  rintro (⟨w, hw⟩ | ⟨w, hw⟩ | hp)
  · simp [blank] at hw
    rcases ht with rfl | ⟨c, u, rfl, hc⟩
    · simp at hw
    · simp at hw; exact hc hw.1.symm
  · simp [blank] at hw
  · exact h hp

/-- Non-empty lines without CR, each ended by CR LF, then a CR. -/
theorem noBlank_lines {ls : List Bytes} (h : ∀ l ∈ ls, l ≠ [] ∧ ∀ c ∈ l, c ≠ 13) :
    NoBlank ((ls.map (· ++ crlf)).flatten ++ [13]) ∧
    ((ls.map (· ++ crlf)).flatten ++ [13] = [13] ∨
      ∃ c u, (ls.map (· ++ crlf)).flatten ++ [13] = c :: u ∧ c ≠ 13) := by
  induction ls with
  | nil =>
    refine ⟨?_, Or.inl rfl⟩
    rw [noBlank_iff]
    rintro ⟨s, t, hst⟩
    have := congrArg List.length hst
    simp [blank] at this
    omega
  | cons l ls ih =>
    obtain ⟨i1, i2⟩ := ih fun m hm => h m (by simp [hm])
    obtain ⟨hl1, hl2⟩ := h l (by simp)
    refine ⟨?_, Or.inr ?_⟩
    · simp only [List.map_cons, List.flatten_cons, List.append_assoc]
      exact noBlank_line hl2 (noBlank_crlf i2 i1)
    · cases l with
      | nil => exact absurd rfl hl1
      | cons c u => exact ⟨c, _, by simp only [List.map_cons, List.flatten_cons, List.cons_append]; rfl, hl2 c (by simp)⟩

theorem firstBlank_of' {x rest : Bytes} (h : NoBlank x) (hb : blank <:+ x ++ [10]) :
    FirstBlank (x ++ [10] ++ rest) (x ++ [10]) rest := by
  refine ⟨rfl, hb, ?_⟩
  intro q z hq hqb
  apply Nat.le_of_not_lt
  intro hlt
  have h1 : q <+: x ++ [10] ++ rest := ⟨z, hq.symm⟩
  have h2 : x <+: x ++ [10] ++ rest := ⟨[10] ++ rest, by simp⟩
  have : q <+: x := List.prefix_of_prefix_length_le h1 h2 (by simp at hlt; omega)
  obtain ⟨w, hw⟩ := this
  exact h q w hw.symm hqb

/-- **A head is followed by its body**: the first blank line of a message is the one that ends its head. -/
theorem firstBlank_head {start : Bytes} (hs : start ≠ [] ∧ ∀ c ∈ start, c ≠ 13) {fs : List (Bytes × Bytes)}
    (hn : ∀ p ∈ fs, ∀ c ∈ p.1, c ≠ 13) (hv : ∀ p ∈ fs, ∀ c ∈ p.2, c ≠ 13) (rest : Bytes) :
    FirstBlank (head start fs ++ rest) (head start fs) rest := by
  have e : head start fs =
      ((start :: fs.map fun p => p.1 ++ [58, 32] ++ p.2).map (· ++ crlf)).flatten ++ [13] ++ [10] := by
    have : (fs.map fieldLine) = (fs.map fun p => p.1 ++ [58, 32] ++ p.2).map (· ++ crlf) := by
      rw [List.map_map]; rfl
    simp [head, crlf, this]
  rw [e]
  refine firstBlank_of' (noBlank_lines ?_).1 ?_
  · intro l hl
    simp only [List.mem_cons, List.mem_map] at hl
    rcases hl with rfl | ⟨p, hp, rfl⟩
    · exact hs
    · refine ⟨by simp, ?_⟩
      intro c hc
      simp only [List.mem_append, List.mem_cons, List.not_mem_nil, or_false] at hc
      rcases hc with (hc | rfl | rfl) | hc
      · exact hn p hp c hc
      · decide
      · decide
      · exact hv p hp c hc
  · -- ends with CR LF CR LF
    have : ∀ ls : List Bytes, ∀ l, ∃ y, ((l :: ls).map (· ++ crlf)).flatten = y ++ crlf := by
      intro ls
      induction ls with
      | nil => intro l; exact ⟨l, by simp⟩
      | cons m ls ih =>
        intro l
        obtain ⟨y, hy⟩ := ih m
        refine ⟨l ++ crlf ++ y, ?_⟩
        rw [List.map_cons, List.flatten_cons, hy]; simp
    obtain ⟨y, hy⟩ := this (fs.map fun p => p.1 ++ [58, 32] ++ p.2) start
    rw [hy]
    exact ⟨y, by simp [blank, crlf]⟩

end Http
