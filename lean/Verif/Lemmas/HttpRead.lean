import Verif.Spec.HttpGrammar
/-! # The reader of `Spec/HttpGrammar` reads what its grammar writes -/
namespace Http
open Puck (Bytes)

theorem line_append {l : Bytes} (h : ∀ c ∈ l, c ≠ 13) (t : Bytes) : line (l ++ crlf ++ t) = some (l, t) := by
  induction l with
  | nil => simp [crlf, line]
  | cons a l ih =>
    have ih := ih fun c hc => h c (by simp [hc])
    have ha : a ≠ 13 := h a (by simp)
    cases l with
    | nil =>
      simp only [List.nil_append, crlf, List.cons_append] at ih ⊢
      rw [line]
      simp [ha, ih]
    | cons b l =>
      simp only [List.cons_append, List.append_assoc] at ih ⊢
      rw [line]
      simp [ha, ih]

theorem splitAt_append {d : UInt8} {l : Bytes} (h : ∀ c ∈ l, c ≠ d) (t : Bytes) :
    splitAt d (l ++ d :: t) = some (l, t) := by
  induction l with
  | nil => simp [splitAt]
  | cons a l ih =>
    have ih := ih fun c hc => h c (by simp [hc])
    have ha : a ≠ d := h a (by simp)
    simp [splitAt, ha, ih]

theorem tchar_ne {c : UInt8} (h : tchar c = true) : c ≠ 58 ∧ c ≠ 13 ∧ c ≠ 32 := by
  refine ⟨?_, ?_, ?_⟩ <;> rintro rfl <;> revert h <;> decide

theorem dropWhile_of_head {p : UInt8 → Bool} {b : Bytes} (h : ∀ c, b.head? = some c → p c = false) :
    b.dropWhile p = b := by
  cases b with
  | nil => rfl
  | cons a t => simp [h a rfl]

theorem trim_trimmed {b : Bytes} (h : Trimmed b) : trim b = b := by
  unfold trim
  rw [dropWhile_of_head h.1, dropWhile_of_head (b := b.reverse) (by
    intro c hc; rw [List.head?_reverse] at hc; exact h.2 c hc), List.reverse_reverse]

theorem trim_sp (b : Bytes) : trim (32 :: b) = trim b := by
  unfold trim
  rw [List.dropWhile_cons]
  simp [ws]

theorem readField_line {n v : Bytes} (hn : Token n) : readField (n ++ 58 :: 32 :: v) = some (n, trim v) := by
  unfold readField
  rw [splitAt_append (fun c hc => (tchar_ne (hn.2 c hc)).1)]
  simp only
  rw [if_pos ⟨hn.1, by rw [List.all_eq_true]; exact hn.2⟩, trim_sp]

theorem readFields_lines {fs : List (Bytes × Bytes)} {k : Nat} (hk : fs.length < k)
    (hn : ∀ p ∈ fs, Token p.1) (hv : ∀ p ∈ fs, ∀ c ∈ p.2, c ≠ 13) (t : Bytes) :
    readFields k ((fs.map fieldLine).flatten ++ crlf ++ t) = some (fs.map fun p => (p.1, trim p.2), t) := by
  induction fs generalizing k with
  | nil =>
    cases k with
    | zero => simp at hk
    | succ k => simp [readFields, crlf, line]
  | cons p fs ih =>
    cases k with
    | zero => simp at hk
    | succ k =>
      have ih := ih (k := k) (by simpa using hk) (fun q hq => hn q (by simp [hq])) (fun q hq => hv q (by simp [hq]))
      have hl : line ((((p :: fs).map fieldLine).flatten) ++ crlf ++ t) =
          some (p.1 ++ 58 :: 32 :: p.2, (fs.map fieldLine).flatten ++ crlf ++ t) := by
        have h1 : ∀ c ∈ p.1 ++ 58 :: 32 :: p.2, c ≠ 13 := by
          intro c hc
          simp only [List.mem_append, List.mem_cons] at hc
          rcases hc with hc | rfl | rfl | hc
          · exact (tchar_ne ((hn p (by simp)).2 c hc)).2.1
          · decide
          · decide
          · exact hv p (by simp) c hc
        have := line_append h1 ((fs.map fieldLine).flatten ++ crlf ++ t)
        rw [← this]
        congr 1
        simp [fieldLine]
      rw [readFields, hl]
      have hne : p.1 ++ 58 :: 32 :: p.2 ≠ [] := by simp
      generalize hg : p.1 ++ 58 :: 32 :: p.2 = l at hne
      cases l with
      | nil => exact absurd rfl hne
      | cons a l =>
        simp only
        rw [← hg, readField_line (hn p (by simp)), ih]
        rfl

theorem length_flatten_le (fs : List (Bytes × Bytes)) : fs.length ≤ ((fs.map fieldLine).flatten).length := by
  induction fs with
  | nil => simp
  | cons p fs ih => simp [fieldLine, crlf] at ih ⊢; omega

theorem readFields_head {fs : List (Bytes × Bytes)}
    (hn : ∀ p ∈ fs, Token p.1) (hv : ∀ p ∈ fs, ∀ c ∈ p.2, c ≠ 13) (t : Bytes) :
    readFields (((fs.map fieldLine).flatten ++ crlf ++ t).length + 1) ((fs.map fieldLine).flatten ++ crlf ++ t) =
      some (fs.map fun p => (p.1, trim p.2), t) := by
  refine readFields_lines ?_ hn hv t
  have := length_flatten_le fs
  simp only [List.length_append]
  omega

theorem digit_ofNat {k : Nat} (h : k < 10) : digit (UInt8.ofNat (48 + k)) = some k := by
  have : ∀ k, k < 10 → digit (UInt8.ofNat (48 + k)) = some k := by decide
  exact this k h

theorem readStatus_line {n : Nat} (h : n < 1000) (reason : Bytes) :
    readStatus (statusLine (code3 n) reason) = some (n, reason) := by
  simp only [statusLine, code3, List.cons_append, List.nil_append, readStatus]
  rw [digit_ofNat (by omega), digit_ofNat (by omega), digit_ofNat (by omega)]
  simp
  omega

/-- Reading a response head written by the grammar. -/
theorem readResponse_head {n : Nat} (h : n < 1000) {reason : Bytes} (hr : ∀ c ∈ reason, c ≠ 13)
    {fs : List (Bytes × Bytes)} (hn : ∀ p ∈ fs, Token p.1) (hv : ∀ p ∈ fs, ∀ c ∈ p.2, c ≠ 13) (t : Bytes) :
    readResponse (head (statusLine (code3 n) reason) fs ++ t) =
      some ⟨n, reason, fs.map fun p => (p.1, trim p.2), t⟩ := by
  have hl : line (head (statusLine (code3 n) reason) fs ++ t) =
      some (statusLine (code3 n) reason, (fs.map fieldLine).flatten ++ crlf ++ t) := by
    have h1 : ∀ c ∈ statusLine (code3 n) reason, c ≠ 13 := by
      intro c hc
      simp only [statusLine, code3, List.mem_append, List.mem_cons, List.not_mem_nil, or_false] at hc
      have dig : ∀ k, k < 10 → UInt8.ofNat (48 + k) ≠ 13 := by decide
      rcases hc with (((rfl | rfl | rfl | rfl | rfl | rfl | rfl | rfl | rfl) | (rfl | rfl | rfl)) | rfl) | hc
      all_goals first | decide | exact dig _ (by omega) | exact hr c hc
    rw [← line_append h1]
    congr 1
    simp [head]
  unfold readResponse
  rw [hl]
  simp only
  rw [readStatus_line h, readFields_head hn hv]

/-- Reading a request head written by the grammar. -/
theorem readRequest_head {m tgt : Bytes} (hm : ∀ c ∈ m, c ≠ 32 ∧ c ≠ 13) (ht : ∀ c ∈ tgt, c ≠ 32 ∧ c ≠ 13)
    {fs : List (Bytes × Bytes)} (hn : ∀ p ∈ fs, Token p.1) (hv : ∀ p ∈ fs, ∀ c ∈ p.2, c ≠ 13) (t : Bytes) :
    readRequest (head (requestLine m tgt) fs ++ t) = some ⟨m, tgt, fs.map fun p => (p.1, trim p.2), t⟩ := by
  have hl : line (head (requestLine m tgt) fs ++ t) =
      some (requestLine m tgt, (fs.map fieldLine).flatten ++ crlf ++ t) := by
    have h1 : ∀ c ∈ requestLine m tgt, c ≠ 13 := by
      intro c hc
      simp only [requestLine, List.mem_append, List.mem_cons, List.not_mem_nil, or_false] at hc
      rcases hc with ((hc | rfl) | hc) | (rfl | rfl | rfl | rfl | rfl | rfl | rfl | rfl | rfl)
      all_goals first | decide | exact (hm c hc).2 | exact (ht c hc).2
    rw [← line_append h1]
    congr 1
    simp [head]
  unfold readRequest
  rw [hl]
  simp only
  have e1 : requestLine m tgt = m ++ 32 :: (tgt ++ 32 :: [72, 84, 84, 80, 47, 49, 46, 49]) := by
    simp [requestLine]
  rw [e1, splitAt_append (fun c hc => (hm c hc).1)]
  simp only
  rw [splitAt_append (fun c hc => (ht c hc).1)]
  simp only [if_true]
  rw [readFields_head hn hv]

end Http
