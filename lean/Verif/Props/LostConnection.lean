import Verif.Props.WebSocket
/-!
# A connection that ends (C21): every call takes something from the stream, so the end is reached
-/
namespace Puck

theorem first_read {raw : Raw} (hne : raw ≠ []) : ((Buf.mk [] raw).read defaultCap 2).2.raw.size < raw.size := by
  unfold Buf.read Buf.fillBuf
  have hc : ¬ defaultCap ≤ 2 := by decide
  simp only [hc, and_false, if_false, if_true]
  cases raw with
  | nil => exact absurd rfl hne
  | cons e r =>
    cases e with
    | fail => simp [Raw.read, Raw.size]
    | data b =>
      rw [Raw.read]
      by_cases hb : b.length ≤ defaultCap
      · simp [hb, Raw.size]
      · simp [hb, Raw.size]
        have : 0 < defaultCap := by decide
        omega

theorem parse_le (W : Nat) (raw : Raw) : (Frame.parse W raw).2.size ≤ ((Buf.mk [] raw).read defaultCap 2).2.raw.size := by
  unfold Frame.parse
  split
  · rename_i heq; rw [heq]; exact Nat.le_refl _
  · rename_i first second r heq
    rw [heq]
    have h1 := readPayloadLength_size second r
    simp only
    split
    · exact Nat.le_refl _
    split
    · rename_i heq1; rw [heq1] at h1; exact h1
    · rename_i L r1 heq1
      rw [heq1] at h1
      simp only at h1
      split
      · exact h1
      split
      · have h2 := readPayload_size W (first &&& 0x80 != 0) L r1
        split <;> rename_i heq2 <;> rw [heq2] at h2 <;> exact Nat.le_trans h2 h1
      · exact h1
  · rename_i heq; rw [heq]; exact Nat.le_refl _

theorem parse_drains (W : Nat) {raw : Raw} (hne : raw ≠ []) : (Frame.parse W raw).2.size < raw.size :=
  Nat.lt_of_le_of_lt (parse_le W raw) (first_read hne)

theorem parse_size (W : Nat) (raw : Raw) : (Frame.parse W raw).2.size ≤ raw.size := by
  by_cases h : raw = []
  · subst h; rw [parse_eof]; exact Nat.le_refl _
  · exact Nat.le_of_lt (parse_drains W h)

theorem nextLoop_size (W : Nat) (op : OpCode) (p : Bytes) (raw : Raw) : (nextLoop W op p raw).2.size ≤ raw.size := by
  fun_induction nextLoop W op p raw with
  | case1 p raw e raw' h => have := parse_size W raw; rw [h] at this; exact this
  | case2 p raw raw' h => have := parse_size W raw; rw [h] at this; exact this
  | case3 p raw f raw' h _ => have := parse_size W raw; rw [h] at this; exact this
  | case4 p raw f raw' h _ _ => have := parse_size W raw; rw [h] at this; exact this
  | case5 p raw f raw' h _ _ _ => have := parse_size W raw; rw [h] at this; exact this
  | case6 p raw f raw' h _ _ _ ih => have := parse_size W raw; rw [h] at this; exact Nat.le_trans ih this

theorem message_drains (W : Nat) {raw : Raw} (hne : raw ≠ []) : (Message.next W raw).2.size < raw.size := by
  have h := parse_drains W hne
  unfold Message.next
  split
  · rename_i heq; rw [heq] at h; exact h
  · rename_i heq; rw [heq] at h; exact h
  · rename_i first raw' heq
    rw [heq] at h
    simp only at h
    split
    · exact h
    split
    · exact h
    · exact Nat.lt_of_le_of_lt (nextLoop_size W _ _ _) h

theorem ws_inp (W : Nat) (c : Conn) : (WebSocket.next W .open c).2.2.inp = (Message.next W c.inp).2 := by
  unfold WebSocket.next
  simp only
  split
  · rename_i heq; rw [heq]; split
    · split <;> rfl
    · rfl
  · rename_i heq; rw [heq]
  · rename_i heq; rw [heq]; split <;> rfl
  · rename_i heq; rw [heq]

theorem ws_state (W : Nat) (c : Conn) (r : Outcome NextMessageError Message) (st : WsState) (c' : Conn)
    (h : WebSocket.next W .open c = (r, st, c')) : r = .panic ∨ (st = .closed ∧ r = .err .connectionClosed) ∨
      (st = .open ∧ r ≠ .err .connectionClosed) := by
  unfold WebSocket.next at h
  simp only at h
  split at h
  · split at h
    · split at h
      · simp only [Prod.mk.injEq] at h; obtain ⟨rfl, rfl, _⟩ := h; exact .inr (.inr ⟨rfl, by simp⟩)
      · simp only [Prod.mk.injEq] at h; exact .inl h.1.symm
    · simp only [Prod.mk.injEq] at h; obtain ⟨rfl, rfl, _⟩ := h; exact .inr (.inr ⟨rfl, by simp⟩)
  · simp only [Prod.mk.injEq] at h; obtain ⟨rfl, rfl, _⟩ := h; exact .inr (.inr ⟨rfl, by simp⟩)
  · split at h
    · simp only [Prod.mk.injEq] at h; obtain ⟨rfl, rfl, _⟩ := h; exact .inr (.inl ⟨rfl, rfl⟩)
    · simp only [Prod.mk.injEq] at h; exact .inl h.1.symm
  · simp only [Prod.mk.injEq] at h; exact .inl h.1.symm

theorem lost_run_closed (W : Nat) (n : Nat) (c : Conn) :
    WebSocket.run W (List.replicate n .next) .closed c = (List.replicate n (.item (.err .connectionClosed)), .closed, c) := by
  induction n with
  | zero => rfl
  | succ n ih => simp [List.replicate_succ, WebSocket.run, WebSocket.next, ih]

/-- **C21, exactly.** Whatever a client sends before its connection ends, there is a number of calls of the iterator after which one of three things is the case
for ever: a call has crashed (C09, or a reply that could not be written); or a close frame has come, `ConnectionClosed` has been reported for it and is reported by every later call; or
`ConnectionClosed` is never reported: everything has been read, every further call returns `ClientError`, and the socket stays open. -/
theorem C21_exact_partial (W : Nat) (c : Conn) : ∃ N,
    (∀ n, N ≤ n → .item .panic ∈ (WebSocket.run W (List.replicate n .next) .open c).1) ∨
    (∃ before c₀ c₁ fs f, WebSocket.run W (List.replicate N .next) .open c = (before, .open, c₀) ∧
      WebSocket.next W .open c₀ = (.err .connectionClosed, .closed, c₁) ∧ .item (.err .connectionClosed) ∉ before ∧
      Parses W c₀.inp (fs ++ [f]) c₁.inp ∧ f.opCode = .terminate ∧
      ∀ k, WebSocket.run W (List.replicate (N + k + 1) .next) .open c =
        (before ++ List.replicate (k + 1) (.item (.err .connectionClosed)), .closed, c₁)) ∨
    (∃ before out, .item (.err .connectionClosed) ∉ before ∧ .item .panic ∉ before ∧
      ∀ k, WebSocket.run W (List.replicate (N + k) .next) .open c =
        (before ++ List.replicate k (.item (.err .clientError)), .open, ⟨[], out⟩)) := by
  generalize hs : c.inp.size = s
  induction s using Nat.strongRecOn generalizing c with
  | _ s ih =>
    by_cases hne : c.inp = []
    · refine ⟨0, .inr (.inr ⟨[], c.out, by simp, by simp, fun k => ?_⟩)⟩
      have : c = ⟨[], c.out⟩ := by cases c; simp_all
      rw [this]; simpa using C21_eof_refuted W c.out k
    · cases hn : WebSocket.next W .open c with
      | mk r p =>
        obtain ⟨st, c'⟩ := p
        have hlt : c'.inp.size < s := by
          have h1 := ws_inp W c
          rw [hn] at h1; simp only at h1
          rw [h1, ← hs]; exact message_drains W hne
        rcases ws_state W c r st c' hn with rfl | ⟨rfl, rfl⟩ | ⟨rfl, hr⟩
        · refine ⟨1, .inl fun n hn' => ?_⟩
          obtain ⟨n, rfl⟩ : ∃ m, n = m + 1 := ⟨n - 1, by omega⟩
          simp [List.replicate_succ, WebSocket.run, hn]
        · obtain ⟨fs, f, hp, hf⟩ := C21_closed_means_close_frame_partial W .closed c c' hn
          refine ⟨0, .inr (.inl ⟨[], c, c', fs, f, rfl, hn, by simp, hp, hf, fun k => ?_⟩)⟩
          rw [show 0 + k + 1 = k + 1 by omega, List.replicate_succ, WebSocket.run]
          simp [hn, lost_run_closed, List.replicate_succ]
        · by_cases hrp : r = .panic
          · subst hrp
            refine ⟨1, .inl fun n hn' => ?_⟩
            obtain ⟨n, rfl⟩ : ∃ m, n = m + 1 := ⟨n - 1, by omega⟩
            simp [List.replicate_succ, WebSocket.run, hn]
          have step : ∀ n, WebSocket.run W (List.replicate (n + 1) .next) .open c =
              (.item r :: (WebSocket.run W (List.replicate n .next) .open c').1,
                (WebSocket.run W (List.replicate n .next) .open c').2.1, (WebSocket.run W (List.replicate n .next) .open c').2.2) := by
            intro n
            rw [List.replicate_succ, WebSocket.run, hn]
            cases r with
            | panic => exact absurd rfl hrp
            | ok _ => rfl
            | err _ => rfl
          obtain ⟨N, h | ⟨before, c₀, c₁, fs, f, hb, hc, hnot, hp, hf, hk⟩ | ⟨before, out, h1, h2, hk⟩⟩ := ih _ hlt c' rfl
          · refine ⟨N + 1, .inl fun n hn' => ?_⟩
            obtain ⟨n, rfl⟩ : ∃ m, n = m + 1 := ⟨n - 1, by omega⟩
            rw [step]; exact List.mem_cons_of_mem _ (h n (by omega))
          · refine ⟨N + 1, .inr (.inl ⟨.item r :: before, c₀, c₁, fs, f, ?_, hc, ?_, hp, hf, fun k => ?_⟩)⟩
            · rw [step, hb]
            · simp only [List.mem_cons, not_or]; exact ⟨by simpa using fun h => hr h.symm, hnot⟩
            · rw [show N + 1 + k + 1 = (N + k + 1) + 1 by omega, step, hk]; rfl
          · refine ⟨N + 1, .inr (.inr ⟨.item r :: before, out, ?_, ?_, fun k => ?_⟩)⟩
            · simp only [List.mem_cons, not_or]; exact ⟨by simpa using fun h => hr h.symm, h1⟩
            · simp only [List.mem_cons, not_or]; exact ⟨by simpa using fun h => hrp h.symm, h2⟩
            · rw [show N + 1 + k = (N + k) + 1 by omega, step, hk]; rfl

/-- For instance: a client sends any text in one frame and is then gone.  The text is delivered, and after it comes `ClientError`, for ever. -/
theorem C21_case (W : Nat) (t : String) (d : Delivery) (hd : d.Ok W) (hfin : d.frame.fin = true) (hn : d.frame.nibble = 1)
    (hp : d.frame.payload = strBytes t) (out : Sink) (k : Nat) :
    WebSocket.run W (List.replicate (k + 1) .next) .open ⟨d.reads, out⟩ =
      (.item (.ok (.text t)) :: List.replicate k (.item (.err .clientError)), .open, ⟨[], out⟩) := by
  have h := C17_client_message W (.text t) d [] hd hfin hn hp
  rw [List.append_nil] at h
  rw [List.replicate_succ, WebSocket.run]
  simp only [WebSocket.next, h, normalise]
  rw [C21_eof_refuted]

end Puck
