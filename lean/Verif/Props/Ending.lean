import Verif.Props.Fair
import Verif.Props.LostConnection
/-!
# Which connections end their component (C81)
-/
namespace Puck

variable {D I S E P : Type}

/-- A close frame comes: after some calls of the iterator, none of which crashes, the next one reads frames the last of which is a close frame. -/
def CloseFrameComes (W : Nat) (c : Conn) : Prop :=
  ∃ n before c₀ c₁ fs f, WebSocket.run W (List.replicate n .next) .open c = (before, .open, c₀) ∧ .item .panic ∉ before ∧
    WebSocket.next W .open c₀ = (.err .connectionClosed, .closed, c₁) ∧ Parses W c₀.inp (fs ++ [f]) c₁.inp ∧ f.opCode = .terminate

/-- what the reader has been given are successive results of the socket -/
theorem got_chain {W : Nat} {N : NetEnv D I S E P (WsState × Conn)} (hN : N.next = socketNext W) {data : D}
    {n : Net D I S E P (WsState × Conn)} (h : NetSteps N (Net.init data) n) :
    ((n.manager ≠ .forwarding ∧ n.got = [] ∧ n.reader = none) ∨ n.manager = .forwarding) ∧
    ∃ r, Chain N N.socket n.got r ∧ ∀ r', n.reader = some r' → r' = r := by
  induction h with
  | refl => exact ⟨.inl ⟨by simp [Net.init], rfl, rfl⟩, _, .nil _, by simp [Net.init]⟩
  | snoc _ hs ih =>
    obtain ⟨h1, r, h2, h3⟩ := ih
    cases hs with
    | outside i => exact ⟨h1, r, h2, h3⟩
    | spawnLoop hm =>
      rcases h1 with ⟨-, h1, h4⟩ | h1
      · exact ⟨.inl ⟨by simp, h1, h4⟩, r, h2, h3⟩
      · rw [h1] at hm; cases hm
    | tell hm =>
      rcases h1 with ⟨-, h1, h4⟩ | h1
      · exact ⟨.inl ⟨by simp, h1, h4⟩, r, h2, h3⟩
      · rw [h1] at hm; cases hm
    | spawnReader hm =>
      rcases h1 with ⟨-, h1, h4⟩ | h1
      · refine ⟨.inr rfl, N.socket, ?_, ?_⟩
        · simp only [h1]; exact .nil _
        · intro r' hr'; simp only [Option.some.injEq] at hr'; exact hr'.symm
      · rw [h1] at hm; cases hm
    | forward i rest hm hi => exact ⟨h1, r, h2, h3⟩
    | read r0 r1 m hr hn =>
      obtain rfl := h3 _ hr
      refine ⟨?_, r1, chain_snoc h2 hn, ?_⟩
      · rcases h1 with ⟨-, -, h4⟩ | h1
        · rw [h4] at hr; cases hr
        · exact .inr h1
      · intro r' hr'; simp only [Option.some.injEq] at hr'; exact hr'.symm
    | readNone r0 r1 hr hn =>
      rw [hN, socketNext] at hn
      split at hn
      · cases hn.1
      · cases hn.1
      · exact hn.elim
    | readerDies r0 hr =>
      refine ⟨?_, r, h2, ?_⟩
      · rcases h1 with ⟨-, -, h4⟩ | h1
        · rw [h4] at hr; cases hr
        · exact .inr h1
      · intro r' hr'; simp at hr'
    | receive m rest hm hb => exact ⟨h1, r, h2, h3⟩

/-- if one of them is that the connection is closed, a close frame has come -/
theorem chain_closed {W : Nat} {N : NetEnv D I S E P (WsState × Conn)} (hN : N.next = socketNext W) {r r' : WsState × Conn}
    {ms : List (Except NextMessageError Message)} (h : Chain N r ms r') (ho : r.1 = .open) (hm : .error .connectionClosed ∈ ms) :
    CloseFrameComes W r.2 := by
  induction h with
  | nil => cases hm
  | @cons r r₁ r₂ m ms hn _ ih =>
    obtain ⟨st, c⟩ := r
    simp only at ho
    subst ho
    rw [hN, socketNext] at hn
    simp only at hn ⊢
    cases hx : WebSocket.next W .open c with
    | mk o p =>
      obtain ⟨st, c'⟩ := p
      rw [hx] at hn
      rcases ws_state W c o st c' hx with rfl | ⟨rfl, rfl⟩ | ⟨rfl, ho⟩
      · exact hn.elim
      · obtain ⟨fs, f, hp, hf⟩ := C21_closed_means_close_frame_partial W .closed c c' hx
        exact ⟨0, [], c, c', fs, f, rfl, by simp, hx, hp, hf⟩
      · have key : m ≠ .error .connectionClosed ∧ r₁ = (.open, c') ∧ o ≠ .panic := by
          cases o with
          | ok x => simp only [Option.some.injEq] at hn; exact ⟨by rw [hn.1]; simp, hn.2, by simp⟩
          | err x => simp only [Option.some.injEq] at hn; refine ⟨?_, hn.2, by simp⟩; rw [hn.1]; intro h; cases h; exact ho rfl
          | panic => exact hn.elim
        obtain ⟨k1, rfl, k3⟩ := key
        obtain ⟨n, before, c₀, c₁, fs, f, h1, hb, h2⟩ := ih rfl (by
          rcases List.mem_cons.mp hm with h | h
          · exact absurd h.symm k1
          · exact h)
        refine ⟨n + 1, .item o :: before, c₀, c₁, fs, f, ?_, by simp only [List.mem_cons, not_or]; exact ⟨by simpa using fun h => k3 h.symm, hb⟩, h2⟩
        rw [List.replicate_succ, WebSocket.run, hx]
        simp only at h1
        cases o with
        | panic => exact absurd rfl k3
        | ok _ => simp only [h1]
        | err _ => simp only [h1]

/-- successive calls that do not crash are such results -/
theorem run_chain {W : Nat} {N : NetEnv D I S E P (WsState × Conn)} (hN : N.next = socketNext W) (n : Nat) (c : Conn) (before : List Ret) (c₀ : Conn)
    (h : WebSocket.run W (List.replicate n .next) .open c = (before, .open, c₀)) :
    .item .panic ∈ before ∨ ∃ ms, Chain N (.open, c) ms (.open, c₀) := by
  induction n generalizing c before with
  | zero => simp only [List.replicate_zero, WebSocket.run, Prod.mk.injEq] at h; obtain ⟨-, -, rfl⟩ := h; exact .inr ⟨[], .nil _⟩
  | succ n ih =>
    rw [List.replicate_succ, WebSocket.run] at h
    cases hx : WebSocket.next W .open c with
    | mk o p =>
      obtain ⟨st, c'⟩ := p
      simp only [hx] at h
      rcases ws_state W c o st c' hx with rfl | ⟨rfl, rfl⟩ | ⟨rfl, ho⟩
      · simp only [Prod.mk.injEq] at h; rw [← h.1]; exact .inl (by simp)
      · simp only [lost_run_closed, Prod.mk.injEq] at h; cases h.2.1
      · cases o with
        | panic => simp only [Prod.mk.injEq] at h; rw [← h.1]; exact .inl (by simp)
        | ok x =>
          simp only [Prod.mk.injEq] at h
          rcases ih c' _ (Prod.ext rfl (Prod.ext h.2.1 h.2.2)) with h' | ⟨ms, h'⟩
          · rw [← h.1]; exact .inl (List.mem_cons_of_mem _ h')
          · exact .inr ⟨_, .cons (by rw [hN, socketNext, hx]; exact ⟨rfl, rfl⟩) h'⟩
        | err x =>
          simp only [Prod.mk.injEq] at h
          rcases ih c' _ (Prod.ext rfl (Prod.ext h.2.1 h.2.2)) with h' | ⟨ms, h'⟩
          · rw [← h.1]; exact .inl (List.mem_cons_of_mem _ h')
          · exact .inr ⟨_, .cons (by rw [hN, socketNext, hx]; exact ⟨rfl, rfl⟩) h'⟩

/-- **C81, exactly.** Whatever the client sends before its connection ends, in every fair execution in which the reader does not die, for a component whose views have no
keys: the component is dropped at some time, and from then on its loop is over, if and only if a close frame comes: after some calls of the iterator, none of
which crashes, the next one reads it.  Otherwise the component is never dropped and its loop never stops. -/
theorem C81_exact_partial (W : Nat) (N : NetEnv D I S E P (WsState × Conn)) (hN : N.next = socketNext W) (data : D)
    (hk : ∀ s, (N.comp.render s).1.Unkeyed) (h1 : N.firstSend = true) (c : Conn) (hs : N.socket = (.open, c))
    (x : Execution N data) (hf : x.Fair) (hl : x.ReaderLives) :
    (CloseFrameComes W c → ∃ j, ∀ k, j ≤ k → (x.state k).loop = .stopped ∧ .dropped ∈ (x.state k).outs) ∧
    (¬ CloseFrameComes W c → ∀ k, (x.state k).loop ≠ .stopped ∧ (x.state k).loop ≠ .crashed ∧ .dropped ∉ (x.state k).outs) := by
  have nocrash : ∀ k, (x.state k).loop ≠ .crashed := by
    intro k h'
    obtain ⟨-, -, hlo, -⟩ := C68_processes N data _ (x.reach k)
    rw [h', h1] at hlo
    exact absurd hlo.symm (never_crashes N.comp hk N.parse _ _ (by simp) (by simp))
  have hdet : ∀ r m r1 m' r2, N.next r m r1 → N.next r m' r2 → m = m' ∧ r1 = r2 := by
    rw [hN]; exact socketNext_det W
  constructor
  · rintro ⟨n, before, c₀, c₁, fs, f, hr, hb, hn, -, -⟩
    rcases run_chain hN n c before c₀ hr with h | ⟨ms, h⟩
    · exact absurd h hb
    · have hc := chain_snoc (m := .error .connectionClosed) (r'' := (.closed, c₁)) h (by rw [hN, socketNext, hn]; exact ⟨rfl, rfl⟩)
      rw [← hs] at hc
      obtain ⟨j, hj⟩ := eventually_got hf hl hdet hc
      obtain ⟨j', hj'⟩ := told_closed hf j (hj.subset (by simp))
      exact ⟨j', fun k hk' => (hj' k hk').resolve_right (nocrash k)⟩
  · intro hno k
    obtain ⟨-, r, hch, -⟩ := got_chain hN (x.reach k)
    have hc : (.error .connectionClosed) ∉ (x.state k).got := by
      intro h
      have := chain_closed hN hch (by rw [hs]) h
      rw [hs] at this
      exact hno this
    obtain ⟨-, hrec, hlo, ho⟩ := C68_processes N data _ (x.reach k)
    have hno : ∀ m ∈ (x.state k).received, m ≠ .ws (.error .connectionClosed) := by
      rintro m hm rfl
      rcases hrec with ⟨h1, -⟩ | ⟨rest, h1, -, -, h4⟩
      · rw [List.append_eq_nil_iff] at h1
        rw [h1.1] at hm; cases hm
      · have : Mail.ws (.error .connectionClosed) ∈ Mail.whoAmI N.me :: rest := by
          rw [← h1]; exact List.mem_append.2 (Or.inl hm)
        rcases List.mem_cons.1 this with h2 | h2
        · cases h2
        · apply hc
          rw [← h4]
          exact mem_socketOf h2
    obtain ⟨h1, h2⟩ := run_not_stopped N.comp N.parse N.firstSend (x.state k).received (.waiting data) hno (by simp)
    exact ⟨by rw [hlo]; exact h1, nocrash k, by rw [ho]; exact h2⟩

/-- Both cases occur: with any frame and no close frame after it the close frame does not come, with a close frame it does. -/
theorem C81_case (W : Nat) (t : String) (d e : Delivery) (hd : d.Ok W) (hfin : d.frame.fin = true) (hn : d.frame.nibble = 1)
    (hp : d.frame.payload = strBytes t) (he : e.Ok W) (hk : Rfc6455.kindOf e.frame.nibble = .close) (o : Bytes) :
    ¬ CloseFrameComes W ⟨d.reads, ⟨o, none⟩⟩ ∧ CloseFrameComes W ⟨d.reads ++ e.reads, ⟨o, none⟩⟩ := by
  have hfirst : ∀ rest, WebSocket.next W .open ⟨d.reads ++ rest, ⟨o, none⟩⟩ = (.ok (.text t), .open, ⟨rest, ⟨o, none⟩⟩) := by
    intro rest
    have h := C17_client_message W (.text t) d rest hd hfin hn hp
    simp [WebSocket.next, h, normalise]
  constructor
  · rintro ⟨n, before, c₀, c₁, fs, f, hr, -, hc, -, -⟩
    cases n with
    | zero =>
      simp only [List.replicate_zero, WebSocket.run, Prod.mk.injEq, true_and] at hr
      have h := hfirst []
      rw [List.append_nil, hr.2, hc] at h
      simp at h
    | succ n =>
      rw [C21_case W t d hd hfin hn hp] at hr
      simp only [Prod.mk.injEq, true_and] at hr
      have h := C21_eof_refuted W ⟨o, none⟩ 1
      rw [List.replicate_succ, WebSocket.run, hr.2, hc] at h
      simp at h
  · have hclose := C16_close_anywhere W .text [] e [] (by simp) (by simp) (Or.inl rfl) he hk
    simp only [List.map_nil, List.flatten_nil, List.nil_append, List.append_nil] at hclose
    have hx : WebSocket.next W .open ⟨e.reads, ⟨o, none⟩⟩ = (.err .connectionClosed, .closed, ⟨[], ⟨o ++ closeFrame.bytes, none⟩⟩) := by
      simp [WebSocket.next, hclose, sendFrame_eq, Sink.writeAll]
    obtain ⟨fs, f, h1, h2⟩ := C21_closed_means_close_frame_partial W _ _ _ hx
    refine ⟨1, [.item (.ok (.text t))], _, _, fs, f, ?_, by simp, hx, h1, h2⟩
    simp [WebSocket.run, hfirst]

end Puck
