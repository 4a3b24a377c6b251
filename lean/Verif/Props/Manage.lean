import Verif.Model.Manage
import Verif.Props.Component
/-!
# The processes of a component (C68, C69, C81)
-/
namespace Puck

variable {D I S E P R : Type}

/-- The inputs among some messages, in order. -/
def inputsOf : List (Mail I P) → List I
  | [] => []
  | .input i :: ms => i :: inputsOf ms
  | _ :: ms => inputsOf ms

/-- The socket results among some messages, in order. -/
def socketOf : List (Mail I P) → List (Except NextMessageError Message)
  | [] => []
  | .ws m :: ms => m :: socketOf ms
  | _ :: ms => socketOf ms

theorem inputsOf_append (a b : List (Mail I P)) : inputsOf (a ++ b) = inputsOf a ++ inputsOf b := by
  induction a with
  | nil => rfl
  | cons m ms ih => cases m <;> simp [inputsOf, ih]

theorem socketOf_append (a b : List (Mail I P)) : socketOf (a ++ b) = socketOf a ++ socketOf b := by
  induction a with
  | nil => rfl
  | cons m ms ih => cases m <;> simp [socketOf, ih]

/-- no message claims an identity -/
def NoWho (ms : List (Mail I P)) : Prop := ∀ m ∈ ms, ∀ q, m ≠ .whoAmI q

structure NetInv (N : NetEnv D I S E P R) (data : D) (n : Net D I S E P R) : Prop where
  loop : n.loop = (loopRun N.comp N.parse N.firstSend (.waiting data) n.received).1
  outs : n.outs = (loopRun N.comp N.parse N.firstSend (.waiting data) n.received).2
  early : n.manager = .start ∨ n.manager = .spawned → n.received = [] ∧ n.loopBox = [] ∧ n.reader = none ∧ n.got = [] ∧ n.inbox = n.sent
  waiting : n.manager = .told → n.reader = none
  late : n.manager = .told ∨ n.manager = .forwarding → ∃ rest, n.received ++ n.loopBox = .whoAmI N.me :: rest ∧ NoWho rest ∧
    inputsOf rest ++ n.inbox = n.sent ∧ socketOf rest = n.got

theorem inv_init (N : NetEnv D I S E P R) (data : D) : NetInv N data (Net.init data) where
  loop := rfl
  outs := rfl
  early := fun _ => ⟨rfl, rfl, rfl, rfl, rfl⟩
  waiting := fun h => by cases h
  late := fun h => by rcases h with h | h <;> cases h

theorem noWho_snoc {ms : List (Mail I P)} {m : Mail I P} (h : NoWho ms) (hm : ∀ q, m ≠ .whoAmI q) : NoWho (ms ++ [m]) := by
  intro x hx
  rcases List.mem_append.1 hx with h' | h'
  · exact h x h'
  · rw [List.mem_singleton] at h'; subst h'; exact hm

theorem manager_cases (m : ManagerAt) : (m = .start ∨ m = .spawned) ∨ (m = .told ∨ m = .forwarding) := by
  cases m <;> simp

theorem inv_step {N : NetEnv D I S E P R} {data : D} {a b : Net D I S E P R} (h : NetInv N data a) (hs : NetStep N a b) : NetInv N data b := by
  have reading : ∀ {r}, a.reader = some r → a.manager = .forwarding := by
    intro r hr
    rcases hm : a.manager with _ | _ | _ | _
    · have := (h.early (Or.inl hm)).2.2.1; rw [hr] at this; cases this
    · have := (h.early (Or.inr hm)).2.2.1; rw [hr] at this; cases this
    · have := h.waiting hm; rw [hr] at this; cases this
    · rfl
  cases hs with
  | outside i =>
    refine ⟨h.loop, h.outs, fun he => ?_, h.waiting, fun hl => ?_⟩
    · obtain ⟨h1, h2, h3, h4, h5⟩ := h.early he
      exact ⟨h1, h2, h3, h4, by simp [h5]⟩
    · obtain ⟨rest, h1, h2, h3, h4⟩ := h.late hl
      exact ⟨rest, h1, h2, by simp [← h3], h4⟩
  | spawnLoop hm =>
    have he := h.early (Or.inl hm)
    exact ⟨h.loop, h.outs, fun _ => he, fun e => (by cases e), fun hl => (by rcases hl with e | e <;> cases e)⟩
  | tell hm =>
    obtain ⟨h1, h2, h3, h4, h5⟩ := h.early (Or.inr hm)
    refine ⟨h.loop, h.outs, fun hl => (by rcases hl with e | e <;> cases e), fun _ => h3, fun _ => ⟨[], ?_, fun _ hx => (by cases hx), ?_, ?_⟩⟩
    · simp [h1, h2]
    · simpa [inputsOf] using h5
    · simpa [socketOf] using h4.symm
  | spawnReader hm =>
    refine ⟨h.loop, h.outs, fun hl => (by rcases hl with e | e <;> cases e), fun e => (by cases e), fun _ => h.late (Or.inl hm)⟩
  | forward i rest hm hi =>
    obtain ⟨r, h1, h2, h3, h4⟩ := h.late (Or.inr hm)
    refine ⟨h.loop, h.outs, fun hl => (by rcases hl with e | e <;> rw [hm] at e <;> cases e), fun e => (by rw [hm] at e; cases e), fun _ =>
      ⟨r ++ [.input i], by simp [← List.append_assoc, h1], noWho_snoc h2 (fun q e => by cases e), ?_, ?_⟩⟩
    · rw [inputsOf_append, ← h3, hi]; simp [inputsOf]
    · rw [socketOf_append, h4]; simp [socketOf]
  | read r r' m hr hn =>
    have hm := reading hr
    obtain ⟨rs, h1, h2, h3, h4⟩ := h.late (Or.inr hm)
    refine ⟨h.loop, h.outs, fun hl => (by rcases hl with e | e <;> rw [hm] at e <;> cases e), fun e => (by rw [hm] at e; cases e), fun _ =>
      ⟨rs ++ [.ws m], by simp [← List.append_assoc, h1], noWho_snoc h2 (fun q e => by cases e), ?_, ?_⟩⟩
    · rw [inputsOf_append, ← h3]; simp [inputsOf]
    · rw [socketOf_append, h4]; simp [socketOf]
  | readNone r r' hr hn =>
    have hm := reading hr
    exact ⟨h.loop, h.outs, fun hl => (by rcases hl with e | e <;> rw [hm] at e <;> cases e), fun e => (by rw [hm] at e; cases e), h.late⟩
  | readerDies r hr =>
    have hm := reading hr
    exact ⟨h.loop, h.outs, fun hl => (by rcases hl with e | e <;> rw [hm] at e <;> cases e), fun _ => rfl, h.late⟩
  | receive m rest hm hb =>
    have hrun := run_append (C := N.comp) (parse := N.parse) (ok := N.firstSend) a.received [m] (.waiting data)
    refine ⟨?_, ?_, fun he => ?_, h.waiting, fun hl => ?_⟩
    · simp only [hrun, h.loop, loopRun]
    · simp only [hrun, h.outs, h.loop, loopRun, List.append_nil]
    · obtain ⟨-, h2, -⟩ := h.early he
      rw [h2] at hb; cases hb
    · obtain ⟨r, h1, h2, h3, h4⟩ := h.late hl
      refine ⟨r, ?_, h2, h3, h4⟩
      rw [hb] at h1
      simpa using h1

theorem inv_steps {N : NetEnv D I S E P R} {data : D} {a b : Net D I S E P R} (h : NetInv N data a) (hs : NetSteps N a b) : NetInv N data b := by
  induction hs with
  | refl => exact h
  | snoc _ h2 ih => exact inv_step ih h2

theorem update_not_unreachable (C : Component D I S E P) (st : LoopState I S P) (i : I) : (updateAndDiff C st i).1 ≠ .unreachable ∧
    ∀ d, (updateAndDiff C st i).1 ≠ .waiting d := by
  simp only [updateAndDiff]
  split <;> simp

theorem run_reachable (C : Component D I S E P) (parse : String → Option ClientMessage) (ok : Bool) :
    ∀ (ms : List (Mail I P)) (ph : Phase D I S P), NoWho ms → ph ≠ .unreachable → (∀ d, ph ≠ .waiting d) →
      (loopRun C parse ok ph ms).1 ≠ .unreachable
  | [], ph, _, h, _ => h
  | m :: ms, ph, hn, h, hw => by
    rw [loopRun]
    have hn' : NoWho ms := fun x hx => hn x (List.mem_cons_of_mem _ hx)
    have hm := hn m (by simp)
    have key : (loopStep C parse ok ph m).1 ≠ .unreachable ∧ ∀ d, (loopStep C parse ok ph m).1 ≠ .waiting d := by
      cases ph with
      | waiting d => exact absurd rfl (hw d)
      | unreachable => exact absurd rfl h
      | stopped => simp [loopStep]
      | crashed => simp [loopStep]
      | running st =>
        by_cases hask : ∃ i, Asks parse st.listeners m i
        · obtain ⟨i, hi⟩ := hask
          rw [step_asks hi]
          exact update_not_unreachable C st i
        · by_cases hc : m = .ws (.error .connectionClosed)
          · subst hc; simp [loopStep]
          · rw [step_ignored (fun i hi => hask ⟨i, hi⟩) hc hm]; simp
    exact run_reachable C parse ok ms _ hn' key.1 key.2

/-! ## C68 -/

/-- **C68.** After any number of steps of the manager, the reader, the loop and outside senders, in any order: the loop has not
executed an `unreachable!()`; what it has received, followed by what waits in its mailbox, is nothing or the identity
of the manager followed by messages none of which is an identity; among these, the inputs followed by those still in
the manager's mailbox are exactly the inputs sent, and the socket results are exactly those the reader was given,
both in order. -/
theorem C68_processes (N : NetEnv D I S E P R) (data : D) (n : Net D I S E P R) (h : NetSteps N (Net.init data) n) :
    n.loop ≠ .unreachable ∧
    ((n.received ++ n.loopBox = [] ∧ n.inbox = n.sent ∧ n.got = []) ∨
      ∃ rest, n.received ++ n.loopBox = .whoAmI N.me :: rest ∧ (∀ m ∈ rest, ∀ q, m ≠ .whoAmI q) ∧
        inputsOf rest ++ n.inbox = n.sent ∧ socketOf rest = n.got) ∧
    n.loop = (loopRun N.comp N.parse N.firstSend (.waiting data) n.received).1 ∧
    n.outs = (loopRun N.comp N.parse N.firstSend (.waiting data) n.received).2 := by
  have hi := inv_steps (inv_init N data) h
  refine ⟨?_, ?_, hi.loop, hi.outs⟩
  · rw [hi.loop]
    rcases manager_cases n.manager with hm | hm
    · rw [(hi.early hm).1]
      simp [loopRun]
    · obtain ⟨rest, h1, h2, -⟩ := hi.late hm
      cases hr : n.received with
      | nil => simp [loopRun]
      | cons m ms =>
        rw [hr] at h1
        simp only [List.cons_append, List.cons.injEq] at h1
        obtain ⟨rfl, h1⟩ := h1
        rw [loopRun]
        have hn : NoWho ms := fun x hx => h2 x (by rw [← h1]; exact List.mem_append.2 (Or.inl hx))
        refine run_reachable _ _ _ ms _ hn ?_ ?_
        · simp only [loopStep, Element.diff]; split <;> simp
        · intro d; simp only [loopStep, Element.diff]; split <;> simp
  · rcases manager_cases n.manager with hm | hm
    · obtain ⟨h1, h2, -, h4, h5⟩ := hi.early hm
      exact Or.inl ⟨by simp [h1, h2], h5, h4⟩
    · exact Or.inr (hi.late hm)

/-! ## C69 -/

theorem steps_trans {N : NetEnv D I S E P R} {a b c : Net D I S E P R} (h1 : NetSteps N a b) (h2 : NetSteps N b c) : NetSteps N a c := by
  induction h2 with
  | refl => exact h1
  | snoc _ h ih => exact .snoc ih h

theorem reader_repeats {N : NetEnv D I S E P R} {r : R} {m : Except NextMessageError Message} (hn : N.next r (some m) r) (k : Nat)
    (n : Net D I S E P R) (hr : n.reader = some r) :
    NetSteps N n { n with loopBox := n.loopBox ++ List.replicate k (.ws m), got := n.got ++ List.replicate k m } := by
  induction k with
  | zero => simpa using NetSteps.refl n
  | succ k ih =>
    have hs : NetStep N { n with loopBox := n.loopBox ++ List.replicate k (.ws m), got := n.got ++ List.replicate k m } _ :=
      NetStep.read _ r r m hr hn
    have := NetSteps.snoc ih hs
    have h1 : ∀ {α : Type} (x : α), List.replicate (k + 1) x = List.replicate k x ++ [x] := fun x => List.replicate_succ'
    rw [h1, h1, ← List.append_assoc, ← List.append_assoc]
    rw [← hr] at this
    exact this

/-- **C69 is false**: in every state in which the reader's socket is closed, its next result is again that the connection is
closed, and it sends that to the loop: it can do so any number of times, and there is no step by which the code stops it. -/
theorem C69_reader_refuted (W : Nat) (N : NetEnv D I S E P (WsState × Conn)) (hN : N.next = socketNext W) (data : D)
    (n : Net D I S E P (WsState × Conn)) (h : NetSteps N (Net.init data) n) (c : Conn) (hr : n.reader = some (.closed, c)) (k : Nat) :
    (∃ n', NetSteps N (Net.init data) n' ∧ n'.reader = some (.closed, c) ∧ n'.got = n.got ++ List.replicate k (.error .connectionClosed) ∧
      n'.loopBox = n.loopBox ++ List.replicate k (.ws (.error .connectionClosed))) ∧
    (∀ m r', N.next (.closed, c) m r' → m = some (.error .connectionClosed) ∧ r' = (.closed, c)) := by
  have hn : N.next (.closed, c) (some (.error .connectionClosed)) (.closed, c) := by
    rw [hN]; exact ⟨rfl, rfl⟩
  refine ⟨⟨_, steps_trans h (reader_repeats hn k n hr), hr, rfl, rfl⟩, ?_⟩
  intro m r' h'
  rw [hN] at h'
  exact h'

/-! ## C81 -/

/-- At the end of the stream every `next` reports a client error and leaves the socket open. -/
theorem next_eof (W : Nat) (out : Sink) : WebSocket.next W .open ⟨[], out⟩ = (.err .clientError, .open, ⟨[], out⟩) := by
  rfl

theorem mem_socketOf {ms : List (Mail I P)} {m : Except NextMessageError Message} (h : Mail.ws m ∈ ms) : m ∈ socketOf ms := by
  induction ms with
  | nil => cases h
  | cons x xs ih =>
    rcases List.mem_cons.1 h with rfl | h
    · simp [socketOf]
    · have := ih h
      cases x <;> simp [socketOf, this]

theorem run_not_stopped (C : Component D I S E P) (parse : String → Option ClientMessage) (ok : Bool) :
    ∀ (ms : List (Mail I P)) (ph : Phase D I S P), (∀ m ∈ ms, m ≠ .ws (.error .connectionClosed)) → ph ≠ .stopped →
      (loopRun C parse ok ph ms).1 ≠ .stopped ∧ .dropped ∉ (loopRun C parse ok ph ms).2
  | [], ph, _, h => ⟨h, by simp [loopRun]⟩
  | m :: ms, ph, hn, h => by
    rw [loopRun]
    have hm := hn m (by simp)
    have upd : ∀ st i, (updateAndDiff C st i).1 ≠ .stopped ∧ .dropped ∉ (updateAndDiff C st i).2 := by
      intro st i
      simp only [updateAndDiff]
      split <;> simp
    have key : (loopStep C parse ok ph m).1 ≠ .stopped ∧ .dropped ∉ (loopStep C parse ok ph m).2 := by
      cases ph with
      | waiting d =>
        cases m with
        | whoAmI p => simp only [loopStep, Element.diff]; split <;> simp
        | ws _ => simp [loopStep]
        | input _ => simp [loopStep]
      | unreachable => simp [loopStep]
      | stopped => exact absurd rfl h
      | crashed => simp [loopStep]
      | running st =>
        by_cases hask : ∃ i, Asks parse st.listeners m i
        · obtain ⟨i, hi⟩ := hask
          rw [step_asks hi]
          exact upd st i
        · by_cases hw : ∃ q, m = .whoAmI q
          · obtain ⟨q, rfl⟩ := hw; simp [loopStep]
          · rw [step_ignored (fun i hi => hask ⟨i, hi⟩) hm (fun q hq => hw ⟨q, hq⟩)]; simp
    have ih := run_not_stopped C parse ok ms (loopStep C parse ok ph m).1 (fun x hx => hn x (List.mem_cons_of_mem _ hx)) key.1
    refine ⟨ih.1, ?_⟩
    simp only [List.mem_append, not_or]
    exact ⟨key.2, ih.2⟩

/-- **C81 is false**: once the client is gone without a close frame, the reader only ever reports client errors, so from
then on no schedule makes the loop stop, and the reader can fill its mailbox without end. -/
theorem C81_leak_refuted (W : Nat) (N : NetEnv D I S E P (WsState × Conn)) (hN : N.next = socketNext W) (data : D)
    (n n' : Net D I S E P (WsState × Conn)) (h : NetSteps N (Net.init data) n) (out : Sink)
    (hr : n.reader = some (.open, ⟨[], out⟩)) (hc : .error .connectionClosed ∉ n.got) (h' : NetSteps N n n') :
    n'.loop ≠ .stopped ∧ .dropped ∉ n'.outs ∧
    ∀ k, ∃ n'', NetSteps N n n'' ∧ n''.loopBox = n.loopBox ++ List.replicate k (.ws (.error .clientError)) := by
  have hi := inv_steps (inv_init N data) h
  have hnext : N.next (.open, ⟨[], out⟩) (some (.error .clientError)) (.open, ⟨[], out⟩) := by
    rw [hN]; exact ⟨rfl, rfl⟩
  have hall : (n'.reader = some (.open, ⟨[], out⟩) ∨ n'.reader = none ∧ n'.manager = .forwarding) ∧ .error .connectionClosed ∉ n'.got := by
    have hmf : n.manager = .forwarding := by
      rcases hm : n.manager with _ | _ | _ | _
      · have := (hi.early (Or.inl hm)).2.2.1; rw [hr] at this; cases this
      · have := (hi.early (Or.inr hm)).2.2.1; rw [hr] at this; cases this
      · have := hi.waiting hm; rw [hr] at this; cases this
      · rfl
    have : ((n'.reader = some (.open, ⟨[], out⟩) ∨ n'.reader = none) ∧ n'.manager = .forwarding) ∧ .error .connectionClosed ∉ n'.got := by
      clear hi h
      induction h' with
      | refl => exact ⟨⟨Or.inl hr, hmf⟩, hc⟩
      | snoc _ hs ih =>
        obtain ⟨⟨h1, h2⟩, h3⟩ := ih
        cases hs with
        | outside i => exact ⟨⟨h1, h2⟩, h3⟩
        | spawnLoop hm => rw [h2] at hm; cases hm
        | tell hm => rw [h2] at hm; cases hm
        | spawnReader hm => rw [h2] at hm; cases hm
        | forward i rest hm hi => exact ⟨⟨h1, h2⟩, h3⟩
        | read r r' m hr hn =>
          rcases h1 with h1 | h1
          · rw [h1] at hr
            cases hr
            rw [hN] at hn
            obtain ⟨hm, rfl⟩ := hn
            cases hm
            refine ⟨⟨Or.inl rfl, h2⟩, ?_⟩
            simp only [List.mem_append, List.mem_singleton, not_or]
            exact ⟨h3, by simp⟩
          · rw [h1] at hr; cases hr
        | readNone r r' hr hn =>
          rcases h1 with h1 | h1
          · rw [h1] at hr
            cases hr
            rw [hN] at hn
            obtain ⟨hm, -⟩ := hn
            cases hm
          · rw [h1] at hr; cases hr
        | readerDies r hr => exact ⟨⟨Or.inr rfl, h2⟩, h3⟩
        | receive m rest hm hb => exact ⟨⟨h1, h2⟩, h3⟩
    refine ⟨?_, this.2⟩
    rcases this.1.1 with h1 | h1
    · exact Or.inl h1
    · exact Or.inr ⟨h1, this.1.2⟩
  obtain ⟨-, hrec, hl, ho⟩ := C68_processes N data n' (steps_trans h h')
  have hno : ∀ m ∈ n'.received, m ≠ .ws (.error .connectionClosed) := by
    rintro m hm rfl
    rcases hrec with ⟨h1, -⟩ | ⟨rest, h1, -, -, h4⟩
    · rw [List.append_eq_nil_iff] at h1
      rw [h1.1] at hm; cases hm
    · have : Mail.ws (.error .connectionClosed) ∈ Mail.whoAmI N.me :: rest := by
        rw [← h1]; exact List.mem_append.2 (Or.inl hm)
      rcases List.mem_cons.1 this with h2 | h2
      · cases h2
      · apply hall.2
        rw [← h4]
        exact mem_socketOf h2
  obtain ⟨h1, h2⟩ := run_not_stopped N.comp N.parse N.firstSend n'.received (.waiting data) hno (by simp)
  refine ⟨by rw [hl]; exact h1, by rw [ho]; exact h2, fun k => ⟨_, reader_repeats hnext k n hr, rfl⟩⟩

/-- non-vacuity: the two states the reader can be in after the client's last byte, with a close frame and without, are reached -/
example (N : NetEnv D I S E P (WsState × Conn)) (data : D) (out : Sink)
    (hs : N.socket = (.open, ⟨[], out⟩)) :
    ∃ n, NetSteps N (Net.init data) n ∧ n.reader = some (.open, ⟨[], out⟩) ∧ .error .connectionClosed ∉ n.got := by
  have h1 : NetSteps N (Net.init data) _ := .snoc (.snoc (.snoc (.refl _) (.spawnLoop _ rfl)) (.tell _ rfl)) (.spawnReader _ rfl)
  exact ⟨_, h1, by rw [hs], by simp [Net.init]⟩

/-- the reader reads a close frame and then is closed -/
example (W : Nat) (N : NetEnv D I S E P (WsState × Conn)) (hN : N.next = socketNext W) (data : D)
    (hs : N.socket = (.open, ⟨[.data [0x88, 0x80]], ⟨[], none⟩⟩)) :
    ∃ n, NetSteps N (Net.init data) n ∧ n.reader = some (.closed, ⟨[], ⟨[0x88, 0], none⟩⟩) := by
  have h1 : NetSteps N (Net.init data) _ := .snoc (.snoc (.snoc (.refl _) (.spawnLoop _ rfl)) (.tell _ rfl)) (.spawnReader _ rfl)
  have hn : N.next (.open, ⟨[.data [0x88, 0x80]], ⟨[], none⟩⟩) (some (.error .connectionClosed)) (.closed, ⟨[], ⟨[0x88, 0], none⟩⟩) := by
    rw [hN]
    have : WebSocket.next W .open ⟨[.data [0x88, 0x80]], ⟨[], none⟩⟩ = (.err .connectionClosed, .closed, ⟨[], ⟨[0x88, 0], none⟩⟩) := by
      rfl
    simp only [socketNext, this, and_self]
  exact ⟨_, .snoc h1 (.read _ _ _ _ (by rw [hs]) hn), rfl⟩

end Puck
