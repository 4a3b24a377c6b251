import Verif.Spec.Fair
import Verif.Props.Limits
import Verif.Props.Diff
/-!
# What happens eventually (C99, C100)
-/
namespace Puck

variable {D I S E P R : Type} {N : NetEnv D I S E P R} {data : D}

theorem Execution.steps (x : Execution N data) (i j : Nat) (h : i ≤ j) : NetSteps N (x.state i) (x.state j) := by
  induction j with
  | zero =>
    have : i = 0 := by omega
    subst this; exact .refl _
  | succ j ih =>
    by_cases hij : i = j + 1
    · subst hij; exact .refl _
    · have h1 := ih (by omega)
      rcases x.step j with h2 | h2
      · rw [h2]; exact h1
      · exact .snoc h1 h2

theorem Execution.reach (x : Execution N data) (i : Nat) : NetSteps N (Net.init data) (x.state i) := by
  rw [← x.start]; exact x.steps 0 i (by omega)

/-- what never shrinks along one step -/
theorem step_grows {a b : Net D I S E P R} (h : NetStep N a b) :
    a.received <+: b.received ∧ (a.received ++ a.loopBox) <+: (b.received ++ b.loopBox) ∧ a.got <+: b.got ∧ a.sent <+: b.sent ∧
    a.sent.length + b.inbox.length ≤ b.sent.length + a.inbox.length := by
  cases h with
  | outside i => simp; omega
  | spawnLoop hm => simp
  | tell hm => simp [← List.append_assoc]
  | spawnReader hm => simp
  | forward i rest hm hi => simp [← List.append_assoc, hi]
  | read r r' m hr hn => simp [← List.append_assoc]
  | readNone r r' hr hn => simp
  | readerDies r hr => simp
  | receive m rest hm hb => simp [hb]

theorem steps_grow {a b : Net D I S E P R} (h : NetSteps N a b) :
    a.received <+: b.received ∧ (a.received ++ a.loopBox) <+: (b.received ++ b.loopBox) ∧ a.got <+: b.got ∧ a.sent <+: b.sent ∧
    a.sent.length + b.inbox.length ≤ b.sent.length + a.inbox.length := by
  induction h with
  | refl => simp
  | snoc _ h2 ih =>
    obtain ⟨h1, h3, h4, h5, h6⟩ := step_grows h2
    obtain ⟨g1, g3, g4, g5, g6⟩ := ih
    exact ⟨g1.trans h1, g3.trans h3, g4.trans h4, g5.trans h5, by omega⟩

/-- the loop gets through its mailbox -/
theorem eventually_received {x : Execution N data} (hf : x.Fair) (i : Nat) (n : Nat)
    (hn : n ≤ ((x.state i).received ++ (x.state i).loopBox).length) : ∃ j, i ≤ j ∧ n ≤ (x.state j).received.length := by
  generalize hd : n - (x.state i).received.length = d
  induction d using Nat.strongRecOn generalizing i with
  | ind d ih =>
    by_cases hle : n ≤ (x.state i).received.length
    · exact ⟨i, Nat.le_refl _, hle⟩
    · by_cases he : ∃ j, i ≤ j ∧ (x.state j).loopBox = []
      · obtain ⟨j, hij, hj⟩ := he
        have := (steps_grow (x.steps i j hij)).2.1.length_le
        rw [hj, List.append_nil] at this
        exact ⟨j, hij, by omega⟩
      · obtain ⟨j, hij, hj⟩ := hf.loop i (fun j hj h => he ⟨j, hj, h⟩)
        have g := steps_grow (x.steps i j hij)
        have g' := steps_grow (x.steps i (j + 1) (by omega))
        have l1 := g.1.length_le
        have l2 := g'.2.1.length_le
        simp only [LoopMoves] at hj
        obtain ⟨k, hk, hk'⟩ := ih (n - (x.state (j + 1)).received.length) (by omega) (j + 1) (by omega) rfl
        exact ⟨k, by omega, hk'⟩

/-- how far the manager is -/
def rank : ManagerAt → Nat
  | .start => 3
  | .spawned => 2
  | .told => 1
  | .forwarding => 0

theorem rank_step {a b : Net D I S E P R} (h : NetStep N a b) : rank b.manager ≤ rank a.manager := by
  cases h with
  | spawnLoop hm => rw [hm]; simp [rank]
  | tell hm => rw [hm]; simp [rank]
  | spawnReader hm => rw [hm]; simp [rank]
  | _ => simp

theorem manager_moves {a b : Net D I S E P R} (h : a = b ∨ NetStep N a b) (hm : ManagerMoves a b) :
    rank b.manager + (a.sent.length + b.inbox.length) < rank a.manager + (b.sent.length + a.inbox.length) := by
  rcases h with rfl | h
  · rcases hm with hm | hm
    · exact absurd rfl hm
    · omega
  · have hr := rank_step h
    have hg := (step_grows h).2.2.2.2
    cases h with
    | outside i =>
      rcases hm with hm | hm
      · simp at hm
      · simp at hm; omega
    | spawnLoop hm' => rw [hm']; simp [rank]
    | tell hm' => rw [hm']; simp [rank]
    | spawnReader hm' => rw [hm']; simp [rank]
    | forward i rest hm' hi => simp [hi]
    | read r r' m hr hn => rcases hm with hm | hm <;> simp at hm
    | readNone r r' hr hn => rcases hm with hm | hm <;> simp at hm
    | readerDies r hr => rcases hm with hm | hm <;> simp at hm
    | receive m rest hm' hb => rcases hm with hm | hm <;> simp at hm

theorem rank_steps {a b : Net D I S E P R} (h : NetSteps N a b) : rank b.manager ≤ rank a.manager := by
  induction h with
  | refl => exact Nat.le_refl _
  | snoc _ h ih => exact Nat.le_trans (rank_step h) ih

theorem inbox_le_sent {n : Net D I S E P R} (h : NetSteps N (Net.init data) n) : n.inbox.length ≤ n.sent.length := by
  have := (steps_grow h).2.2.2.2
  simp only [Net.init, List.length_nil] at this
  omega

/-- the manager gets through its mailbox -/
theorem eventually_forwarded {x : Execution N data} (hf : x.Fair) (i : Nat) (n : Nat) (hn : n ≤ (x.state i).sent.length) :
    ∃ j, i ≤ j ∧ n ≤ (x.state j).sent.length - (x.state j).inbox.length := by
  generalize hd : rank (x.state i).manager + (n - ((x.state i).sent.length - (x.state i).inbox.length)) = d
  induction d using Nat.strongRecOn generalizing i with
  | ind d ih =>
    by_cases hle : n ≤ (x.state i).sent.length - (x.state i).inbox.length
    · exact ⟨i, Nat.le_refl _, hle⟩
    · by_cases he : ∃ j, i ≤ j ∧ (x.state j).inbox = []
      · obtain ⟨j, hij, hj⟩ := he
        have := (steps_grow (x.steps i j hij)).2.2.2.1.length_le
        exact ⟨j, hij, by rw [hj]; simp only [List.length_nil]; omega⟩
      · obtain ⟨j, hij, hj⟩ := hf.manager i (fun j hj => Or.inr fun h => he ⟨j, hj, h⟩)
        have g := (steps_grow (x.steps i j hij)).2.2.2.2
        have g' := (steps_grow (x.steps i (j + 1) (by omega))).2.2.2.1.length_le
        have r1 := rank_steps (x.steps i j hij)
        have r2 := rank_steps (x.steps i (j + 1) (by omega))
        have mv := manager_moves (by rcases x.step j with h | h; exact Or.inl h.symm; exact Or.inr h) hj
        have b1 := inbox_le_sent (x.reach i)
        have b2 := inbox_le_sent (x.reach j)
        have b3 := inbox_le_sent (x.reach (j + 1))
        obtain ⟨k, hk, hk'⟩ := ih (rank (x.state (j + 1)).manager +
          (n - ((x.state (j + 1)).sent.length - (x.state (j + 1)).inbox.length))) (by omega) (j + 1) (by omega) rfl
        exact ⟨k, by omega, hk'⟩

/-! ## C99 -/

theorem prefix_of_append_eq {α : Type} {a b c : List α} (h : a ++ b = c) (n : Nat) (hn : n ≤ a.length) : c.take n = a.take n := by
  rw [← h, List.take_append_of_le_length hn]

theorem take_prefix_of_prefix {α : Type} {a b : List α} (h : a <+: b) (n : Nat) (hn : n ≤ a.length) : b.take n = a.take n := by
  obtain ⟨t, rfl⟩ := h
  rw [List.take_append_of_le_length hn]

theorem inputsOf_prefix {a b : List (Mail I P)} (h : a <+: b) : inputsOf a <+: inputsOf b := by
  obtain ⟨t, rfl⟩ := h
  rw [inputsOf_append]; exact List.prefix_append _ _

theorem socketOf_prefix {a b : List (Mail I P)} (h : a <+: b) : socketOf a <+: socketOf b := by
  obtain ⟨t, rfl⟩ := h
  rw [socketOf_append]; exact List.prefix_append _ _

theorem inputsOf_cons_who (q : P) (ms : List (Mail I P)) : inputsOf (.whoAmI q :: ms) = inputsOf ms := rfl
theorem socketOf_cons_who (q : P) (ms : List (Mail I P)) : socketOf (.whoAmI q :: ms) = socketOf ms := rfl

/-- the inputs and socket results that have gone through the loop's mailbox -/
theorem boxes {n : Net D I S E P R} (h : NetSteps N (Net.init data) n) :
    inputsOf (n.received ++ n.loopBox) ++ n.inbox = n.sent ∧ socketOf (n.received ++ n.loopBox) = n.got := by
  obtain ⟨-, h2, -, -⟩ := C68_processes N data n h
  rcases h2 with ⟨h1, h3, h4⟩ | ⟨rest, h1, -, h3, h4⟩
  · rw [h1, h3, h4]; exact ⟨rfl, rfl⟩
  · rw [h1]; exact ⟨h3, h4⟩

/-- once something is in the loop's mailbox or taken out of it, it is taken out of it at some time -/
theorem catches_up {x : Execution N data} (hf : x.Fair) (i : Nat) :
    ∃ j, i ≤ j ∧ ((x.state i).received ++ (x.state i).loopBox) <+: (x.state j).received := by
  obtain ⟨j, hij, hj⟩ := eventually_received hf i _ (Nat.le_refl _)
  refine ⟨j, hij, ?_⟩
  have h1 := (steps_grow (x.steps i j hij)).2.1
  exact List.prefix_of_prefix_length_le h1 (List.prefix_append _ _) hj

/-- **C99.** In every fair execution, whatever the schedule: every input sent to the component and every result the WebSocket reader
was given is received by the component loop at some time, in order and with nothing invented in between. -/
theorem C99_eventually_received (x : Execution N data) (hf : x.Fair) (i : Nat) :
    ∃ j, i ≤ j ∧ (x.state i).sent <+: inputsOf (x.state j).received ∧ (x.state i).got <+: socketOf (x.state j).received ∧
      inputsOf (x.state j).received <+: (x.state j).sent ∧ socketOf (x.state j).received <+: (x.state j).got := by
  obtain ⟨j, hij, hj⟩ := eventually_forwarded hf i _ (Nat.le_refl _)
  obtain ⟨k, hjk, hk⟩ := catches_up hf j
  obtain ⟨b1, b2⟩ := boxes (x.reach j)
  obtain ⟨c1, c2⟩ := boxes (x.reach k)
  have gij := steps_grow (x.steps i j hij)
  refine ⟨k, by omega, ?_, ?_, ?_, ?_⟩
  · have h1 : (x.state i).sent <+: inputsOf ((x.state j).received ++ (x.state j).loopBox) := by
      refine List.prefix_of_prefix_length_le gij.2.2.2.1 ⟨_, b1⟩ ?_
      have := congrArg List.length b1
      simp only [List.length_append] at this
      omega
    exact h1.trans (inputsOf_prefix hk)
  · refine List.IsPrefix.trans ?_ (socketOf_prefix hk)
    rw [b2]; exact gij.2.2.1
  · rw [← c1, inputsOf_append, List.append_assoc]; exact List.prefix_append _ _
  · rw [← c2, socketOf_append]; exact List.prefix_append _ _

/-! ## C100 -/

theorem over_stays {n n' : Net D I S E P R} (h : NetSteps N n n') (ho : n.loop = .stopped ∨ n.loop = .crashed) :
    n'.loop = n.loop ∧ n'.outs = n.outs := by
  induction h with
  | refl => exact ⟨rfl, rfl⟩
  | snoc _ h2 ih =>
    obtain ⟨h3, h4⟩ := ih
    cases h2 with
    | receive m rest hm hb =>
      have : ∀ ph : Phase D I S P, (ph = .stopped ∨ ph = .crashed) → loopStep N.comp N.parse N.firstSend ph m = (ph, []) := by
        intro ph hph
        rcases hph with rfl | rfl <;> cases m <;> rfl
      simp only
      rw [h3, this _ ho]
      exact ⟨rfl, by simp [h4]⟩
    | _ => exact ⟨h3, h4⟩

/-- Successive results of the socket. -/
inductive Chain (N : NetEnv D I S E P R) : R → List (Except NextMessageError Message) → R → Prop
  | nil (r : R) : Chain N r [] r
  | cons {r r' r'' : R} {m : Except NextMessageError Message} {ms : List (Except NextMessageError Message)} :
      N.next r (some m) r' → Chain N r' ms r'' → Chain N r (m :: ms) r''

def Progress (N : NetEnv D I S E P R) (rs : List (Except NextMessageError Message)) (r' : R) (n : Net D I S E P R) : Prop :=
  (n.manager ≠ .forwarding ∧ n.got = [] ∧ n.reader = none) ∨
  (∃ todo r, rs = n.got ++ todo ∧ n.reader = some r ∧ Chain N r todo r' ∧ n.manager = .forwarding) ∨ rs <+: n.got

theorem progress_step (hdet : ∀ r m r1 m' r2, N.next r m r1 → N.next r m' r2 → m = m' ∧ r1 = r2)
    {rs : List (Except NextMessageError Message)} {r' : R} (hc : Chain N N.socket rs r') {a b : Net D I S E P R}
    (hp : Progress N rs r' a) (hs : NetStep N a b) (hl : ∀ r, a.reader = some r → b.reader ≠ none) : Progress N rs r' b := by
  rcases hp with ⟨h1, h2, h3⟩ | ⟨todo, r, h1, h2, h3, h4⟩ | h
  · cases hs with
    | outside i => exact Or.inl ⟨h1, h2, h3⟩
    | spawnLoop hm => exact Or.inl ⟨by simp, h2, h3⟩
    | tell hm => exact Or.inl ⟨by simp, h2, h3⟩
    | spawnReader hm => exact Or.inr (Or.inl ⟨rs, N.socket, by simp [h2], rfl, hc, rfl⟩)
    | forward i rest hm hi => exact absurd hm h1
    | read r r1 m hr hn => rw [h3] at hr; cases hr
    | readNone r r1 hr hn => rw [h3] at hr; cases hr
    | readerDies r hr => rw [h3] at hr; cases hr
    | receive m rest hm hb => exact Or.inl ⟨h1, h2, h3⟩
  · cases hs with
    | outside i => exact Or.inr (Or.inl ⟨todo, r, h1, h2, h3, h4⟩)
    | spawnLoop hm => rw [h4] at hm; cases hm
    | tell hm => rw [h4] at hm; cases hm
    | spawnReader hm => rw [h4] at hm; cases hm
    | forward i rest hm hi => exact Or.inr (Or.inl ⟨todo, r, h1, h2, h3, h4⟩)
    | read r0 r1 m hr hn =>
      rw [h2] at hr; cases hr
      cases h3 with
      | nil => exact Or.inr (Or.inr (by rw [h1]; simp))
      | cons hn' hc' =>
        obtain ⟨e1, e2⟩ := hdet _ _ _ _ _ hn hn'
        cases e1
        subst e2
        exact Or.inr (Or.inl ⟨_, _, by simp [h1], rfl, hc', h4⟩)
    | readNone r0 r1 hr hn =>
      rw [h2] at hr; cases hr
      cases h3 with
      | nil => exact Or.inr (Or.inr (by rw [h1]; simp))
      | cons hn' hc' =>
        obtain ⟨e1, e2⟩ := hdet _ _ _ _ _ hn hn'
        cases e1
    | readerDies r0 hr => exact absurd rfl (hl _ hr)
    | receive m rest hm hb => exact Or.inr (Or.inl ⟨todo, r, h1, h2, h3, h4⟩)
  · exact Or.inr (Or.inr (h.trans (step_grows hs).2.2.1))

theorem progress {x : Execution N data} (hl : x.ReaderLives)
    (hdet : ∀ r m r1 m' r2, N.next r m r1 → N.next r m' r2 → m = m' ∧ r1 = r2)
    {rs : List (Except NextMessageError Message)} {r' : R} (hc : Chain N N.socket rs r') (i : Nat) : Progress N rs r' (x.state i) := by
  induction i with
  | zero => rw [x.start]; exact Or.inl ⟨by simp [Net.init], rfl, rfl⟩
  | succ i ih =>
    rcases x.step i with h | h
    · rw [h]; exact ih
    · exact progress_step hdet hc ih h (fun r hr => hl i r hr)

theorem eventually_forwarding {x : Execution N data} (hf : x.Fair) (i : Nat) : ∃ j, i ≤ j ∧ (x.state j).manager = .forwarding := by
  generalize hd : rank (x.state i).manager = d
  induction d using Nat.strongRecOn generalizing i with
  | ind d ih =>
    by_cases he : ∃ j, i ≤ j ∧ (x.state j).manager = .forwarding
    · exact he
    · have hne : ∀ j, i ≤ j → (x.state j).manager ≠ .forwarding := fun j hj h => he ⟨j, hj, h⟩
      obtain ⟨j, hij, hj⟩ := hf.manager i (fun j hj => Or.inl (hne j hj))
      have hlt : rank (x.state (j + 1)).manager < rank (x.state j).manager := by
        rcases x.step j with h | h
        · rw [h] at hj
          rcases hj with hj | hj
          · exact absurd rfl hj
          · omega
        · have hn := hne j hij
          generalize x.state j = a at h hj hn
          generalize x.state (j + 1) = b at h hj
          cases h with
          | spawnLoop hm' => rw [hm']; simp [rank]
          | tell hm' => rw [hm']; simp [rank]
          | spawnReader hm' => rw [hm']; simp [rank]
          | forward i rest hm hi => exact absurd hm hn
          | outside i =>
            rcases hj with hj | hj
            · simp at hj
            · simp at hj; omega
          | _ => rcases hj with hj | hj <;> simp at hj
      have r1 := rank_steps (x.steps i j hij)
      obtain ⟨k, hk, hk'⟩ := ih (rank (x.state (j + 1)).manager) (by omega) (j + 1) rfl
      exact ⟨k, by omega, hk'⟩

theorem eventually_got {x : Execution N data} (hf : x.Fair) (hl : x.ReaderLives)
    (hdet : ∀ r m r1 m' r2, N.next r m r1 → N.next r m' r2 → m = m' ∧ r1 = r2)
    {rs : List (Except NextMessageError Message)} {r' : R} (hc : Chain N N.socket rs r') : ∃ j, rs <+: (x.state j).got := by
  obtain ⟨i0, -, hi0⟩ := eventually_forwarding hf 0
  have key : ∀ d i, rs.length - (x.state i).got.length = d → (x.state i).manager = .forwarding → ∃ j, rs <+: (x.state j).got := by
    intro d
    induction d using Nat.strongRecOn with
    | ind d ih =>
      intro i hd hm
      by_cases he : ∃ j, i ≤ j ∧ rs <+: (x.state j).got
      · obtain ⟨j, -, hj⟩ := he; exact ⟨j, hj⟩
      · have hno : ∀ j, i ≤ j → ¬ rs <+: (x.state j).got := fun j hj h => he ⟨j, hj, h⟩
        have hfw : ∀ j, i ≤ j → (x.state j).manager = .forwarding := by
          intro j hj
          have := rank_steps (x.steps i j hj)
          rw [hm] at this
          cases hmj : (x.state j).manager <;> rw [hmj] at this <;> simp [rank] at this
        have hen : ∀ j, i ≤ j → ∃ todo r, rs = (x.state j).got ++ todo ∧ (x.state j).reader = some r ∧ Chain N r todo r' := by
          intro j hj
          rcases progress hl hdet hc j with ⟨h1, -⟩ | ⟨todo, r, h1, h2, h3, -⟩ | h
          · exact absurd (hfw j hj) h1
          · exact ⟨todo, r, h1, h2, h3⟩
          · exact absurd h (hno j hj)
        obtain ⟨j, hij, hj⟩ := hf.reader i (fun j hj => by
          obtain ⟨todo, r, h1, h2, h3⟩ := hen j hj
          cases h3 with
          | nil => exact absurd (by rw [h1]; simp) (hno j hj)
          | cons hn _ => exact ⟨_, _, _, h2, hn⟩)
        simp only [ReaderMoves] at hj
        have l1 := (steps_grow (x.steps i j hij)).2.2.1.length_le
        obtain ⟨todo, r, h1, -⟩ := hen (j + 1) (by omega)
        have l2 := congrArg List.length h1
        simp only [List.length_append] at l2
        obtain ⟨todo0, r0, h0, -, c0⟩ := hen i (Nat.le_refl _)
        exact ih (rs.length - (x.state (j + 1)).got.length) (by omega) (j + 1) rfl (hfw _ (by omega))
  exact key _ i0 rfl hi0

theorem socketNext_det (W : Nat) (r : WsState × Conn) (m : Option (Except NextMessageError Message)) (r1 : WsState × Conn)
    (m' : Option (Except NextMessageError Message)) (r2 : WsState × Conn) (h1 : socketNext W r m r1) (h2 : socketNext W r m' r2) :
    m = m' ∧ r1 = r2 := by
  unfold socketNext at h1 h2
  split at h1 <;> rename_i heq <;> rw [heq] at h2 <;> simp only at h2
  · exact ⟨h1.1.trans h2.1.symm, h1.2.trans h2.2.symm⟩
  · exact ⟨h1.1.trans h2.1.symm, h1.2.trans h2.2.symm⟩

theorem socket_ok {W : Nat} {raw raw' : Raw} {m : Message} (h : Message.next W raw = (.ok m, raw')) (o : Bytes) :
    ∃ o', socketNext W (.open, ⟨raw, ⟨o, none⟩⟩) (some (.ok m)) (.open, ⟨raw', ⟨o', none⟩⟩) := by
  cases m with
  | text t => exact ⟨o, by simp [socketNext, WebSocket.next, h]⟩
  | binary b => exact ⟨o, by simp [socketNext, WebSocket.next, h]⟩
  | pong b => exact ⟨o, by simp [socketNext, WebSocket.next, h]⟩
  | ping b =>
    refine ⟨o ++ (pongFrame b).bytes, ?_⟩
    simp [socketNext, WebSocket.next, h, sendFrame_eq, Sink.writeAll]

theorem chain_reads {W : Nat} {N : NetEnv D I S E P (WsState × Conn)} (hN : N.next = socketNext W) {raw rest : Raw} {ms : List Message}
    (h : NextReads W raw ms rest) : ∀ o, ∃ o', Chain N (.open, ⟨raw, ⟨o, none⟩⟩) (ms.map .ok) (.open, ⟨rest, ⟨o', none⟩⟩) := by
  induction h with
  | done raw => exact fun o => ⟨o, .nil _⟩
  | next h1 _ ih =>
    intro o
    obtain ⟨o1, h2⟩ := socket_ok h1 o
    obtain ⟨o2, h3⟩ := ih o1
    exact ⟨o2, .cons (by rw [hN]; exact h2) h3⟩

theorem chain_snoc {N : NetEnv D I S E P R} {r r' r'' : R} {ms : List (Except NextMessageError Message)} {m : Except NextMessageError Message}
    (h : Chain N r ms r') (hn : N.next r' (some m) r'') : Chain N r (ms ++ [m]) r'' := by
  induction h with
  | nil r => exact .cons hn (.nil _)
  | cons h1 _ ih => exact .cons h1 (ih hn)

/-- once the reader has reported that the connection is closed, the loop ends, in a fair execution -/
theorem told_closed {x : Execution N data} (hf : x.Fair) (j : Nat)
    (hin : (Except.error NextMessageError.connectionClosed) ∈ (x.state j).got) :
    ∃ j, ∀ k, j ≤ k → ((x.state k).loop = .stopped ∧ .dropped ∈ (x.state k).outs) ∨ (x.state k).loop = .crashed := by
  obtain ⟨k, hjk, hk⟩ := catches_up hf j
  refine ⟨k, fun l hkl => ?_⟩
  have hkey : ((x.state k).loop = .stopped ∧ .dropped ∈ (x.state k).outs) ∨ (x.state k).loop = .crashed := by
    obtain ⟨b1, b2⟩ := boxes (x.reach j)
    obtain ⟨hu, hrec, hlo, ho⟩ := C68_processes N data _ (x.reach k)
    have hw : Mail.ws (.error .connectionClosed) ∈ (x.state k).received := by
      refine hk.subset (mem_of_socketOf ?_)
      rw [b2]; exact hin
    rcases hrec with ⟨h1, -⟩ | ⟨rs, h1, h2, -, -⟩
    · rw [List.append_eq_nil_iff] at h1
      rw [h1.1] at hw; cases hw
    · cases hre : (x.state k).received with
      | nil => rw [hre] at hw; cases hw
      | cons m ms =>
        rw [hre] at h1 hw
        simp only [List.cons_append, List.cons.injEq] at h1
        obtain ⟨rfl, h1⟩ := h1
        have hw' : Mail.ws (.error .connectionClosed) ∈ ms := by
          rcases List.mem_cons.1 hw with h | h
          · cases h
          · exact h
        have hn : NoWho ms := fun y hy => h2 y (by rw [← h1]; exact List.mem_append.2 (Or.inl hy))
        rw [hlo, ho, hre, loopRun]
        have key : (loopStep N.comp N.parse N.firstSend (.waiting data) (.whoAmI N.me)).1 ≠ .unreachable ∧
            (loopStep N.comp N.parse N.firstSend (.waiting data) (.whoAmI N.me)).1 ≠ .stopped ∧
            ∀ d, (loopStep N.comp N.parse N.firstSend (.waiting data) (.whoAmI N.me)).1 ≠ .waiting d := by
          simp only [loopStep, Element.diff]
          split <;> simp
        rcases run_closed N.comp N.parse N.firstSend ms _ hn key.1 key.2.1 key.2.2 hw' with ⟨r1, r2⟩ | r1
        · exact Or.inl ⟨r1, List.mem_append.2 (Or.inr r2)⟩
        · exact Or.inr r1
  obtain ⟨s1, s2⟩ := over_stays (x.steps k l hkl) (by rcases hkey with h | h; exact Or.inl h.1; exact Or.inr h)
  rw [s1, s2]
  exact hkey

/-- **C100.** In every fair execution in which the reader does not die: the messages a client sends (each a frame, or fragments with nothing in
between) are received by the component loop, in order, at some time; and if a close frame follows them, then from some time on the
component is dropped, unless the loop has crashed. -/
theorem C100_client_messages (W : Nat) (N : NetEnv D I S E P (WsState × Conn)) (hN : N.next = socketNext W) (data : D)
    (items : List (Rfc6455.Kind × List Delivery × Message)) (rest : Raw) (o : Bytes)
    (h : ∀ y ∈ items, (∀ d ∈ y.2.1, d.Ok W) ∧ y.1 ≠ .close ∧ IsMessage y.1 (y.2.1.map Delivery.frame) ∧
      Means y.1 (payloads (y.2.1.map Delivery.frame)) y.2.2)
    (hs : N.socket = (.open, ⟨(items.map fun y => (y.2.1.map Delivery.reads).flatten).flatten ++ rest, ⟨o, none⟩⟩))
    (x : Execution N data) (hf : x.Fair) (hl : x.ReaderLives) :
    (∃ j, (items.map fun y => Except.ok y.2.2) <+: socketOf (x.state j).received) ∧
    (∀ (d : Delivery) (after : Raw), d.Ok W → Rfc6455.kindOf d.frame.nibble = .close → rest = d.reads ++ after →
      ∃ j, ∀ k, j ≤ k → ((x.state k).loop = .stopped ∧ .dropped ∈ (x.state k).outs) ∨ (x.state k).loop = .crashed) := by
  have hdet : ∀ r m r1 m' r2, N.next r m r1 → N.next r m' r2 → m = m' ∧ r1 = r2 := by
    rw [hN]; exact socketNext_det W
  obtain ⟨o', hc⟩ := chain_reads hN (C14_between_partial W items rest h) o
  rw [← hs] at hc
  constructor
  · obtain ⟨j, hj⟩ := eventually_got hf hl hdet hc
    obtain ⟨k, -, -, hk, -⟩ := C99_eventually_received x hf j
    refine ⟨k, ?_⟩
    rw [List.map_map] at hj
    exact hj.trans hk
  · intro d after hd hk hrest
    subst hrest
    have hclose := C16_close_anywhere W .text [] d after (by simp) (by simp) (Or.inl rfl) hd hk
    simp only [List.map_nil, List.flatten_nil, List.nil_append] at hclose
    have hn : N.next (.open, ⟨d.reads ++ after, ⟨o', none⟩⟩) (some (.error .connectionClosed))
        (.closed, ⟨after, ⟨o' ++ closeFrame.bytes, none⟩⟩) := by
      rw [hN]
      simp [socketNext, WebSocket.next, hclose, sendFrame_eq, Sink.writeAll]
    obtain ⟨j, hj⟩ := eventually_got hf hl hdet (chain_snoc hc hn)
    exact told_closed hf j (hj.subset (by simp))

/-- a component whose views have no keys does not crash the loop -/
theorem never_crashes (C : Component D I S E P) (hk : ∀ s, (C.render s).1.Unkeyed) (parse : String → Option ClientMessage) :
    ∀ (ms : List (Mail I P)) (ph : Phase D I S P), ph ≠ .crashed → (∀ st, ph = .running st → st.dom.Unkeyed) →
      (loopRun C parse true ph ms).1 ≠ .crashed
  | [], ph, h, _ => h
  | m :: ms, ph, h, hd => by
    rw [loopRun]
    have first : ∀ e : Element, e.diff none = some (createFromScratch none e) := fun e => rfl
    have upd : ∀ st i, st.dom.Unkeyed → (updateAndDiff C st i).1 ≠ .crashed ∧
        ∀ st', (updateAndDiff C st i).1 = .running st' → st'.dom.Unkeyed := by
      intro st i hst
      simp only [updateAndDiff]
      obtain ⟨⟨ops, ho⟩, -⟩ := C59_unkeyed_partial st.dom (C.render (C.update st.comp i st.proc).1).1 hst (hk _)
      rw [ho]
      refine ⟨by simp, ?_⟩
      intro st' hst'
      simp only [Phase.running.injEq] at hst'
      subst hst'
      exact hk _
    have key : (loopStep C parse true ph m).1 ≠ .crashed ∧ ∀ st, (loopStep C parse true ph m).1 = .running st → st.dom.Unkeyed := by
      cases ph with
      | waiting d =>
        cases m with
        | whoAmI p =>
          simp only [loopStep, first, if_true]
          refine ⟨by simp, ?_⟩
          intro st' hst'
          simp only [Phase.running.injEq] at hst'
          subst hst'
          exact hk _
        | ws _ => simp [loopStep]
        | input _ => simp [loopStep]
      | unreachable => simp [loopStep]
      | stopped => simp [loopStep]
      | crashed => exact absurd rfl h
      | running st =>
        have hst := hd st rfl
        by_cases hask : ∃ i, Asks parse st.listeners m i
        · obtain ⟨i, hi⟩ := hask
          rw [step_asks hi]
          exact upd st i hst
        · by_cases hw : ∃ q, m = .whoAmI q
          · obtain ⟨q, rfl⟩ := hw; simp [loopStep]
          · by_cases hc : m = .ws (.error .connectionClosed)
            · subst hc; simp [loopStep]
            · rw [step_ignored (fun i hi => hask ⟨i, hi⟩) hc (fun q hq => hw ⟨q, hq⟩)]
              refine ⟨by simp, ?_⟩
              intro st' hst'
              simp only [Phase.running.injEq] at hst'
              subst hst'
              exact hst
    exact never_crashes C hk parse ms _ key.1 key.2

/-- **C100, for views without keys** (all those made by `into_element`) and a first send that succeeds: after a close frame the component
is dropped, without exception. -/
theorem C100_dropped (W : Nat) (N : NetEnv D I S E P (WsState × Conn)) (hN : N.next = socketNext W) (data : D)
    (hk : ∀ s, (N.comp.render s).1.Unkeyed) (h1 : N.firstSend = true)
    (items : List (Rfc6455.Kind × List Delivery × Message)) (d : Delivery) (after : Raw) (o : Bytes)
    (h : ∀ y ∈ items, (∀ d ∈ y.2.1, d.Ok W) ∧ y.1 ≠ .close ∧ IsMessage y.1 (y.2.1.map Delivery.frame) ∧
      Means y.1 (payloads (y.2.1.map Delivery.frame)) y.2.2)
    (hd : d.Ok W) (hc : Rfc6455.kindOf d.frame.nibble = .close)
    (hs : N.socket = (.open, ⟨(items.map fun y => (y.2.1.map Delivery.reads).flatten).flatten ++ (d.reads ++ after), ⟨o, none⟩⟩))
    (x : Execution N data) (hf : x.Fair) (hl : x.ReaderLives) :
    ∃ j, ∀ k, j ≤ k → (x.state k).loop = .stopped ∧ .dropped ∈ (x.state k).outs := by
  obtain ⟨j, hj⟩ := (C100_client_messages W N hN data items _ o h hs x hf hl).2 d after hd hc rfl
  refine ⟨j, fun k hk' => ?_⟩
  rcases hj k hk' with h' | h'
  · exact h'
  · obtain ⟨-, -, hlo, -⟩ := C68_processes N data _ (x.reach k)
    rw [h', h1] at hlo
    exact absurd hlo.symm (never_crashes N.comp hk N.parse _ _ (by simp) (by simp))

/-! ## non-vacuity: a round robin is fair -/

/-- the manager's turn -/
def managerTurn (N : NetEnv D I S E P R) (n : Net D I S E P R) : Net D I S E P R :=
  match n.manager with
  | .start => { n with manager := .spawned }
  | .spawned => { n with manager := .told, loopBox := n.loopBox ++ [.whoAmI N.me] }
  | .told => { n with manager := .forwarding, reader := some N.socket }
  | .forwarding =>
    match n.inbox with
    | [] => n
    | i :: rest => { n with inbox := rest, loopBox := n.loopBox ++ [.input i] }

/-- the reader's turn -/
def readerTurn (W : Nat) (n : Net D I S E P (WsState × Conn)) : Net D I S E P (WsState × Conn) :=
  match n.reader with
  | none => n
  | some r =>
    match WebSocket.next W r.1 r.2 with
    | (.ok msg, st, c) => { n with reader := some (st, c), loopBox := n.loopBox ++ [.ws (.ok msg)], got := n.got ++ [.ok msg] }
    | (.err e, st, c) => { n with reader := some (st, c), loopBox := n.loopBox ++ [.ws (.error e)], got := n.got ++ [.error e] }
    | (.panic, _, _) => n

/-- the loop's turn -/
def loopTurn (N : NetEnv D I S E P R) (n : Net D I S E P R) : Net D I S E P R :=
  if n.manager = .start then n
  else
    match n.loopBox with
    | [] => n
    | m :: rest =>
      { n with
        loopBox := rest
        loop := (loopStep N.comp N.parse N.firstSend n.loop m).1
        outs := n.outs ++ (loopStep N.comp N.parse N.firstSend n.loop m).2
        received := n.received ++ [m] }

/-- the outside world's turn -/
def outsideTurn (i : Option I) (n : Net D I S E P R) : Net D I S E P R :=
  match i with
  | none => n
  | some i => { n with inbox := n.inbox ++ [i], sent := n.sent ++ [i] }

/-- a round robin, in which the outside world sends the given inputs -/
def roundRobin (W : Nat) (N : NetEnv D I S E P (WsState × Conn)) (data : D) (ins : Nat → Option I) : Nat → Net D I S E P (WsState × Conn)
  | 0 => Net.init data
  | i + 1 =>
    let n := roundRobin W N data ins i
    if i % 4 = 0 then managerTurn N n
    else if i % 4 = 1 then readerTurn W n
    else if i % 4 = 2 then loopTurn N n
    else outsideTurn (ins (i / 4)) n

theorem managerTurn_step (N : NetEnv D I S E P R) (n : Net D I S E P R) : managerTurn N n = n ∨ NetStep N n (managerTurn N n) := by
  unfold managerTurn
  cases hm : n.manager with
  | start => exact Or.inr (.spawnLoop n hm)
  | spawned => exact Or.inr (.tell n hm)
  | told => exact Or.inr (.spawnReader n hm)
  | forwarding =>
    cases hi : n.inbox with
    | nil => exact Or.inl rfl
    | cons i rest => exact Or.inr (by have := NetStep.forward (N := N) n i rest hm hi; rw [hm] at this; simpa using this)

theorem readerTurn_step (W : Nat) {N : NetEnv D I S E P (WsState × Conn)} (hN : N.next = socketNext W) (n : Net D I S E P (WsState × Conn)) :
    readerTurn W n = n ∨ NetStep N n (readerTurn W n) := by
  unfold readerTurn
  cases hr : n.reader with
  | none => exact Or.inl rfl
  | some r =>
    simp only
    split
    · rename_i msg st c heq
      exact Or.inr (.read n r (st, c) (.ok msg) hr (by rw [hN]; simp [socketNext, heq]))
    · rename_i e st c heq
      exact Or.inr (.read n r (st, c) (.error e) hr (by rw [hN]; simp [socketNext, heq]))
    · exact Or.inl rfl

theorem loopTurn_step (N : NetEnv D I S E P R) (n : Net D I S E P R) : loopTurn N n = n ∨ NetStep N n (loopTurn N n) := by
  unfold loopTurn
  by_cases hm : n.manager = .start
  · rw [if_pos hm]; exact Or.inl rfl
  · rw [if_neg hm]
    cases hb : n.loopBox with
    | nil => exact Or.inl rfl
    | cons m rest => exact Or.inr (.receive n m rest hm hb)

theorem outsideTurn_step (N : NetEnv D I S E P R) (i : Option I) (n : Net D I S E P R) :
    outsideTurn i n = n ∨ NetStep N n (outsideTurn i n) := by
  cases i with
  | none => exact Or.inl rfl
  | some i => exact Or.inr (.outside n i)

/-- Fair executions exist for every component, client and choice of inputs, and in them the inputs are sent. -/
theorem fair_exists (W : Nat) (N : NetEnv D I S E P (WsState × Conn)) (hN : N.next = socketNext W) (data : D) (ins : Nat → Option I) :
    ∃ x : Execution N data, x.Fair ∧ x.ReaderLives ∧ ∀ k i, ins k = some i → i ∈ (x.state (4 * k + 4)).sent := by
  have hstep : ∀ i, roundRobin W N data ins (i + 1) = roundRobin W N data ins i ∨
      NetStep N (roundRobin W N data ins i) (roundRobin W N data ins (i + 1)) := by
    intro i
    rw [roundRobin]
    split
    · exact managerTurn_step N _
    · split
      · exact readerTurn_step W hN _
      · split
        · exact loopTurn_step N _
        · exact outsideTurn_step N _ _
  let x : Execution N data := ⟨roundRobin W N data ins, rfl, hstep⟩
  have e0 : ∀ i, roundRobin W N data ins (4 * i + 1) = managerTurn N (roundRobin W N data ins (4 * i)) := by
    intro i
    rw [roundRobin]
    rw [if_pos (by omega)]
  have e1 : ∀ i, roundRobin W N data ins (4 * i + 1 + 1) = readerTurn W (roundRobin W N data ins (4 * i + 1)) := by
    intro i
    rw [roundRobin]
    rw [if_neg (by omega), if_pos (by omega)]
  have e2 : ∀ i, roundRobin W N data ins (4 * i + 2 + 1) = loopTurn N (roundRobin W N data ins (4 * i + 2)) := by
    intro i
    rw [roundRobin]
    rw [if_neg (by omega), if_neg (by omega), if_pos (by omega)]
  have e3 : ∀ i, roundRobin W N data ins (4 * i + 3 + 1) = outsideTurn (ins i) (roundRobin W N data ins (4 * i + 3)) := by
    intro i
    rw [roundRobin]
    rw [if_neg (by omega), if_neg (by omega), if_neg (by omega)]
    congr 2
    omega
  refine ⟨x, ⟨?_, ?_, ?_⟩, ?_, ?_⟩
  · intro i h
    refine ⟨4 * i + 2, by omega, ?_⟩
    have hb := h (4 * i + 2) (by omega)
    have hm : (x.state (4 * i + 2)).manager ≠ .start := by
      intro hm
      exact hb ((inv_steps (inv_init N data) (x.reach (4 * i + 2))).early (Or.inl hm)).2.1
    show LoopMoves (roundRobin W N data ins (4 * i + 2)) (roundRobin W N data ins (4 * i + 2 + 1))
    rw [e2]
    have hb' : (roundRobin W N data ins (4 * i + 2)).loopBox ≠ [] := hb
    have hm' : (roundRobin W N data ins (4 * i + 2)).manager ≠ .start := hm
    generalize roundRobin W N data ins (4 * i + 2) = n at hb' hm'
    unfold LoopMoves loopTurn
    rw [if_neg hm']
    cases hbox : n.loopBox with
    | nil => exact absurd hbox hb'
    | cons m rest => simp
  · intro i h
    refine ⟨4 * i, by omega, ?_⟩
    have hb := h (4 * i) (by omega)
    show ManagerMoves (roundRobin W N data ins (4 * i)) (roundRobin W N data ins (4 * i + 1))
    rw [e0]
    have hb' : (roundRobin W N data ins (4 * i)).manager ≠ .forwarding ∨ (roundRobin W N data ins (4 * i)).inbox ≠ [] := hb
    generalize roundRobin W N data ins (4 * i) = n at hb'
    unfold ManagerMoves managerTurn
    cases hm : n.manager with
    | start => exact Or.inl (by simp)
    | spawned => exact Or.inl (by simp)
    | told => exact Or.inl (by simp)
    | forwarding =>
      cases hi : n.inbox with
      | nil => rcases hb' with h | h; exact absurd hm h; exact absurd hi h
      | cons i rest => exact Or.inr (by simp)
  · intro i h
    refine ⟨4 * i + 1, by omega, ?_⟩
    obtain ⟨r, m, r', hr, hn⟩ := h (4 * i + 1) (by omega)
    show ReaderMoves (roundRobin W N data ins (4 * i + 1)) (roundRobin W N data ins (4 * i + 1 + 1))
    rw [e1]
    have hr' : (roundRobin W N data ins (4 * i + 1)).reader = some r := hr
    generalize roundRobin W N data ins (4 * i + 1) = n at hr'
    rw [hN] at hn
    unfold ReaderMoves readerTurn
    rw [hr']
    simp only
    unfold socketNext at hn
    split
    · simp
    · simp
    · rename_i heq
      rw [heq] at hn
      exact hn.elim
  · intro i r hr
    have hr' : (roundRobin W N data ins i).reader = some r := hr
    show (roundRobin W N data ins (i + 1)).reader ≠ none
    rw [roundRobin]
    generalize roundRobin W N data ins i = n at hr'
    split
    · unfold managerTurn
      cases hm : n.manager with
      | start => simp [hr']
      | spawned => simp [hr']
      | told => simp
      | forwarding => cases hi : n.inbox <;> simp [hr']
    · split
      · unfold readerTurn
        rw [hr']
        simp only
        split
        · simp
        · simp
        · simp [hr']
      · split
        · unfold loopTurn
          split
          · simp [hr']
          · cases hb : n.loopBox <;> simp [hr']
        · unfold outsideTurn
          cases ins (i / 4) <;> simp [hr']
  · intro k i hk
    show i ∈ (roundRobin W N data ins (4 * k + 3 + 1)).sent
    rw [e3, hk]
    simp [outsideTurn]

/-- non-vacuity of C100: a client that sends a ping and then a close frame, a counter, and a round robin. -/
example : ∃ (N : NetEnv Unit Nat Nat String Unit (WsState × Conn)) (x : Execution N ()), x.Fair ∧ x.ReaderLives ∧
    ∃ j, ∀ k, j ≤ k → (x.state k).loop = .stopped ∧ .dropped ∈ (x.state k).outs := by
  let f0 : Rfc6455.ClientFrame := ⟨true, false, false, false, 9, (7, 7, 7, 7), [], .short⟩
  let f1 : Rfc6455.ClientFrame := ⟨true, false, false, false, 8, (7, 7, 7, 7), [], .short⟩
  let items : List (Rfc6455.Kind × List Delivery × Message) := [(.ping, [⟨f0, [.data f0.encode]⟩], .ping none)]
  let C : Component Unit Nat Nat String Unit := ⟨fun _ _ => (0, []), fun s i _ => (s + i, []), fun s => (⟨s, "p", [], [], [], none, none⟩, fun _ => none)⟩
  let N : NetEnv Unit Nat Nat String Unit (WsState × Conn) := ⟨C, fun _ => none, true, (),
    (.open, ⟨(items.map fun y => (y.2.1.map Delivery.reads).flatten).flatten ++ ([.data f1.encode] ++ []), ⟨[], none⟩⟩), socketNext 32⟩
  obtain ⟨x, hf, hl, -⟩ := fair_exists 32 N rfl () (fun _ => some 1)
  refine ⟨N, x, hf, hl, ?_⟩
  refine C100_dropped 32 N rfl () (fun s => ⟨rfl, trivial⟩) rfl items ⟨f1, [.data f1.encode]⟩ [] [] ?_ (ok_single _ (by decide) (by decide)) rfl rfl x hf hl
  intro y hy
  simp only [items, List.mem_singleton] at hy
  subst hy
  refine ⟨?_, by simp, ⟨rfl, Or.inl ⟨rfl, rfl⟩⟩, Means.pingEmpty⟩
  intro d hd; simp only [List.mem_singleton] at hd; subst hd; exact ok_single _ (by decide) (by decide)

end Puck
